import Verif.Model.Codec
import Verif.Props.Wire
import Verif.Props.Serial
import Verif.Props.TreeMath
import Verif.Model.Group
import Verif.Props.Signing
import Verif.Props.Schedule
import Verif.Props.Time
import Verif.Props.Proposals
import Verif.Props.KeyPackages
import Verif.Proofs.Group
import Verif.Props.Group
import Verif.Props.GroupEffects
import Verif.Props.Authenticity
import Verif.Props.Sharing
import Verif.Props.Confirmation
import Verif.Props.Panics
import Verif.Props.Ratchet
import Verif.Props.Private
import Verif.Props.TreeRead
import Verif.Props.TreeCodec
import Verif.Spec.Integrity
import Verif.Proofs.Integrity
import Verif.Props.Integrity
import Verif.Props.UpdatePath
import Verif.Spec.History
import Verif.Spec.ToyHistory
import Verif.Proofs.Invariant
import Verif.Proofs.Removed
import Verif.Props.Invariant
import Verif.Spec.Commit
import Verif.Proofs.Commit
import Verif.Proofs.Agreement
import Verif.Proofs.Path
import Verif.Props.Commit
import Verif.Spec.Transcript
import Verif.Props.Transcript
import Verif.Props.PathSecret
import Verif.Props.Follow
import Verif.Props.Invitation
import Verif.Proofs.Fine
import Verif.Proofs.FineCalls
import Verif.Proofs.FineTree
import Verif.Proofs.FineCommit
import Verif.Proofs.FineGroup
import Verif.Props.NoPanic
import Verif.Proofs.FineJoin
import Verif.Props.Calls
import Verif.Spec.Intact
import Verif.Proofs.Intact
import Verif.Props.Intact
import Verif.Props.Joinable
import Verif.Spec.Snug
import Verif.Proofs.Snug
import Verif.Props.Admission
import Verif.Props.Accept
import Verif.Spec.Library
import Verif.Props.Library
import Verif.Props.Keys
import Verif.Conformance.Hash
import Verif.Conformance.Aead
import Verif.Conformance.Curves
import Verif.Conformance.Prims
import Verif.Conformance.Vectors
import Verif.Conformance.Main
import Verif.Spec.Nonces
import Verif.Props.Nonces
import Verif.Spec.Hiding
import Verif.Props.Hiding
import Verif.Props.Stream
import Verif.Spec.Authorship
import Verif.Props.Authorship
import Verif.Spec.Hostile
import Verif.Props.Hostile
import Verif.Props.Fork
import Verif.Props.Sender
import Verif.Props.Forget
import Verif.Props.Memory
import Verif.Props.Work
import Verif.Props.Replay
import Verif.Props.Requirements
import Verif.Spec.Forward
import Verif.Props.Forward
import Verif.Props.Clock
import Verif.Props.NoncesExact
import Verif.Props.Real
import Verif.Props.Bytes
import Verif.Props.Entries
import Verif.Model.Misc
import Verif.Props.Names
import Verif.Props.Unsupported
import Verif.Props.Suites
import Verif.Props.Refs
import Verif.Props.Rfc
import Verif.Props.ClockReadings
import Verif.Props.Copies
import Verif.Props.Exact
import Verif.Props.Welcomed
import Verif.Props.Sending
import Verif.Props.Crash
import Verif.Props.JoinCrash
import Verif.Props.Reserve
import Verif.Props.SendCrash
import Verif.Props.LeftBehind
import Verif.Props.Process
import Verif.Props.Start
import Verif.Props.Machine
import Verif.Props.Stolen
import Verif.Props.Ignored
import Verif.Props.Success
import Verif.Props.Enclose
import Verif.Props.Peers
import Verif.Props.Guests
import Verif.Props.Talk
import Verif.Model.Buffers
import Verif.Props.Buffers
import Verif.Model.Effort
import Verif.Proofs.Effort
import Verif.Props.Effort
import Verif.Model.CommitEffort
import Verif.Proofs.CommitEffort
import Verif.Props.CommitEffort
import Verif.Model.JoinEffort
import Verif.Proofs.JoinEffort
import Verif.Props.JoinEffort
import Verif.Model.TalkEffort
import Verif.Proofs.TalkEffort
import Verif.Props.TalkEffort
import Verif.Props.Length
import Verif.Props.InviteLength
import Verif.Props.Full
import Verif.Props.FullGroup
