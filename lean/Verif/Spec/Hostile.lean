import Verif.Spec.Authorship
import Verif.Spec.History
import Verif.Spec.Library
/-
People who use this library over a network that nobody can trust.
-/
namespace Mls.Spec

/-- The public key belongs to someone who uses it with this library only, in the given calls, and whose signatures nobody can forge. -/
def Known (pr : Prims) (calls : Call → Prop) (s : SigScheme) (pub : Bytes) : Prop := ∃ key, Unforgeable pr calls s key pub

/-- For the holder of the key package, the welcome holds a group info that names as its signer a leaf with the key `pub`. -/
def SignedBy (pr : Prims) (w : Welcome) (kp : KeyPairPackage) (pub : Bytes) : Prop :=
  ∃ ref gs psk info raw t leaf, kp.pub.generateRef pr = .ok ref ∧ w.decryptGroupSecrets pr ref kp.priv.initKey = .ok gs ∧
    extractPSKSecret pr w.cipherSuite gs.psks [] = .ok psk ∧ w.decryptGroupInfo pr gs.joinerSecret psk = .ok info ∧
    findExtensionData info.extensions 2 = some raw ∧ unmarshal decTree raw = .ok t ∧
    t[2 * info.signer.toNat % 2 ^ 32]? = some (some (.leaf leaf)) ∧ leaf.signatureKey = pub

/-- The states of people who use this library over a network that delivers whatever it likes to whomever it likes: they create groups, join with welcomes
that someone they know has signed, receive any bytes at all at any time, and make invitations. -/
inductive Held (pr : Prims) (calls : Call → Prop) : GroupState → Prop where
  | create {id : Bytes} {kp : KeyPairPackage} {rand : Nat → UInt8} {st : GroupState} (h : createGroup pr id kp rand = .ok st)
      (hk : ∀ sd, suite st.group.groupContext.cipherSuite = .ok sd → Known pr calls sd.sig kp.pub.leafNode.signatureKey) : Held pr calls st
  | join {w : Welcome} {kp : KeyPairPackage} {now : GoTime} {st : GroupState} {pub : Bytes} (h : groupFromWelcome pr w kp now = .ok st)
      (hs : SignedBy pr w kp pub) (hk : ∀ sd, suite st.group.groupContext.cipherSuite = .ok sd → Known pr calls sd.sig pub) : Held pr calls st
  | receive {st st' : GroupState} {raw : Bytes} {now : GoTime} {r : Res (Option Bytes)} (hr : Held pr calls st)
      (h : unmarshalAndProcessMessage pr st raw now = (r, st')) (hf : r.Fine) : Held pr calls st'
  | invite {st st' : GroupState} {kps : List KeyPackage} {rnd : WelcomeRand} {o : Res (Welcome × Bytes)} (hr : Held pr calls st)
      (h : createWelcome pr st kps rnd = (o, st')) (hf : o.Fine) : Held pr calls st'

/-- What people do with the library: they send messages and invitations in the groups they have got, and invite those that they know. No group lasts
for 2^64 epochs. -/
structure Careful (pr : Prims) (calls : Call → Prop) : Prop where
  message : ∀ st data rand guard, calls (.message st data rand guard) → Held pr calls st
  invite : ∀ st kps r, calls (.invite st kps r) → Held pr calls st
  invited : ∀ st kps r, calls (.invite st kps r) → ∀ k ∈ kps, ∀ sd, suite st.group.groupContext.cipherSuite = .ok sd →
    Known pr calls sd.sig k.leafNode.signatureKey
  epochs : ∀ st, Held pr calls st → st.group.groupContext.epoch.toNat + 1 < 2 ^ 64

/-- The history of a group, as far as its context tells: who created it, and the invitations made by its members one after the other, each in the
very context that those before have led to, with the key of a member. `ms` are the creator and the invited, in order. -/
inductive Lineage (pr : Prims) (calls : Call → Prop) : GroupContext → List LeafNode → Prop where
  | create {id : Bytes} {kp : KeyPairPackage} {rand : Nat → UInt8} {st : GroupState} (h : createGroup pr id kp rand = .ok st) :
      Lineage pr calls st.group.groupContext [kp.pub.leafNode]
  | invite {st : GroupState} {kps : List KeyPackage} {r : WelcomeRand} {o : Welcome × Bytes} {st1 : GroupState} {ms : List LeafNode}
      {treeHash transcript : Bytes} {sd : SuiteDesc} {leaf : LeafNode} (hl : Lineage pr calls st.group.groupContext ms)
      (hc : calls (.invite st kps r)) (h : createWelcome pr st kps r = (.ok o, st1)) (hs : suite st.group.groupContext.cipherSuite = .ok sd)
      (hm : leaf ∈ ms) (hu : Unforgeable pr calls sd.sig st.group.signaturePriv leaf.signatureKey) :
      Lineage pr calls { st.group.groupContext with epoch := st.group.groupContext.epoch + 1, treeHash, confirmedTranscriptHash := transcript }
        (ms ++ kps.map fun k => k.leafNode)

end Mls.Spec
