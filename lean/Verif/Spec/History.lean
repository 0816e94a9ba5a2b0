import Verif.Proofs.Res
import Verif.Model.Group
/-
What a program using the library can have gone through.
-/
namespace Mls

/-- The groups a program can have: created, or joined from a welcome, and then used with any messages (accepted or
refused with an error) and any invitations. -/
inductive Reachable (pr : Prims) : GroupState → Prop where
  | create {id : Bytes} {kp : KeyPairPackage} {rand : Nat → UInt8} {st : GroupState}
      (h : createGroup pr id kp rand = .ok st) : Reachable pr st
  | join {w : Welcome} {kp : KeyPairPackage} {now : GoTime} {st : GroupState}
      (h : groupFromWelcome pr w kp now = .ok st) : Reachable pr st
  | message {st st' : GroupState} {raw : Bytes} {now : GoTime} {r : Res (Option Bytes)} (hr : Reachable pr st)
      (h : unmarshalAndProcessMessage pr st raw now = (r, st')) (hf : r.Fine) : Reachable pr st'
  | invite {st st' : GroupState} {kps : List KeyPackage} {rnd : WelcomeRand} {o : Res (Welcome × Bytes)}
      (hr : Reachable pr st) (h : createWelcome pr st kps rnd = (o, st')) (hf : o.Fine) : Reachable pr st'

end Mls
