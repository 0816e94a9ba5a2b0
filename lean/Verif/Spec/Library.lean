import Verif.Spec.History
import Verif.Props.Commit
/-
Independent specification of groups whose members all use this library: what they get to see of one another.
-/
namespace Mls.Spec

/-- The key pair package comes from GenerateKeyPairPackage, with a basic credential (the only kind the library makes). -/
def Generated (pr : Prims) (cs : UInt16) (kp : KeyPairPackage) : Prop :=
  ∃ name r, generateKeyPairPackage pr cs (.basic name) r = .ok kp

/-- The members in a tree, from left to right. -/
def members (t : VTree) : List LeafNode :=
  t.filterMap fun o => match o with
    | some (.leaf l) => some l
    | _ => none

/-- The states of the members of groups in which everyone calls this library. Whoever is in such a group created it or joined it with a welcome made
by a member for generated key packages; they follow the invitations that members in the same epoch make; and they may get any message
at all that they refuse, or whose application data they read. -/
inductive Library (pr : Prims) (cs : UInt16) : GroupState → Prop where
  | create {id : Bytes} {kp : KeyPairPackage} {rand : Nat → UInt8} {st : GroupState} (hg : Generated pr cs kp)
      (h : createGroup pr id kp rand = .ok st) : Library pr cs st
  | invite {st st1 : GroupState} {kps : List KeyPackage} {r : WelcomeRand} {o : Welcome × Bytes} (hl : Library pr cs st)
      (h : createWelcome pr st kps r = (.ok o, st1)) : Library pr cs st1
  | join {st st1 j : GroupState} {ks : List KeyPairPackage} {r : WelcomeRand} {w : Welcome} {raw : Bytes} {kp : KeyPairPackage} {now : GoTime}
      (hl : Library pr cs st) (hg : ∀ k ∈ ks, Generated pr cs k)
      (h : createWelcome pr st (ks.map fun k => k.pub) r = (.ok (w, raw), st1)) (hk : kp ∈ ks)
      (hc : ∀ k ∈ ks, k.pub ≠ kp.pub → k.pub.generateRef pr ≠ kp.pub.generateRef pr)
      (hj : groupFromWelcome pr w kp now = .ok j) : Library pr cs j
  | follow {st st1 st2 st2' : GroupState} {ks : List KeyPairPackage} {r : WelcomeRand} {w : Welcome} {raw : Bytes} {now : GoTime} {d : Option Bytes}
      (hl : Library pr cs st) (hl2 : Library pr cs st2) (hv : SameView st st2) (hg : ∀ k ∈ ks, Generated pr cs k)
      (h : createWelcome pr st (ks.map fun k => k.pub) r = (.ok (w, raw), st1))
      (ha : unmarshalAndProcessMessage pr st2 raw now = (.ok d, st2')) : Library pr cs st2'
  | read {st st' : GroupState} {raw data : Bytes} {now : GoTime} (hl : Library pr cs st)
      (h : unmarshalAndProcessMessage pr st raw now = (.ok (some data), st')) : Library pr cs st'
  | refuse {st st' : GroupState} {raw : Bytes} {now : GoTime} (hl : Library pr cs st)
      (h : unmarshalAndProcessMessage pr st raw now = (.err, st')) : Library pr cs st'

end Mls.Spec
