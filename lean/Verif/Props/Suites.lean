import Verif.Props.Unsupported
import Verif.Props.Accept
/-
C98: the cipher suite of a member's key package and that of its group.
-/
namespace Mls

variable {pr : Prims}

/-- What one has joined has the suite of the welcome. -/
theorem C98_welcome {w : Welcome} {kp : KeyPairPackage} {now : GoTime} {st : GroupState} (h : groupFromWelcome pr w kp now = .ok st) :
    st.group.groupContext.cipherSuite = w.cipherSuite := by
  unfold groupFromWelcome at h
  simp only [Res.bind_ok_iff] at h
  obtain ⟨ref, href, gs, hgs, _, _, _, _, h⟩ := h
  obtain ⟨psk, info, raw, v, leaf, li, pt, _, _, _, _, _, _, _, hs, _, _, _, _, _, hctx, _⟩ := groupFromSecrets_ok h
  rw [hctx, hs]

/-- **C98**, what holds of it: whoever creates a group, and whoever joins with a welcome whose commit at least one member has accepted, the inviter included,
has their key package's suite, and keeps it through all that is accepted and all invitations.
Missing: welcomes whose commits nobody has accepted (C98_refuted). -/
theorem C98_partial (hc : pr.Correct) :
    (∀ {id : Bytes} {kp : KeyPairPackage} {rand : Nat → UInt8} {st st' : GroupState}, createGroup pr id kp rand = .ok st → Spec.Since pr st st' →
      st'.group.groupContext.cipherSuite = kp.pub.cipherSuite) ∧
    ∀ {st st1 st2 st2' j j' : GroupState} {kps : List KeyPackage} {r : WelcomeRand} {w : Welcome} {raw : Bytes} {now now' : GoTime} {d : Option Bytes}
      {kp : KeyPairPackage}, Reachable pr st → Spec.OwnLeaf pr st → (∀ k ∈ kps, k.version = 1) →
      createWelcome pr st kps r = (.ok (w, raw), st1) → Reachable pr st2 → SameView st st2 →
      unmarshalAndProcessMessage pr st2 raw now = (.ok d, st2') → kp.pub ∈ kps → groupFromWelcome pr w kp now' = .ok j → Spec.Since pr j j' →
      j'.group.groupContext.cipherSuite = kp.pub.cipherSuite := by
  constructor
  · intro id kp rand st st' h hs
    rw [since_suite hs]
    unfold createGroup at h
    simp only [Res.bind_ok_iff] at h
    obtain ⟨⟨hp, t⟩, h1, pt, h2, th, hth, d, h3, _, _, _, _, _, _, _, _, h⟩ := h
    cases h
    rfl
  · intro st st1 st2 st2' j j' kps r w raw now now' d kp hr hown hw h hr2 hv ha hk hj hs
    rw [since_suite hs, C98_welcome hj]
    obtain ⟨hp, t, sd, th, psk, sig, cth, js, es, tag, rawTree, isig, ctx, run, -⟩ := createWelcome_run h
    rw [run.cipherSuite]
    exact (((C78_follows hc hr hr2 hv hown hw h now).1 ⟨d, st2', ha⟩).1 _ hk).cipherSuite.symm

/-- A key package of suite 3, generated with keys made of its name. -/
def toyMember3 (name : UInt8) : KeyPairPackage :=
  match generateKeyPairPackage toyPrims 3 (.basic [name])
      { init := [12, name], enc := [10, name], sig := [11, name], leafSign := [], pkgSign := [],
        now1 := toyNow, now2 := toyNow } with
  | .ok k => k
  | _ => default

/-- **C98** as a whole is false: CreateWelcome takes key packages of any suite and GroupFromWelcome compares the suite of the group with that of the welcome
only, so the owner of a valid key package of suite 1, who lists suite 1 only, comes into a group of suite 3; where nobody follows, not even the inviter. -/
theorem C98_refuted : ∃ st st1 w raw j, Reachable toyPrims st ∧ createWelcome toyPrims st [(toyMember 1).pub] default = (.ok (w, raw), st1) ∧
    (unmarshalAndProcessMessage toyPrims st1 raw toyLater).1 = .err ∧
    groupFromWelcome toyPrims w (toyMember 1) toyLater = .ok j ∧ (toyMember 1).pub.leafNode.capabilities.cipherSuites = [1] ∧
    (toyMember 1).pub.cipherSuite = 1 ∧ j.group.groupContext.cipherSuite = 3 ∧
    (toyMember 1).pub.verify toyPrims { st.group.groupContext with cipherSuite := 1 } = .ok () := by
  have key : (createGroup toyPrims [7] (toyMember3 0) (fun _ => 3)).holds (fun a =>
      let c := createWelcome toyPrims a [(toyMember 1).pub] default
      decide ((toyMember 1).pub.leafNode.capabilities.cipherSuites = [1]) && decide ((toyMember 1).pub.cipherSuite = 1) &&
      decide ((toyMember 1).pub.verify toyPrims { a.group.groupContext with cipherSuite := 1 } = .ok ()) &&
      c.1.holds (fun (w, raw) =>
        decide ((unmarshalAndProcessMessage toyPrims c.2 raw toyLater).1 = .err) &&
        (groupFromWelcome toyPrims w (toyMember 1) toyLater).holds (fun j => decide (j.group.groupContext.cipherSuite = 3)))) = true := by
    decide +kernel
  obtain ⟨a, h, hk⟩ := Res.holds_ok key
  simp only [Bool.and_eq_true, decide_eq_true_eq] at hk
  obtain ⟨⟨⟨h1, h2⟩, h3⟩, h4⟩ := hk
  obtain ⟨⟨w, raw⟩, hw, h4⟩ := Res.holds_ok h4
  simp only [Bool.and_eq_true, decide_eq_true_eq] at h4
  obtain ⟨h4, h5⟩ := h4
  obtain ⟨j, hj, h5⟩ := Res.holds_ok h5
  simp only [decide_eq_true_eq] at h5
  exact ⟨a, _, w, raw, j, .create h, Prod.ext hw rfl, h4, hj, h1, h2, h5, h3⟩

/-- An invitation that the inviter follows. -/
example : toyCreated.holds (fun a => (createWelcome toyPrims a [(toyMember 1).pub] default).1.holds (fun (w, raw) =>
    decide ((unmarshalAndProcessMessage toyPrims a raw toyLater).1 = .ok none) &&
    (groupFromWelcome toyPrims w (toyMember 1) toyLater).holds (fun j =>
      decide (j.group.groupContext.cipherSuite = (toyMember 1).pub.cipherSuite)))) = true := by decide +kernel

end Mls
