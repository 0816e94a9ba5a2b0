import Verif.Props.Start
import Verif.Props.SendCrash
/-
Property C115: the calls of a member, one after the other, are the steps of a machine over what the member knows.
-/
namespace Mls

open Spec (Ratchet nodeAt)

variable {pr : Prims}

/-! ### Specification -/

/-- The calls of the API on a group, with the clock and the randomness that they use. -/
inductive Spec.Act where
  | message (raw : Bytes) (now : GoTime)
  | invite (kps : List KeyPackage) (r : WelcomeRand)
  | send (data rand : Bytes) (guard : Bytes4)

/-- What a call returns. -/
inductive Spec.Reply where
  | nothing
  | data (b : Bytes)
  | invitation (w : Welcome) (raw : Bytes)
  | sent (raw : Bytes)
  | error
  deriving DecidableEq

/-- What comes of a call. -/
inductive Spec.Result where
  | returns (answer : Spec.Reply) (after : Spec.View)
  | panics
  | endless
  deriving DecidableEq

/-- The credentials of the key packages that are invited are of types that the library knows, as are those of all key packages that it
generates or reads. -/
def Spec.Act.Known : Spec.Act → Prop
  | .invite kps _ => ∀ k ∈ kps, ∀ ty, k.leafNode.credential ≠ .other ty
  | _ => True

/-- What the specification says comes of a call in the state `st`, whose tree is `s`. -/
inductive Spec.Step (pr : Prims) (sd : SuiteDesc) (st : GroupState) {d : Nat} (s : Ratchet ParentNode d) : Spec.Act → Spec.Result → Prop
  /-- A message (C113). -/
  | data {raw : Bytes} {now : GoTime} {b : Bytes} {v : Spec.View} : Spec.Processed pr sd st now s raw (.done (some b) v) →
      Spec.Step pr sd st s (.message raw now) (.returns (.data b) v)
  | processed {raw : Bytes} {now : GoTime} {v : Spec.View} : Spec.Processed pr sd st now s raw (.done none v) →
      Spec.Step pr sd st s (.message raw now) (.returns .nothing v)
  | refused {raw : Bytes} {now : GoTime} {v : Spec.View} : Spec.Processed pr sd st now s raw (.refused v) →
      Spec.Step pr sd st s (.message raw now) (.returns .error v)
  | panics {raw : Bytes} {now : GoTime} : Spec.Processed pr sd st now s raw .panics → Spec.Step pr sd st s (.message raw now) .panics
  | endless {raw : Bytes} {now : GoTime} : Spec.Processed pr sd st now s raw .endless → Spec.Step pr sd st s (.message raw now) .endless
  /-- An invitation that can be made (C107): the welcome and the message of RFC 9420. -/
  | invited {kps : List KeyPackage} {r : WelcomeRand} {w : Welcome} {raw : Bytes} : kps ≠ [] → (Spec.withMembers s kps).1 ≤ 31 →
      Spec.Rfc.invitation pr sd st.view.context st.view.epochSecret st.view.initSecret st.view.interim st.view.signaturePriv d st.view.my kps r
        (Spec.withMembers s kps).2 = some (w, raw) →
      Spec.Step pr sd st s (.invite kps r) (.returns (.invitation w raw)
        { st.view with nodes := Spec.leftBehind st.view.nodes ((Spec.withMembers s kps).2.flat .leaf .parent) })
  /-- One that cannot. -/
  | notInvited {kps : List KeyPackage} {r : WelcomeRand} : kps ≠ [] → (Spec.withMembers s kps).1 ≤ 31 →
      Spec.Rfc.invitation pr sd st.view.context st.view.epochSecret st.view.initSecret st.view.interim st.view.signaturePriv d st.view.my kps r
        (Spec.withMembers s kps).2 = none → ¬ Spec.InviteCrash pr sd st.group kps r (Spec.withMembers s kps).2 →
      Spec.Step pr sd st s (.invite kps r) (.returns .error
        { st.view with nodes := Spec.leftBehind st.view.nodes ((Spec.withMembers s kps).2.flat .leaf .parent) })
  /-- One that panics (C111). -/
  | invitePanics {kps : List KeyPackage} {r : WelcomeRand} :
      kps = [] ∨ (Spec.withMembers s kps).1 ≤ 31 ∧ Spec.InviteCrash pr sd st.group kps r (Spec.withMembers s kps).2 →
      Spec.Step pr sd st s (.invite kps r) .panics
  /-- One for more members than there is room for. -/
  | inviteEndless {kps : List KeyPackage} {r : WelcomeRand} : 31 < (Spec.withMembers s kps).1 → Spec.Step pr sd st s (.invite kps r) .endless
  /-- Application data (C107). -/
  | sent {data rand : Bytes} {guard : Bytes4} {raw : Bytes} :
      Spec.Rfc.applicationMessage pr sd st.view.context st.view.epochSecret st.view.signaturePriv d st.view.my data rand guard = some raw →
      Spec.Step pr sd st s (.send data rand guard) (.returns (.sent raw) st.view)
  | notSent {data rand : Bytes} {guard : Bytes4} :
      Spec.Rfc.applicationMessage pr sd st.view.context st.view.epochSecret st.view.signaturePriv d st.view.my data rand guard = none →
      Spec.Step pr sd st s (.send data rand guard) (.returns .error st.view)

/-- The same, by what the member knows. -/
def Spec.Steps (pr : Prims) (v : Spec.View) (c : Spec.Act) (r : Spec.Result) : Prop :=
  ∃ (st : GroupState) (sd : SuiteDesc) (d : Nat) (s : Ratchet ParentNode d), st.view = v ∧ (v.context.cipherSuite.toNat, sd) ∈ Spec.suites ∧
    v.nodes = s.flat .leaf .parent ∧ Spec.Step pr sd st s c r

/-- What the specification says comes of a list of calls, of which the last is the first that does not return. -/
inductive Spec.Session (pr : Prims) : Spec.View → List Spec.Act → List Spec.Result → Prop
  | nil {v : Spec.View} : Spec.Session pr v [] []
  | returns {v v' : Spec.View} {c : Spec.Act} {a : Spec.Reply} {l : List Spec.Act} {rs : List Spec.Result} :
      Spec.Steps pr v c (.returns a v') → Spec.Session pr v' l rs → Spec.Session pr v (c :: l) (.returns a v' :: rs)
  | panics {v : Spec.View} {c : Spec.Act} {l : List Spec.Act} : Spec.Steps pr v c .panics → Spec.Session pr v (c :: l) [.panics]
  | endless {v : Spec.View} {c : Spec.Act} {l : List Spec.Act} : Spec.Steps pr v c .endless → Spec.Session pr v (c :: l) [.endless]

/-! ### The calls of the model -/

/-- A call, on the model of the code: what it returns and the state afterwards. -/
def GroupState.call (pr : Prims) (st : GroupState) : Spec.Act → Res Spec.Reply × GroupState
  | .message raw now =>
    let x := unmarshalAndProcessMessage pr st raw now
    (x.1.bind fun o => .ok (match o with | some b => .data b | none => .nothing), x.2)
  | .invite kps r =>
    let x := createWelcome pr st kps r
    (x.1.bind fun o => .ok (.invitation o.1 o.2), x.2)
  | .send data rand guard => ((createApplicationMessage pr st data rand guard).bind fun raw => .ok (.sent raw), st)

/-- What comes of it. -/
def Spec.resultOf (x : Res Spec.Reply × GroupState) : Spec.Result :=
  match x.1 with
  | .ok a => .returns a x.2.view
  | .err => .returns .error x.2.view
  | .panic => .panics
  | .hang => .endless

/-- A list of calls. -/
def GroupState.session (pr : Prims) : GroupState → List Spec.Act → List Spec.Result
  | _, [] => []
  | st, c :: l =>
    Spec.resultOf (st.call pr c) :: match (st.call pr c).1 with
      | .ok _ | .err => GroupState.session pr (st.call pr c).2 l
      | _ => []

/-! ### C115 -/

/-- **C115**: what comes of a call on a group in use is what the specification says. -/
theorem C115_step (hc : pr.Correct) {st : GroupState} (hr : Reachable pr st)
    (hsup : supported st.group.groupContext.cipherSuite = .ok true) :
    ∃ (sd : SuiteDesc) (d : Nat) (s : Ratchet ParentNode d), (st.group.groupContext.cipherSuite.toNat, sd) ∈ Spec.suites ∧
      st.vtree = s.flat .leaf .parent ∧ ∀ c r, c.Known → (Spec.Step pr sd st s c r ↔ Spec.resultOf (st.call pr c) = r) := by
  obtain ⟨sd, d, s, hsd, hs, _, hm⟩ := C113_process hc hr hsup
  obtain ⟨sd1, d1, s1, e1, e2, happ⟩ := C107_application hc hr
  rw [← suite_iff_spec, hsd] at e1
  cases e1
  have := flat_any (hs.symm.trans e2)
  cases this
  obtain ⟨sd1, d1, s1, e1, e2, hinv⟩ := C107_invitation hc hr
  rw [← suite_iff_spec, hsd] at e1
  cases e1
  have := flat_any (hs.symm.trans e2)
  cases this
  obtain ⟨sd1, d1, s1, e1, e2, hcr⟩ := C111_invitation hc hr
  rw [← suite_iff_spec, hsd] at e1
  cases e1
  have := flat_any (hs.symm.trans e2)
  cases this
  obtain ⟨d1, s1, e2, _, hleft⟩ := C112_invitation hc hr
  have := flat_any (hs.symm.trans e2)
  cases this
  refine ⟨sd, d, s, (suite_iff_spec _ _).1 hsd, hs, fun c r hk => ?_⟩
  have hlv : ∀ kps rand, (Spec.withMembers s kps).1 ≤ 31 → (createWelcome pr st kps rand).2.view =
      { st.view with nodes := Spec.leftBehind st.view.nodes ((Spec.withMembers s kps).2.flat .leaf .parent) } := by
    intro kps rand h
    obtain ⟨g1, g2⟩ := hleft kps rand h
    unfold GroupState.view
    rw [g1, g2]
  constructor
  · intro h
    cases h with
    | data h =>
      have := (hm _ _ _).1 h
      unfold Spec.resultOf GroupState.call
      unfold Spec.outcomeOf at this
      dsimp only
      split at this <;> rename_i he <;> rw [he] <;> cases this
      rfl
    | processed h =>
      have := (hm _ _ _).1 h
      unfold Spec.resultOf GroupState.call
      unfold Spec.outcomeOf at this
      dsimp only
      split at this <;> rename_i he <;> rw [he] <;> cases this
      rfl
    | refused h =>
      have := (hm _ _ _).1 h
      unfold Spec.resultOf GroupState.call
      unfold Spec.outcomeOf at this
      dsimp only
      split at this <;> rename_i he <;> rw [he] <;> cases this
      rfl
    | panics h =>
      have := (hm _ _ _).1 h
      unfold Spec.resultOf GroupState.call
      unfold Spec.outcomeOf at this
      dsimp only
      split at this <;> rename_i he <;> rw [he] <;> cases this
      rfl
    | endless h =>
      have := (hm _ _ _).1 h
      unfold Spec.resultOf GroupState.call
      unfold Spec.outcomeOf at this
      dsimp only
      split at this <;> rename_i he <;> rw [he] <;> cases this
      rfl
    | @invited kps r w raw h1 h2 h3 =>
      have := (hinv kps r w raw h1).2 ⟨h2, h3⟩
      unfold Spec.resultOf GroupState.call
      dsimp only
      rw [this]
      show Spec.Result.returns _ (createWelcome pr st kps r).2.view = _
      rw [hlv kps r h2]
    | @notInvited kps r h1 h2 h3 h4 =>
      have a1 := hcr kps r hk
      unfold Spec.resultOf GroupState.call
      dsimp only
      rcases hx : (createWelcome pr st kps r).1 with ⟨w, raw⟩ | _ | _ | _
      · have := ((hinv kps r w raw h1).1 hx).2
        have h3' := h3.symm.trans this
        cases h3'
      · show Spec.Result.returns _ (createWelcome pr st kps r).2.view = _
        rw [hlv kps r h2]
      · rcases a1.1.1 hx with h | h
        · exact absurd h h1
        · exact absurd h.2 h4
      · have := a1.2.1 hx
        omega
    | @invitePanics kps r h =>
      have := (hcr kps r hk).1.2 h
      unfold Spec.resultOf GroupState.call
      dsimp only
      rw [this]
      rfl
    | @inviteEndless kps r h =>
      have := (hcr kps r hk).2.2 h
      unfold Spec.resultOf GroupState.call
      dsimp only
      rw [this]
      rfl
    | @sent data rand guard raw h =>
      have := happ data rand guard
      unfold Spec.resultOf GroupState.call
      dsimp only
      replace h : Spec.Rfc.applicationMessage pr sd st.group.groupContext st.group.epochSecret st.group.signaturePriv d st.group.myLeafIndex
          data rand guard = some raw := h
      rw [this, h]
      rfl
    | @notSent data rand guard h =>
      have := happ data rand guard
      unfold Spec.resultOf GroupState.call
      dsimp only
      replace h : Spec.Rfc.applicationMessage pr sd st.group.groupContext st.group.epochSecret st.group.signaturePriv d st.group.myLeafIndex
          data rand guard = none := h
      rw [this, h]
      rfl
  · rintro rfl
    cases c with
    | message raw now =>
      have hx := (hm raw now _).2 rfl
      unfold Spec.resultOf GroupState.call
      unfold Spec.outcomeOf at hx
      dsimp only
      rcases he : (unmarshalAndProcessMessage pr st raw now).1 with (_ | b) | _ | _ | _ <;> rw [he] at hx
      · exact .processed hx
      · exact .data hx
      · exact .refused hx
      · exact .panics hx
      · exact .endless hx
    | invite kps r =>
      have a1 := hcr kps r hk
      unfold Spec.resultOf GroupState.call
      dsimp only
      by_cases hne : kps = []
      · rw [a1.1.2 (.inl hne)]
        exact .invitePanics (.inl hne)
      rcases hx : (createWelcome pr st kps r).1 with ⟨w, raw⟩ | _ | _ | _
      · obtain ⟨h1, h2⟩ := (hinv kps r w raw hne).1 hx
        show Spec.Step pr sd st s _ (.returns _ (createWelcome pr st kps r).2.view)
        rw [hlv kps r h1]
        exact .invited hne h1 h2
      · have h1 : (Spec.withMembers s kps).1 ≤ 31 := by
          by_contra h
          have := a1.2.2 (by omega)
          rw [hx] at this; cases this
        show Spec.Step pr sd st s _ (.returns _ (createWelcome pr st kps r).2.view)
        rw [hlv kps r h1]
        refine .notInvited hne h1 ?_ fun h => ?_
        · cases ho : Spec.Rfc.invitation pr sd st.view.context st.view.epochSecret st.view.initSecret st.view.interim st.view.signaturePriv d
            st.view.my kps r (Spec.withMembers s kps).2 with
          | none => rfl
          | some p =>
            have := (hinv kps r p.1 p.2 hne).2 ⟨h1, ho⟩
            rw [hx] at this; cases this
        · have := a1.1.2 (.inr ⟨h1, h⟩)
          rw [hx] at this; cases this
      · exact .invitePanics (a1.1.1 hx)
      · exact .inviteEndless (a1.2.1 hx)
    | send data rand guard =>
      have := happ data rand guard
      unfold Spec.resultOf GroupState.call
      dsimp only
      rw [this]
      cases ho : Spec.Rfc.applicationMessage pr sd st.group.groupContext st.group.epochSecret st.group.signaturePriv d st.group.myLeafIndex
          data rand guard with
      | none => exact .notSent ho
      | some raw => exact .sent ho

theorem Spec.Step.of_view {sd : SuiteDesc} {st st2 : GroupState} (hv : st.view = st2.view) {d : Nat} {s : Ratchet ParentNode d} {c : Spec.Act}
    {r : Spec.Result} (h : Spec.Step pr sd st s c r) : Spec.Step pr sd st2 s c r := by
  have hv' := hv
  unfold GroupState.view at hv'
  simp only [Spec.View.mk.injEq] at hv'
  obtain ⟨e1, e2, e3, e4, e5, e6, e7, e8, e9, e10⟩ := hv'
  have crash : ∀ kps r {d' : Nat} (s' : Ratchet ParentNode d'), Spec.InviteCrash pr sd st.group kps r s' ↔ Spec.InviteCrash pr sd st2.group kps r s' := by
    intro kps r d' s'
    unfold Spec.InviteCrash
    rw [e2, e6, e3, e9, e7]
  cases h with
  | data h => exact .data (h.of_view hv)
  | processed h => exact .processed (h.of_view hv)
  | refused h => exact .refused (h.of_view hv)
  | panics h => exact .panics (h.of_view hv)
  | endless h => exact .endless (h.of_view hv)
  | invited h1 h2 h3 => rw [hv] at h3 ⊢; exact .invited h1 h2 h3
  | notInvited h1 h2 h3 h4 => rw [hv] at h3 ⊢; exact .notInvited h1 h2 h3 (fun h => h4 ((crash _ _ _).2 h))
  | invitePanics h => exact .invitePanics (h.imp id fun h => ⟨h.1, (crash _ _ _).1 h.2⟩)
  | inviteEndless h => exact .inviteEndless h
  | sent h => rw [hv] at h ⊢; exact .sent h
  | notSent h => rw [hv] at h ⊢; exact .notSent h

theorem steps_iff (hc : pr.Correct) {st : GroupState} (hr : Reachable pr st) (hsup : supported st.group.groupContext.cipherSuite = .ok true)
    {c : Spec.Act} (hk : c.Known) (r : Spec.Result) : Spec.Steps pr st.view c r ↔ Spec.resultOf (st.call pr c) = r := by
  obtain ⟨sd, d, s, h1, h2, h3⟩ := C115_step hc hr hsup
  constructor
  · rintro ⟨st2, sd', d', s', g1, g2, g3, g4⟩
    have h1' := (suite_iff_spec _ _).2 h1
    replace g2 : (st.group.groupContext.cipherSuite.toNat, sd') ∈ Spec.suites := g2
    rw [← suite_iff_spec, h1'] at g2
    cases g2
    have := flat_any (h2.symm.trans g3)
    cases this
    exact (h3 c r hk).1 (g4.of_view g1)
  · exact fun h => ⟨st, sd, d, s, rfl, h1, h2, (h3 c r hk).2 h⟩

theorem call_suite {st : GroupState} (c : Spec.Act) :
    (st.call pr c).2.group.groupContext.cipherSuite = st.group.groupContext.cipherSuite := by
  cases c with
  | message raw now => exact upm_suite (r := (unmarshalAndProcessMessage pr st raw now).1) rfl
  | invite kps r =>
    show (createWelcome pr st kps r).2.group.groupContext.cipherSuite = _
    rw [(C51_partial pr st kps r).1]
  | send _ _ _ => rfl

theorem call_reachable {st : GroupState} (hr : Reachable pr st) (c : Spec.Act) (hf : (st.call pr c).1.Fine) : Reachable pr (st.call pr c).2 := by
  have fine : ∀ {α β : Type} {x : Res α} {f : α → Res β}, (x.bind f).Fine → x.Fine := by
    intro α β x f h
    cases x with
    | ok a => exact ⟨by simp, by simp⟩
    | err => exact ⟨by simp, by simp⟩
    | panic => exact absurd rfl h.1
    | hang => exact absurd rfl h.2
  cases c with
  | message raw now => exact .message hr rfl (fine hf)
  | invite kps r => exact .invite hr rfl (fine hf)
  | send _ _ _ => exact hr

theorem session_cons (st : GroupState) (c : Spec.Act) (l : List Spec.Act) :
    st.session pr (c :: l) = Spec.resultOf (st.call pr c) :: match (st.call pr c).1 with
      | .ok _ | .err => GroupState.session pr (st.call pr c).2 l
      | _ => [] := rfl

/-- **C115**: what comes of any list of calls on a group in use is what the specification says, whatever messages, times, key packages, data and
randomness they have. -/
theorem C115_session (hc : pr.Correct) {st : GroupState} (hr : Reachable pr st) (hsup : supported st.group.groupContext.cipherSuite = .ok true)
    (l : List Spec.Act) (hk : ∀ c ∈ l, c.Known) (rs : List Spec.Result) : Spec.Session pr st.view l rs ↔ st.session pr l = rs := by
  induction l generalizing st rs with
  | nil =>
    constructor
    · intro h; cases h; rfl
    · intro h; cases h; exact .nil
  | cons c l ih =>
    have hd := steps_iff hc hr hsup (hk c List.mem_cons_self)
    have hs' : supported (st.call pr c).2.group.groupContext.cipherSuite = .ok true := by rw [call_suite c]; exact hsup
    have hr' := call_reachable hr c
    have hk' : ∀ c ∈ l, c.Known := fun c h => hk c (List.mem_cons_of_mem _ h)
    have key : ∀ a, Spec.resultOf (st.call pr c) = .returns a (st.call pr c).2.view → (st.call pr c).1.Fine →
        st.session pr (c :: l) = .returns a (st.call pr c).2.view :: GroupState.session pr (st.call pr c).2 l →
        (Spec.Session pr st.view (c :: l) rs ↔ st.session pr (c :: l) = rs) := by
      intro a h1 h2 h3
      have hi := fun rs => ih (hr' h2) hs' hk' (rs := rs)
      rw [h3]
      constructor
      · intro h
        cases h with
        | returns g1 g2 =>
          have := (hd _).1 g1
          rw [h1] at this
          cases this
          rw [(hi _).1 g2]
        | panics g1 => have := (hd _).1 g1; rw [h1] at this; cases this
        | endless g1 => have := (hd _).1 g1; rw [h1] at this; cases this
      · rintro rfl
        exact .returns ((hd _).2 h1) ((hi _).2 rfl)
    rcases hx : (st.call pr c).1 with a | _ | _ | _
    · refine key a ?_ (by rw [hx]; exact ⟨by simp, by simp⟩) ?_
      · unfold Spec.resultOf; rw [hx]
      · rw [session_cons]; unfold Spec.resultOf; rw [hx]
    · refine key .error ?_ (by rw [hx]; exact ⟨by simp, by simp⟩) ?_
      · unfold Spec.resultOf; rw [hx]
      · rw [session_cons]; unfold Spec.resultOf; rw [hx]
    · have h1 : Spec.resultOf (st.call pr c) = .panics := by unfold Spec.resultOf; rw [hx]
      have h3 : st.session pr (c :: l) = [.panics] := by rw [session_cons]; unfold Spec.resultOf; rw [hx]
      rw [h3]
      constructor
      · intro h
        cases h with
        | returns g1 g2 => have := (hd _).1 g1; rw [h1] at this; cases this
        | panics g1 => rfl
        | endless g1 => have := (hd _).1 g1; rw [h1] at this; cases this
      · rintro rfl
        exact .panics ((hd _).2 h1)
    · have h1 : Spec.resultOf (st.call pr c) = .endless := by unfold Spec.resultOf; rw [hx]
      have h3 : st.session pr (c :: l) = [.endless] := by rw [session_cons]; unfold Spec.resultOf; rw [hx]
      rw [h3]
      constructor
      · intro h
        cases h with
        | returns g1 g2 => have := (hd _).1 g1; rw [h1] at this; cases this
        | panics g1 => have := (hd _).1 g1; rw [h1] at this; cases this
        | endless g1 => rfl
      · rintro rfl
        exact .endless ((hd _).2 h1)

/-! ### Whole lives -/

/-- How a member starts. -/
inductive Spec.Start where
  | create (id : Bytes) (kp : KeyPairPackage) (rand : Nat → UInt8)
  | join (w : Welcome) (kp : KeyPairPackage) (now : GoTime)

/-- The cipher suite of the group. -/
def Spec.Start.suite : Spec.Start → UInt16
  | .create _ kp _ => kp.pub.cipherSuite
  | .join w _ _ => w.cipherSuite

/-- What a member knows at the start (C114). -/
inductive Spec.Starts (pr : Prims) : Spec.Start → Spec.View → Prop
  | created {id : Bytes} {kp : KeyPairPackage} {rand : Nat → UInt8} {sd : SuiteDesc} {th : Bytes} :
      (kp.pub.cipherSuite.toNat, sd) ∈ Spec.suites →
      Spec.Rfc.treeHash (pr.hash sd.hash) 0 (Ratchet.leaf (P := ParentNode) (some kp.pub.leafNode)) = some th →
      Spec.Starts pr (.create id kp rand) (Spec.created pr sd id kp th ((List.range sd.kdf.size).map rand))
  | joined {w : Welcome} {kp : KeyPairPackage} {now : GoTime} {sk sd : SuiteDesc} {ref : Bytes} {entry : EncryptedGroupSecrets}
      {gs : GroupSecrets} {info : GroupInfo} {t : VTree} {d : Nat} {s : Ratchet ParentNode d} {signer own : LeafNode} {li : Nat} {raw : Bytes}
      {keys : List (Option Bytes)} :
      Spec.WelcomeOk pr w kp now sk sd ref entry gs info t d s signer own li raw →
      Spec.JoinKeys pr sd d (info.signer.toNat % 2 ^ 31) li kp.priv.encryptionKey gs.pathSecret keys →
      Spec.Starts pr (.join w kp now) (Spec.joined pr sd kp gs info t li raw keys)

/-- The start, on the model of the code. -/
def Spec.Start.run (pr : Prims) : Spec.Start → Res GroupState
  | .create id kp rand => createGroup pr id kp rand
  | .join w kp now => groupFromWelcome pr w kp now

theorem starts_iff (hc : pr.Correct) (b : Spec.Start) (v : Spec.View) : Spec.Starts pr b v ↔ ∃ st, b.run pr = .ok st ∧ st.view = v := by
  cases b with
  | create id kp rand =>
    refine Iff.trans ?_ (C114_created hc id kp rand v).symm
    constructor
    · rintro ⟨h1, h2⟩
      exact ⟨_, _, h1, h2, rfl⟩
    · rintro ⟨sd, th, h1, h2, rfl⟩
      exact .created h1 h2
  | join w kp now =>
    refine Iff.trans ?_ (C114_joined hc w kp now v).symm
    constructor
    · intro h
      cases h with
      | joined h1 h2 => exact ⟨_, _, _, _, _, _, _, _, _, _, _, _, _, _, h1, h2, rfl⟩
    · rintro ⟨sk, sd, ref, entry, gs, info, t, d, s, signer, own, li, raw, keys, h1, h2, rfl⟩
      exact .joined h1 h2

/-- **C115**: the whole life of a member, from the creation of a group or a welcome on, through any list of calls, is what the specification
says: the specification allows the start with what the member then knows and the results of the calls exactly if that is what happens. -/
theorem C115_life (hc : pr.Correct) (b : Spec.Start) (hsup : supported b.suite = .ok true) (l : List Spec.Act) (hk : ∀ c ∈ l, c.Known)
    (v : Spec.View) (rs : List Spec.Result) :
    Spec.Starts pr b v ∧ Spec.Session pr v l rs ↔ ∃ st, b.run pr = .ok st ∧ st.view = v ∧ st.session pr l = rs := by
  have hs : ∀ st, b.run pr = .ok st → Reachable pr st ∧ supported st.group.groupContext.cipherSuite = .ok true := by
    intro st h
    have h' := (starts_iff hc b st.view).2 ⟨st, h, rfl⟩
    cases b with
    | create id kp rand =>
      refine ⟨.create h, ?_⟩
      generalize hv : st.view = v at h'
      cases h' with
      | created h1 h2 =>
        have : st.view.context.cipherSuite = kp.pub.cipherSuite := by rw [hv]; rfl
        replace this : st.group.groupContext.cipherSuite = kp.pub.cipherSuite := this
        rw [this]
        exact hsup
    | join w kp now =>
      refine ⟨.join h, ?_⟩
      generalize hv : st.view = v at h'
      cases h' with
      | @joined _ _ _ sk sd ref entry gs info t d s signer own li raw keys h1 h2 =>
        have : st.view.context.cipherSuite = info.groupContext.cipherSuite := by rw [hv]; rfl
        replace this : st.group.groupContext.cipherSuite = w.cipherSuite := this.trans h1.sameSuite
        rw [this]
        exact hsup
  constructor
  · rintro ⟨h1, h2⟩
    obtain ⟨st, g1, rfl⟩ := (starts_iff hc b v).1 h1
    exact ⟨st, g1, rfl, (C115_session hc (hs st g1).1 (hs st g1).2 l hk rs).1 h2⟩
  · rintro ⟨st, g1, rfl, g3⟩
    exact ⟨(starts_iff hc b _).2 ⟨st, g1, rfl⟩, (C115_session hc (hs st g1).1 (hs st g1).2 l hk rs).2 g3⟩

/-- There are such lives: a member who is invited, reads a message, sends one, invites another member and processes the commit of the invitation,
and then invites nobody, which is the last thing that they do. -/
example : (do
    let a ← toyCreated
    let (a, w) ← a.invite [1, 2]
    let st ← Spec.Start.run toyPrims (.join w (toyMember 1) toyLater)
    return (a, w, st)).holds (fun (a, w, st) =>
      decide (supported (Spec.Start.suite (.join w (toyMember 1) toyLater)) = Res.ok true) &&
      match createWelcome toyPrims st [(toyMember 3).pub] default with
      | (.ok (w', raw), _) =>
        let x : List Spec.Result := st.session toyPrims [.message (toyPrivate a 0 0 (.application [1, 2]) []) toyLater, .send [5] [] default,
          .invite [(toyMember 3).pub] default, .message raw toyLater, .invite [] default, .send [6] [] default]
        decide (x.length = 5) && decide (x[0]? = some (Spec.Result.returns (Spec.Reply.data [1, 2]) st.view)) &&
        decide (x[2]? = some (Spec.Result.returns (Spec.Reply.invitation w' raw) st.view)) &&
        (match x[3]? with
          | some (Spec.Result.returns Spec.Reply.nothing v) => decide (v.context.epoch = 2) && decide (v.nodes[6]? = some (some (Node.leaf (toyMember 3).pub.leafNode)))
          | _ => false) &&
        decide (x[4]? = some Spec.Result.panics)
      | _ => false) = true := by decide +kernel

end Mls
