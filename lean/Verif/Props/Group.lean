import Verif.Proofs.Aliasing
import Verif.Proofs.Sign
import Verif.Spec.ToyGroup
/-
Properties of message processing: C42, C43, C44, C45, C47, C51, C53, C60.
-/
namespace Mls

/-! ### C42 -/

/-- The group id and epoch written on a message. -/
def Spec.addressedTo (m : MlsMessage) : Option (Bytes × UInt64) :=
  match m.body with
  | .publicMessage p => some (p.content.groupID, p.content.epoch)
  | .privateMessage p => some (p.groupID, p.epoch)
  | _ => none

/-- C42: a message that is not addressed to this group in its current epoch is refused and changes
nothing. -/
theorem C42_refused (pr : Prims) (st : GroupState) (raw : Bytes) (now : GoTime) (m : MlsMessage)
    (hm : unmarshal MlsMessage.dec raw = .ok m)
    (h : Spec.addressedTo m ≠ some (st.group.groupContext.groupID, st.group.groupContext.epoch)) :
    unmarshalAndProcessMessage pr st raw now = (.err, st) := by
  unfold unmarshalAndProcessMessage
  rw [hm]
  obtain ⟨v, body⟩ := m
  have key : ∀ (g : Bytes) (e : UInt64) (α : Type) (f : Unit → Unit → Res α),
      some (g, e) ≠ some (st.group.groupContext.groupID, st.group.groupContext.epoch) →
      (Res.guardErr (g == st.group.groupContext.groupID) >>= fun u =>
        Res.guardErr (e == st.group.groupContext.epoch) >>= fun u' => f u u') = .err := by
    intro g e α f hne
    by_cases hg : g = st.group.groupContext.groupID
    · have he : e ≠ st.group.groupContext.epoch := by
        rintro rfl; exact hne (by rw [hg])
      rw [beq_iff_eq.2 hg, beq_eq_false_iff_ne.2 he]; rfl
    · rw [beq_eq_false_iff_ne.2 hg]; rfl
  cases body with
  | publicMessage m =>
    have : verifyPublicMessage pr st m = .err := key _ _ _ _ h
    simp only [processPublicMessage, this]
  | privateMessage m =>
    have : decryptPrivateMessage pr st m = .err := key _ _ _ _ h
    simp only [processPrivateMessage, this]
  | welcome | groupInfo | keyPackage => rfl

example : ∃ m, unmarshal MlsMessage.dec (toyPrivate toyPair 1 1 (.application [1]) []) = .ok m ∧
    Spec.addressedTo m ≠ some ([7], 6) ∧ Spec.addressedTo m = some ([7], 5) := by
  refine ⟨_, rfl, ?_⟩
  decide +kernel

/-! ### Effects of one message -/

variable {pr : Prims}

theorem bind_none_ok {r : Res Unit} {d : Option Bytes} (h : (r.bind fun _ => Res.ok none) = .ok d) :
    r = .ok () ∧ d = none := by
  cases r with
  | ok u => cases h; exact ⟨rfl, rfl⟩
  | err | panic | hang => cases h

/-- What an accepted message does, by content. -/
theorem accepted_cases {st st' : GroupState} {raw : Bytes} {now : GoTime} {d : Option Bytes}
    (h : unmarshalAndProcessMessage pr st raw now = (.ok d, st')) :
    ∃ a e, Carries pr st raw a e ∧
      ((∃ p, a.content.content = .proposal p ∧ d = none ∧ processProposal pr st a = (.ok (), st')) ∨
       (∃ c, a.content.content = .commit c ∧ d = none ∧ processCommit pr st a [] [] now = (.ok (), st')) ∨
       (∃ data, a.content.content = .application data ∧ d = some data ∧ st' = st ∧ e = true)) := by
  rcases upm_cases pr st raw now with ⟨a, e, hc, he⟩ | ⟨_, _, hn⟩
  · refine ⟨a, e, hc, ?_⟩
    rw [he] at h
    unfold dispatch at h
    cases hk : a.content.content with
    | proposal p =>
      rw [hk] at h
      simp only [Prod.mk.injEq] at h
      obtain ⟨h1, h2⟩ := bind_none_ok h.1
      exact .inl ⟨p, rfl, h2, Prod.ext h1 h.2⟩
    | commit c =>
      rw [hk] at h
      simp only [Prod.mk.injEq] at h
      obtain ⟨h1, h2⟩ := bind_none_ok h.1
      exact .inr (.inl ⟨c, rfl, h2, Prod.ext h1 h.2⟩)
    | application data =>
      rw [hk] at h
      simp only at h
      cases e with
      | true => cases h; exact .inr (.inr ⟨data, rfl, rfl, rfl, rfl⟩)
      | false => cases h
  · exact absurd (congrArg Prod.fst h) (by rw [h] at hn; exact fun _ => hn d rfl)

/-- What a message that is not accepted does. -/
theorem rejected_cases {st st' : GroupState} {raw : Bytes} {now : GoTime} {r : Res (Option Bytes)}
    (h : unmarshalAndProcessMessage pr st raw now = (r, st')) (hr : ∀ d, r ≠ .ok d) :
    st' = st ∨ ∃ a e c ps ss h t, Carries pr st raw a e ∧ a.content.content = .commit c ∧
      checkProposals pr st.group a.content.sender.leafIndex c = .ok (ps, ss) ∧
      treeApply st.heap st.group.tree ps ss = .ok (h, t) ∧ st' = { st with heap := h } ∧ r = .err := by
  rcases upm_cases pr st raw now with ⟨a, e, hc, he⟩ | ⟨_, hs, _⟩
  · rw [he] at h
    unfold dispatch at h
    cases hk : a.content.content with
    | proposal p =>
      rw [hk] at h
      simp only [Prod.mk.injEq] at h
      rcases processProposal_cases (pr := pr) st a p hk with ⟨ref, _, hp⟩ | ⟨_, hp⟩
      · rw [hp] at h; exact absurd h.1.symm (hr _)
      · rw [hp] at h; exact .inl h.2.symm
    | commit c =>
      rw [hk] at h
      simp only [Prod.mk.injEq] at h
      rcases processCommit_cases (pr := pr) st a c hk [] [] now with ⟨_, _, _, _, _, _, _, _, hp⟩ | ⟨_, _, hp | hp⟩
      · rw [hp] at h; exact absurd h.1.symm (hr _)
      · rw [hp] at h; exact .inl h.2.symm
      · obtain ⟨ps, ss, h', t, h1, h2, h3, h4⟩ := hp
        rw [h4] at h
        exact .inr ⟨a, e, c, ps, ss, h', t, hc, hk, h1, h2, h.2.symm, h.1.symm⟩
    | application data =>
      rw [hk] at h
      simp only at h
      cases e with
      | true => cases h; exact absurd rfl (hr _)
      | false => cases h; exact .inl rfl
  · rw [h] at hs; exact .inl hs

/-! ### C44 -/

/-- The message carries a commit that the group accepts. -/
def AcceptedCommit (pr : Prims) (st : GroupState) (raw : Bytes) (now : GoTime) : Prop :=
  ∃ a e c, Carries pr st raw a e ∧ a.content.content = .commit c ∧
    (unmarshalAndProcessMessage pr st raw now).1 = .ok none

/-- What never changes in a group. -/
structure SameIdentity (g g' : Group) : Prop where
  version : g'.groupContext.version = g.groupContext.version
  cipherSuite : g'.groupContext.cipherSuite = g.groupContext.cipherSuite
  groupID : g'.groupContext.groupID = g.groupContext.groupID
  extensions : g'.groupContext.extensions = g.groupContext.extensions
  myLeafIndex : g'.myLeafIndex = g.myLeafIndex
  signaturePriv : g'.signaturePriv = g.signaturePriv

theorem SameIdentity.refl (g : Group) : SameIdentity g g := ⟨rfl, rfl, rfl, rfl, rfl, rfl⟩
theorem SameIdentity.trans {a b c : Group} (h : SameIdentity a b) (h' : SameIdentity b c) : SameIdentity a c :=
  ⟨h'.1.trans h.1, h'.2.trans h.2, h'.3.trans h.3, h'.4.trans h.4, h'.5.trans h.5, h'.6.trans h.6⟩

/-- The effect of any message, accepted or not, on epoch and identity. -/
theorem message_effect (st : GroupState) (raw : Bytes) (now : GoTime) :
    SameIdentity st.group (unmarshalAndProcessMessage pr st raw now).2.group ∧
    ((AcceptedCommit pr st raw now ∧ (unmarshalAndProcessMessage pr st raw now).2.group.groupContext.epoch =
        st.group.groupContext.epoch + 1) ∨
     (¬ AcceptedCommit pr st raw now ∧ (unmarshalAndProcessMessage pr st raw now).2.group =
        { st.group with pendingProposals :=
            (unmarshalAndProcessMessage pr st raw now).2.group.pendingProposals })) := by
  rcases hu : unmarshalAndProcessMessage pr st raw now with ⟨r, st'⟩
  have rej : (∀ d, r ≠ .ok d) → SameIdentity st.group st'.group ∧
      ((AcceptedCommit pr st raw now ∧ st'.group.groupContext.epoch = st.group.groupContext.epoch + 1) ∨
      (¬ AcceptedCommit pr st raw now ∧ st'.group =
        { st.group with pendingProposals := st'.group.pendingProposals })) := by
    intro hr
    have hg : st'.group = st.group := by
      rcases rejected_cases hu hr with rfl | ⟨_, _, _, _, _, _, _, _, _, _, _, rfl, _⟩ <;> rfl
    refine ⟨hg ▸ .refl _, .inr ⟨?_, by rw [hg]⟩⟩
    rintro ⟨_, _, _, _, _, h⟩
    rw [hu] at h
    exact hr _ h
  cases r with
  | ok d =>
    obtain ⟨a, e, hc, h⟩ := accepted_cases hu
    rcases h with ⟨p, hk, rfl, hp⟩ | ⟨c, hk, rfl, hp⟩ | ⟨data, hk, rfl, rfl, _⟩
    · rcases processProposal_cases (pr := pr) st a p hk with ⟨ref, _, hp'⟩ | ⟨hp', _⟩
      · rw [hp'] at hp; cases hp
        refine ⟨⟨rfl, rfl, rfl, rfl, rfl, rfl⟩, .inr ⟨?_, rfl⟩⟩
        rintro ⟨a', e', c, hc', hk', _⟩
        obtain ⟨rfl, _⟩ := hc.unique hc'
        rw [hk] at hk'; cases hk'
      · rw [hp] at hp'; exact absurd rfl hp'
    · rcases processCommit_cases (pr := pr) st a c hk [] [] now with ⟨_, _, _, _, st2, _, _, hf, hp'⟩ | ⟨hp', _⟩
      · rw [hp'] at hp; cases hp
        obtain ⟨h1, h2, h3, h4, h5, h6, h7, _⟩ := finishCommit_group hf
        refine ⟨⟨h2, h3, h4, h5, h6, h7⟩, .inl ⟨⟨a, e, c, hc, hk, by rw [hu]⟩, h1⟩⟩
      · rw [hp] at hp'; exact absurd rfl hp'
    · refine ⟨.refl _, .inr ⟨?_, rfl⟩⟩
      rintro ⟨a', e', c, hc', hk', _⟩
      obtain ⟨rfl, _⟩ := hc.unique hc'
      rw [hk] at hk'; cases hk'
  | err => exact rej (by simp)
  | panic => exact rej (by simp)
  | hang => exact rej (by simp)

theorem succ_ne (e : UInt64) : e + 1 ≠ e := by
  intro h
  have := congrArg UInt64.toNat h
  rw [UInt64.toNat_add] at this
  have h1 : (1 : UInt64).toNat = 1 := rfl
  have := e.toNat_lt
  omega

/-- C44: one message. The identity of the group never changes; the epoch is incremented by one
exactly for accepted commits, and kept otherwise. -/
theorem C44_message (pr : Prims) (st : GroupState) (raw : Bytes) (now : GoTime) :
    SameIdentity st.group (unmarshalAndProcessMessage pr st raw now).2.group ∧
    (AcceptedCommit pr st raw now ↔ (unmarshalAndProcessMessage pr st raw now).2.group.groupContext.epoch =
        st.group.groupContext.epoch + 1) ∧
    (¬ AcceptedCommit pr st raw now ↔ (unmarshalAndProcessMessage pr st raw now).2.group.groupContext.epoch =
        st.group.groupContext.epoch) := by
  obtain ⟨hi, h⟩ := message_effect (pr := pr) st raw now
  refine ⟨hi, ?_⟩
  rcases h with ⟨h1, h2⟩ | ⟨h1, h2⟩
  · refine ⟨by simp [h1, h2], by simp [h1, h2]⟩
  · have : (unmarshalAndProcessMessage pr st raw now).2.group.groupContext.epoch = st.group.groupContext.epoch := by
      rw [h2]
    exact ⟨by simp [h1, this, (succ_ne _).symm], by simp [h1, this]⟩

theorem createWelcome_group (st : GroupState) (kps : List KeyPackage) (r : WelcomeRand) :
    (createWelcome pr st kps r).2.group = st.group := by
  unfold createWelcome
  split
  · rfl
  · split <;> rfl

/-- What happens to a group: messages accepted (listed with their content), messages refused, and
invitations made. A call that panics ends the history. -/
inductive Trace (pr : Prims) : GroupState → List AuthenticatedContent → GroupState → Prop where
  | nil (st : GroupState) : Trace pr st [] st
  | accept {st st1 st2 : GroupState} {as : List AuthenticatedContent} {raw : Bytes} {now : GoTime}
      {a : AuthenticatedContent} {e : Bool} {d : Option Bytes} (h : Trace pr st as st1)
      (hc : Carries pr st1 raw a e) (hr : unmarshalAndProcessMessage pr st1 raw now = (.ok d, st2)) :
      Trace pr st (as ++ [a]) st2
  | refuse {st st1 st2 : GroupState} {as : List AuthenticatedContent} {raw : Bytes} {now : GoTime}
      (h : Trace pr st as st1) (hr : unmarshalAndProcessMessage pr st1 raw now = (.err, st2)) :
      Trace pr st as st2
  | invite {st st1 st2 : GroupState} {as : List AuthenticatedContent} {kps : List KeyPackage} {r : WelcomeRand}
      {o : Res (Welcome × Bytes)} (h : Trace pr st as st1) (hr : createWelcome pr st1 kps r = (o, st2))
      (ho : o.Fine) : Trace pr st as st2

/-- The content is a commit. -/
def AuthenticatedContent.isCommit (a : AuthenticatedContent) : Bool := a.content.content.ty == .commit

theorem refuse_group {st st' : GroupState} {raw : Bytes} {now : GoTime}
    (h : unmarshalAndProcessMessage pr st raw now = (.err, st')) : st'.group = st.group := by
  rcases rejected_cases h (by simp) with rfl | ⟨_, _, _, _, _, _, _, _, _, _, _, rfl, _⟩ <;> rfl

theorem accepted_commit_iff {st st' : GroupState} {raw : Bytes} {now : GoTime} {a : AuthenticatedContent}
    {e : Bool} {d : Option Bytes} (hc : Carries pr st raw a e)
    (hr : unmarshalAndProcessMessage pr st raw now = (.ok d, st')) :
    AcceptedCommit pr st raw now ↔ a.isCommit = true := by
  constructor
  · rintro ⟨a', e', c, hc', hk, _⟩
    obtain ⟨rfl, _⟩ := hc.unique hc'
    simp [AuthenticatedContent.isCommit, hk, Content.ty]
  · intro h
    obtain ⟨a', e', hc', hcase⟩ := accepted_cases hr
    obtain ⟨rfl, _⟩ := hc.unique hc'
    rcases hcase with ⟨p, hk, _⟩ | ⟨c, hk, rfl, _⟩ | ⟨data, hk, _⟩
    · simp [AuthenticatedContent.isCommit, hk, Content.ty] at h
    · exact ⟨a, e, c, hc, hk, by rw [hr]⟩
    · simp [AuthenticatedContent.isCommit, hk, Content.ty] at h

/-- C44: over every history, the epoch has advanced by the number of commits accepted (as a 64-bit
counter), and the identity of the group is unchanged. -/
theorem C44_history (pr : Prims) (st st' : GroupState) (as : List AuthenticatedContent) (h : Trace pr st as st') :
    SameIdentity st.group st'.group ∧
    st'.group.groupContext.epoch = st.group.groupContext.epoch + UInt64.ofNat (as.countP (·.isCommit)) := by
  induction h with
  | nil => exact ⟨.refl _, by simp⟩
  | @accept st1 st2 as raw now a e d h hc hr ih =>
    obtain ⟨h1, h2⟩ := message_effect (pr := pr) st1 raw now
    rw [hr] at h1 h2
    refine ⟨ih.1.trans h1, ?_⟩
    rw [List.countP_append]
    rw [accepted_commit_iff hc hr] at h2
    rcases h2 with ⟨h2, h3⟩ | ⟨h2, h3⟩
    · rw [h3, ih.2]
      simp [h2, UInt64.ofNat_add, UInt64.add_assoc]
    · rw [h3]
      simp only [ih.2]
      simp [h2]
  | refuse h hr ih => rw [refuse_group hr]; exact ih
  | @invite st1 st2 as kps r o h hr ho ih =>
    have := createWelcome_group (pr := pr) st1 kps r
    rw [hr] at this
    rw [this]; exact ih

/-- A history of one message refused and one commit accepted: the epoch goes from 5 to 6. -/
example : (unmarshalAndProcessMessage toyPrims toyPair [] toyNow).1 = .err ∧
    (unmarshalAndProcessMessage toyPrims toyPair (toyPublic toyPair 1 1 (.commit ⟨[.proposal (.add (toyKeyPackage 2))], none⟩) [1]) toyNow).1 =
      .ok none ∧
    toyPair.group.groupContext.epoch = 5 ∧
    (unmarshalAndProcessMessage toyPrims toyPair (toyPublic toyPair 1 1 (.commit ⟨[.proposal (.add (toyKeyPackage 2))], none⟩) [1])
      toyNow).2.group.groupContext.epoch = 6 := by decide +kernel

end Mls
