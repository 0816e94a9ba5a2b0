import Verif.Props.GroupEffects
import Verif.Proofs.Unamb
import Verif.Spec.ToyHistory
/-
C91: messages that are delivered twice or in another order.
-/
namespace Mls

variable {pr : Prims}

/-! ### What a user can do with a group, and see of it -/

/-- A call on a group. -/
inductive Spec.Use where
  | receive (raw : Bytes) (now : GoTime)
  | speak (data rand : Bytes) (guard : Bytes4)
  | invite (kps : List KeyPackage) (r : WelcomeRand)

/-- What it returns. -/
inductive Spec.Answer where
  | received (r : Res (Option Bytes))
  | spoken (r : Res Bytes)
  | invited (r : Res (Welcome × Bytes))
  deriving DecidableEq

/-- A call on the group `st`: the answer, and the group afterwards. -/
def Spec.use (pr : Prims) (st : GroupState) : Spec.Use → Spec.Answer × GroupState
  | .receive raw now => (.received (unmarshalAndProcessMessage pr st raw now).1, (unmarshalAndProcessMessage pr st raw now).2)
  | .speak data rand guard => (.spoken (createApplicationMessage pr st data rand guard), st)
  | .invite kps r => (.invited (createWelcome pr st kps r).1, (createWelcome pr st kps r).2)

/-- The answers to a sequence of calls. -/
def Spec.answers (pr : Prims) (st : GroupState) : List Spec.Use → List Spec.Answer
  | [] => []
  | u :: us => (Spec.use pr st u).1 :: Spec.answers pr (Spec.use pr st u).2 us

/-- No sequence of calls tells the groups apart. -/
def Spec.Indistinguishable (pr : Prims) (a b : GroupState) : Prop :=
  ∀ us, Spec.answers pr a us = Spec.answers pr b us

theorem Spec.Indistinguishable.refl (a : GroupState) : Spec.Indistinguishable pr a a := fun _ => rfl

theorem Spec.Indistinguishable.symm {a b : GroupState} (h : Spec.Indistinguishable pr a b) : Spec.Indistinguishable pr b a :=
  fun us => (h us).symm

theorem Spec.Indistinguishable.trans {a b c : GroupState} (h : Spec.Indistinguishable pr a b)
    (h' : Spec.Indistinguishable pr b c) : Spec.Indistinguishable pr a c :=
  fun us => (h us).trans (h' us)

/-! ### Groups that differ in the pending proposals only -/

/-- The group with other pending proposals. -/
def GroupState.pend (st : GroupState) (q : List PendingProposal) : GroupState :=
  { st with group := { st.group with pendingProposals := q } }

/-- Every reference leads to the same proposal. -/
def SameFound (p q : List PendingProposal) : Prop :=
  ∀ r : Bytes, (q.find? fun pp => pp.ref == r) = p.find? fun pp => pp.ref == r

theorem SameFound.append {p q : List PendingProposal} (h : SameFound p q) (l : List PendingProposal) :
    SameFound (p ++ l) (q ++ l) := by
  intro r
  rw [List.find?_append, List.find?_append, h r]

theorem resolveProposals_found {p q : List PendingProposal} (h : SameFound p q) (c : UInt32) (l : List ProposalOrRef) :
    resolveProposals c q l = resolveProposals c p l := by
  induction l with
  | nil => rfl
  | cons x l ih =>
    cases x with
    | proposal _ => simp only [resolveProposals, ih]
    | reference r => simp only [resolveProposals, ih, h r]

theorem processProposal_pend {st : GroupState} {q : List PendingProposal} (h : SameFound st.group.pendingProposals q)
    (a : AuthenticatedContent) : (processProposal pr (st.pend q) a).1 = (processProposal pr st a).1 ∧
      ∃ q', (processProposal pr (st.pend q) a).2 = (processProposal pr st a).2.pend q' ∧
        SameFound (processProposal pr st a).2.group.pendingProposals q' := by
  unfold processProposal
  cases a.content.content with
  | proposal p =>
    have : (st.pend q).group.groupContext.cipherSuite = st.group.groupContext.cipherSuite := rfl
    simp only [this]
    rcases a.generateProposalRef pr st.group.groupContext.cipherSuite with ref | _ | _ | _
    · exact ⟨rfl, _, rfl, h.append _⟩
    all_goals exact ⟨rfl, q, rfl, h⟩
  | commit _ => exact ⟨rfl, q, rfl, h⟩
  | application _ => exact ⟨rfl, q, rfl, h⟩

theorem finishCommit_pend (g : Group) (q : List PendingProposal) (h : Heap) (t : RTree) (a : AuthenticatedContent) (c : Commit)
    (ids : List PreSharedKeyID) (psks : List Bytes) (now : GoTime) :
    finishCommit pr { g with pendingProposals := q } h t a c ids psks now = finishCommit pr g h t a c ids psks now := rfl

theorem processCommit_pend {st : GroupState} {q : List PendingProposal} (h : SameFound st.group.pendingProposals q)
    (a : AuthenticatedContent) (ids : List PreSharedKeyID) (psks : List Bytes) (now : GoTime) :
    (processCommit pr (st.pend q) a ids psks now).1 = (processCommit pr st a ids psks now).1 ∧
      ∃ q', (processCommit pr (st.pend q) a ids psks now).2 = (processCommit pr st a ids psks now).2.pend q' ∧
        SameFound (processCommit pr st a ids psks now).2.group.pendingProposals q' := by
  unfold processCommit
  cases a.content.content with
  | commit c =>
    have hcp : checkProposals pr (st.pend q).group a.content.sender.leafIndex c =
        checkProposals pr st.group a.content.sender.leafIndex c := by
      unfold checkProposals
      have := resolveProposals_found h a.content.sender.leafIndex c.proposals
      rw [show (st.pend q).group.pendingProposals = q from rfl, this]
      rfl
    simp only [hcp]
    rcases checkProposals pr st.group a.content.sender.leafIndex c with ⟨ps, ss⟩ | _ | _ | _
    · simp only
      rw [show (st.pend q).heap = st.heap from rfl, show (st.pend q).group.tree = st.group.tree from rfl]
      rcases treeApply st.heap st.group.tree ps ss with ⟨h', t⟩ | _ | _ | _
      · simp only
        rw [show finishCommit pr (st.pend q).group h' t a c ids psks now = finishCommit pr st.group h' t a c ids psks now from rfl]
        rcases hf : finishCommit pr st.group h' t a c ids psks now with st' | _ | _ | _
        · exact ⟨rfl, st'.group.pendingProposals, rfl, fun _ => rfl⟩
        all_goals exact ⟨rfl, q, rfl, h⟩
      all_goals exact ⟨rfl, q, rfl, h⟩
    all_goals exact ⟨rfl, q, rfl, h⟩
  | proposal _ => exact ⟨rfl, q, rfl, h⟩
  | application _ => exact ⟨rfl, q, rfl, h⟩

theorem dispatch_pend {st : GroupState} {q : List PendingProposal} (h : SameFound st.group.pendingProposals q)
    (a : AuthenticatedContent) (now : GoTime) (e : Bool) :
    (dispatch pr (st.pend q) a now e).1 = (dispatch pr st a now e).1 ∧
      ∃ q', (dispatch pr (st.pend q) a now e).2 = (dispatch pr st a now e).2.pend q' ∧
        SameFound (dispatch pr st a now e).2.group.pendingProposals q' := by
  unfold dispatch
  cases a.content.content with
  | proposal _ =>
    obtain ⟨h1, q', h2, h3⟩ := processProposal_pend (pr := pr) h a
    exact ⟨by simp only [h1], q', h2, h3⟩
  | commit _ =>
    obtain ⟨h1, q', h2, h3⟩ := processCommit_pend (pr := pr) h a [] [] now
    exact ⟨by simp only [h1], q', h2, h3⟩
  | application _ => cases e <;> exact ⟨rfl, q, rfl, h⟩

theorem upm_pend {st : GroupState} {q : List PendingProposal} (h : SameFound st.group.pendingProposals q)
    (raw : Bytes) (now : GoTime) :
    (unmarshalAndProcessMessage pr (st.pend q) raw now).1 = (unmarshalAndProcessMessage pr st raw now).1 ∧
      ∃ q', (unmarshalAndProcessMessage pr (st.pend q) raw now).2 = (unmarshalAndProcessMessage pr st raw now).2.pend q' ∧
        SameFound (unmarshalAndProcessMessage pr st raw now).2.group.pendingProposals q' := by
  unfold unmarshalAndProcessMessage
  rcases unmarshal MlsMessage.dec raw with ⟨v, body⟩ | _ | _ | _
  · cases body with
    | publicMessage m =>
      simp only [processPublicMessage]
      rw [show verifyPublicMessage pr (st.pend q) m = verifyPublicMessage pr st m from rfl]
      rcases verifyPublicMessage pr st m with a | _ | _ | _
      · exact dispatch_pend h a now false
      all_goals exact ⟨rfl, q, rfl, h⟩
    | privateMessage m =>
      simp only [processPrivateMessage]
      rw [show decryptPrivateMessage pr (st.pend q) m = decryptPrivateMessage pr st m from rfl]
      rcases decryptPrivateMessage pr st m with a | _ | _ | _
      · exact dispatch_pend h a now true
      all_goals exact ⟨rfl, q, rfl, h⟩
    | welcome | groupInfo | keyPackage => exact ⟨rfl, q, rfl, h⟩
  all_goals exact ⟨rfl, q, rfl, h⟩

theorem createWelcome_pend (st : GroupState) (q : List PendingProposal) (kps : List KeyPackage) (r : WelcomeRand) :
    (createWelcome pr (st.pend q) kps r).1 = (createWelcome pr st kps r).1 ∧
      (createWelcome pr (st.pend q) kps r).2 = (createWelcome pr st kps r).2.pend q := by
  unfold createWelcome
  split
  · exact ⟨rfl, rfl⟩
  · rw [show (st.pend q).heap = st.heap from rfl, show (st.pend q).group.tree = st.group.tree from rfl,
      show (st.pend q).group.myLeafIndex = st.group.myLeafIndex from rfl]
    rcases treeApply st.heap st.group.tree (kps.map .add) [st.group.myLeafIndex] with ⟨h', t⟩ | _ | _ | _ <;> exact ⟨rfl, rfl⟩

theorem use_pend {st : GroupState} {q : List PendingProposal} (h : SameFound st.group.pendingProposals q) (u : Spec.Use) :
    (Spec.use pr (st.pend q) u).1 = (Spec.use pr st u).1 ∧
      ∃ q', (Spec.use pr (st.pend q) u).2 = (Spec.use pr st u).2.pend q' ∧
        SameFound (Spec.use pr st u).2.group.pendingProposals q' := by
  cases u with
  | receive raw now =>
    obtain ⟨h1, q', h2, h3⟩ := upm_pend (pr := pr) h raw now
    exact ⟨congrArg Spec.Answer.received h1, q', h2, h3⟩
  | speak data rand guard => exact ⟨rfl, q, rfl, h⟩
  | invite kps r =>
    obtain ⟨h1, h2⟩ := createWelcome_pend (pr := pr) st q kps r
    refine ⟨congrArg Spec.Answer.invited h1, q, h2, ?_⟩
    rw [show (Spec.use pr st (.invite kps r)).2 = (createWelcome pr st kps r).2 from rfl, createWelcome_group]
    exact h

theorem indistinguishable_pend {st : GroupState} {q : List PendingProposal} (h : SameFound st.group.pendingProposals q) :
    Spec.Indistinguishable pr st (st.pend q) := by
  intro us
  induction us generalizing st q with
  | nil => rfl
  | cons u us ih =>
    obtain ⟨h1, q', h2, h3⟩ := use_pend (pr := pr) h u
    unfold Spec.answers
    rw [h1, h2, ih h3]

/-! ### C91: twice -/

theorem verifyPublicMessage_congr {st st' : GroupState} (hc : st'.group.groupContext = st.group.groupContext)
    (he : st'.group.epochSecret = st.group.epochSecret) (ht : st'.group.tree = st.group.tree)
    (m : PublicMessage) : verifyPublicMessage pr st' m = verifyPublicMessage pr st m := by
  unfold verifyPublicMessage GroupState.vtree
  simp only [hc, he, ht, getLeaf_heap st'.heap st.heap]

theorem Carries.congr {st st' : GroupState} (hc : st'.group.groupContext = st.group.groupContext)
    (he : st'.group.epochSecret = st.group.epochSecret) (ht : st'.group.tree = st.group.tree) {raw : Bytes}
    {a : AuthenticatedContent} {e : Bool} (h : Carries pr st raw a e) : Carries pr st' raw a e := by
  cases h with
  | pub hd hv => exact .pub hd (by rw [verifyPublicMessage_congr hc he ht, hv])
  | priv hd hv => exact .priv hd (by rw [decryptPrivateMessage_congr hc he ht, hv])

/-- A message that carries something is addressed to the group in its epoch. -/
theorem Carries.addressed {st : GroupState} {raw : Bytes} {a : AuthenticatedContent} {e : Bool} (h : Carries pr st raw a e) :
    ∃ m, unmarshal MlsMessage.dec raw = .ok m ∧
      Spec.addressedTo m = some (st.group.groupContext.groupID, st.group.groupContext.epoch) := by
  cases h with
  | @pub v m _ hd hv =>
    refine ⟨_, hd, ?_⟩
    unfold verifyPublicMessage at hv
    simp only [Res.bind_ok_iff, Res.guardErr_ok_iff] at hv
    obtain ⟨_, h1, _, h2, _⟩ := hv
    simp only [Spec.addressedTo, beq_iff_eq.1 h1, beq_iff_eq.1 h2]
  | @priv v m _ hd hv =>
    refine ⟨_, hd, ?_⟩
    unfold decryptPrivateMessage at hv
    simp only [Res.bind_ok_iff, Res.guardErr_ok_iff] at hv
    obtain ⟨_, h1, _, h2, _⟩ := hv
    simp only [Spec.addressedTo, beq_iff_eq.1 h1, beq_iff_eq.1 h2]

/-- Appending a proposal whose reference is taken already changes what no reference leads to. -/
theorem SameFound.again {p : List PendingProposal} {x : PendingProposal} (h : ∃ y ∈ p, y.ref = x.ref) : SameFound p (p ++ [x]) := by
  intro r
  rw [List.find?_append]
  rcases hf : p.find? fun pp => pp.ref == r with _ | y
  · rw [hf, Option.none_or, List.find?_cons_of_neg, List.find?_nil]
    intro hx
    obtain ⟨y, hy, he⟩ := h
    exact List.find?_eq_none.1 hf y hy (by rw [he]; exact hx)
  · rw [hf]; rfl

theorem pendingAfter_mem {d : SuiteDesc} {as : List AuthenticatedContent} (hn : ∀ a ∈ as, a.isCommit = false)
    {l : List PendingProposal} {x : PendingProposal} (hx : x ∈ l) : x ∈ Spec.pendingAfter pr d l as := by
  unfold Spec.pendingAfter
  induction as generalizing l with
  | nil => exact hx
  | cons a as ih =>
    rw [List.foldl_cons]
    refine ih (fun b hb => hn b (List.mem_cons_of_mem _ hb)) ?_
    have := hn a List.mem_cons_self
    unfold AuthenticatedContent.isCommit at this
    cases hk : a.content.content with
    | proposal p => simp [hx]
    | commit c => rw [hk] at this; cases this
    | application _ => exact hx

theorem processProposal_st {st : GroupState} {a : AuthenticatedContent} {p : Proposal} (hk : a.content.content = .proposal p)
    {ref : Bytes} (h : a.generateProposalRef pr st.group.groupContext.cipherSuite = .ok ref) :
    processProposal pr st a = (.ok (), st.pend (st.group.pendingProposals ++ [⟨ref, p, a.content.sender.leafIndex⟩])) := by
  unfold processProposal
  rw [hk]
  simp only [h]
  rfl

/-- **C91**, messages delivered twice: a message accepted once and delivered again at any later time has no effect that any
call could show. As long as no commit has been accepted since, it returns what it returned before; from the next
commit on (itself included) it is refused, and then the group is exactly as it was. The epoch is a 64-bit number; the hypothesis says that
it has not come round. -/
theorem C91_replay {st st1 st2 : GroupState} {as : List AuthenticatedContent} {raw : Bytes} {now now' : GoTime}
    {a : AuthenticatedContent} {e : Bool} {r : Option Bytes} (hc : Carries pr st raw a e)
    (h : unmarshalAndProcessMessage pr st raw now = (.ok r, st1)) (ht : Trace pr st1 as st2) (hlt : as.length + 1 < 2 ^ 64) :
    ((∀ b ∈ a :: as, b.isCommit = false) → (unmarshalAndProcessMessage pr st2 raw now').1 = .ok r ∧
      Spec.Indistinguishable pr st2 (unmarshalAndProcessMessage pr st2 raw now').2) ∧
    ((∃ b ∈ a :: as, b.isCommit = true) → unmarshalAndProcessMessage pr st2 raw now' = (.err, st2)) := by
  have ht' : Trace pr st ([a] ++ as) st2 := by
    have h0 : Trace pr st [a] st1 := .accept (as := []) (.nil st) hc h
    clear hlt
    induction ht with
    | nil => exact h0
    | accept h1 hc' hr ih => rw [← List.append_assoc]; exact .accept ih hc' hr
    | refuse h1 hr ih => exact .refuse ih hr
    | invite h1 hr ho ih => exact .invite ih hr ho
  refine ⟨fun hn => ?_, fun hex => ?_⟩
  · have hn' : ∀ b ∈ [a] ++ as, b.isCommit = false := by simpa using hn
    have hg := trace_noCommit ht' hn'
    have hca : Carries pr st2 raw a e := hc.congr (by rw [hg]) (by rw [hg]) (by rw [hg])
    obtain ⟨a', e', hc', hcase⟩ := accepted_cases h
    obtain ⟨rfl, rfl⟩ := hc.unique hc'
    rcases hcase with ⟨p, hk, rfl, hp⟩ | ⟨c, hk, _⟩ | ⟨data, hk, rfl, rfl, rfl⟩
    · rcases processProposal_cases (pr := pr) st a p hk with ⟨ref, hr, hp'⟩ | ⟨hp', _⟩
      · rw [hp'] at hp
        cases hp
        obtain ⟨d, hd, hrd⟩ := generateProposalRef_ok hr
        have hr2 : a.generateProposalRef pr st2.group.groupContext.cipherSuite = .ok ref := by rw [hg]; exact hr
        have hu : unmarshalAndProcessMessage pr st2 raw now' =
            (.ok none, st2.pend (st2.group.pendingProposals ++ [⟨ref, p, a.content.sender.leafIndex⟩])) := by
          rw [upm_of_carries hca]
          unfold dispatch
          rw [hk]
          simp only [processProposal_st hk hr2]
          rfl
        rw [hu]
        refine ⟨rfl, indistinguishable_pend (.again ⟨⟨ref, p, a.content.sender.leafIndex⟩, ?_, rfl⟩)⟩
        rw [C53_pending pr _ _ _ d hd ht']
        have hm := pendingAfter_mem (pr := pr) (d := d) (as := as) (fun b hb => hn b (List.mem_cons_of_mem _ hb))
          (l := st.group.pendingProposals ++ [⟨ref, p, a.content.sender.leafIndex⟩]) (x := ⟨ref, p, a.content.sender.leafIndex⟩) (by simp)
        unfold Spec.pendingAfter at hm ⊢
        rw [List.foldl_append, List.foldl_cons, List.foldl_nil, hk, ← hrd]
        exact hm
      · rw [hp] at hp'; exact absurd rfl hp'
    · have := hn a List.mem_cons_self
      simp [AuthenticatedContent.isCommit, hk, Content.ty] at this
    · have hu : unmarshalAndProcessMessage pr st2 raw now' = (.ok (some data), st2) := by
        rw [upm_of_carries hca]
        unfold dispatch
        rw [hk]
        rfl
      rw [hu]
      exact ⟨rfl, .refl _⟩
  · obtain ⟨m, hm, had⟩ := hc.addressed
    refine C42_refused pr st2 raw now' m hm ?_
    rw [had]
    intro heq
    simp only [Option.some.injEq, Prod.mk.injEq] at heq
    have hep := (C44_history pr _ _ _ ht').2
    have hpos : 0 < ([a] ++ as).countP (·.isCommit) := by
      rw [List.countP_pos_iff]
      simpa using hex
    have hle := List.countP_le_length (p := fun b : AuthenticatedContent => b.isCommit) (l := [a] ++ as)
    rw [List.length_append, List.length_singleton] at hle
    rw [← heq.2] at hep
    have h3 := congrArg UInt64.toNat hep
    rw [UInt64.toNat_add, UInt64.toNat_ofNat'] at h3
    have := st.group.groupContext.epoch.toNat_lt
    omega

/-! ### C91: in another order -/

/-- Messages delivered one after the other: the answers, and the group afterwards. -/
def Spec.deliver (pr : Prims) (st : GroupState) : List (Bytes × GoTime) → List (Res (Option Bytes)) × GroupState
  | [] => ([], st)
  | m :: ms =>
    let (r, st) := unmarshalAndProcessMessage pr st m.1 m.2
    let (rs, st) := Spec.deliver pr st ms
    (r :: rs, st)

/-- Two proposals with different encodings and one reference. -/
def Spec.ProposalCollision (pr : Prims) (d : SuiteDesc) (a b : AuthenticatedContent) : Prop :=
  ∃ x y, (Spec.Rfc.authenticatedContent a).bytes = some x ∧ (Spec.Rfc.authenticatedContent b).bytes = some y ∧ x ≠ y ∧
    Spec.proposalRef pr d a = Spec.proposalRef pr d b

/-- What a message that is no commit appends to the pending proposals. -/
theorem upm_noCommit (st : GroupState) (raw : Bytes) (now : GoTime)
    (hn : ∀ a e, Carries pr st raw a e → a.isCommit = false) :
    ∃ l : List PendingProposal, (l.length ≤ 1) ∧
      (∀ x ∈ l, ∃ a e p ref, Carries pr st raw a e ∧ a.content.content = .proposal p ∧
        a.generateProposalRef pr st.group.groupContext.cipherSuite = .ok ref ∧ x = ⟨ref, p, a.content.sender.leafIndex⟩) ∧
      ∀ q, (unmarshalAndProcessMessage pr (st.pend q) raw now) = ((unmarshalAndProcessMessage pr st raw now).1, st.pend (q ++ l)) := by
  rcases upm_cases pr st raw now with ⟨a, e, hc, he⟩ | ⟨hno, hs, hd⟩
  · have hcq : ∀ q, Carries pr (st.pend q) raw a e := fun q => Carries.congr (st := st) (st' := st.pend q) rfl rfl rfl hc
    have hna := hn a e hc
    cases hk : a.content.content with
    | proposal p =>
      rcases hg : a.generateProposalRef pr st.group.groupContext.cipherSuite with ref | _ | _ | _
      · refine ⟨[⟨ref, p, a.content.sender.leafIndex⟩], Nat.le_refl _, fun x hx => ⟨a, e, p, ref, hc, hk, hg, ?_⟩, fun q => ?_⟩
        · simpa using hx
        · rw [upm_of_carries (hcq q), he]
          unfold dispatch
          rw [hk]
          simp only [processProposal_st hk hg, processProposal_st (st := st.pend q) hk hg]
          rfl
      all_goals
        refine ⟨[], Nat.zero_le _, fun x hx => (List.not_mem_nil hx).elim, fun q => ?_⟩
        rw [upm_of_carries (hcq q), he]
        unfold dispatch
        rw [hk]
        simp only [processProposal, hk, hg, List.append_nil]
        rw [show (st.pend q).group.groupContext.cipherSuite = st.group.groupContext.cipherSuite from rfl, hg]
    | commit c => simp [AuthenticatedContent.isCommit, hk, Content.ty] at hna
    | application data =>
      refine ⟨[], Nat.zero_le _, fun x hx => (List.not_mem_nil hx).elim, fun q => ?_⟩
      rw [upm_of_carries (hcq q), he]
      unfold dispatch
      rw [hk]
      cases e <;> simp
  · refine ⟨[], Nat.zero_le _, fun x hx => (List.not_mem_nil hx).elim, fun q => ?_⟩
    rw [List.append_nil]
    have hnoq : ¬ ∃ a e, Carries pr (st.pend q) raw a e := by
      rintro ⟨a, e, h⟩
      exact hno ⟨a, e, Carries.congr (st := st.pend q) (st' := st) rfl rfl rfl h⟩
    rcases upm_cases pr (st.pend q) raw now with ⟨a, e, hc, _⟩ | ⟨_, hs', _⟩
    · exact absurd ⟨a, e, hc⟩ hnoq
    · refine Prod.ext ?_ hs'
      show (unmarshalAndProcessMessage pr (st.pend q) raw now).1 = (unmarshalAndProcessMessage pr st raw now).1
      unfold unmarshalAndProcessMessage
      rcases hm : unmarshal MlsMessage.dec raw with ⟨v, body⟩ | _ | _ | _
      · cases body with
        | publicMessage m =>
          simp only [processPublicMessage]
          rw [show verifyPublicMessage pr (st.pend q) m = verifyPublicMessage pr st m from rfl]
          rcases hv : verifyPublicMessage pr st m with a | _ | _ | _
          · exact absurd ⟨a, false, .pub hm hv⟩ hno
          all_goals rfl
        | privateMessage m =>
          simp only [processPrivateMessage]
          rw [show decryptPrivateMessage pr (st.pend q) m = decryptPrivateMessage pr st m from rfl]
          rcases hv : decryptPrivateMessage pr st m with a | _ | _ | _
          · exact absurd ⟨a, true, .priv hm hv⟩ hno
          all_goals rfl
        | welcome | groupInfo | keyPackage => rfl
      all_goals rfl

/-- The pending proposals that a message leaves in a group that has none. -/
def appended (pr : Prims) (st : GroupState) (m : Bytes × GoTime) : List PendingProposal :=
  (unmarshalAndProcessMessage pr (st.pend []) m.1 m.2).2.group.pendingProposals

theorem deliver_noCommit (st : GroupState) (ms : List (Bytes × GoTime))
    (hn : ∀ m ∈ ms, ∀ a e, Carries pr st m.1 a e → a.isCommit = false) (q : List PendingProposal) :
    Spec.deliver pr (st.pend q) ms =
      (ms.map fun m => (unmarshalAndProcessMessage pr st m.1 m.2).1, st.pend (q ++ ms.flatMap (appended pr st))) := by
  induction ms generalizing q with
  | nil => simp [Spec.deliver]
  | cons m ms ih =>
    obtain ⟨l, _, _, hl⟩ := upm_noCommit st m.1 m.2 (hn m List.mem_cons_self)
    have ha : appended pr st m = l := by unfold appended; rw [hl []]; rfl
    unfold Spec.deliver
    simp only [hl q, ih (fun m hm => hn m (List.mem_cons_of_mem _ hm)), List.map_cons, List.flatMap_cons, ha, List.append_assoc]

theorem proposal_enc_unamb {a b : AuthenticatedContent} {x : Bytes} (ha : a.enc = .ok x) (hb : b.enc = .ok x) :
    a.content = b.content := by
  simp only [AuthenticatedContent.enc, Enc.append_assoc, Enc.append_ok_iff] at ha hb
  obtain ⟨x1, _, e1, ⟨x2, x3, e2, e3, rfl⟩, rfl⟩ := ha
  obtain ⟨y1, _, f1, ⟨y2, y3, f2, f3, rfl⟩, he⟩ := hb
  obtain ⟨_, he⟩ := uWireFormat _ _ _ _ _ _ e1 f1 he
  exact (uFramedContent _ _ _ _ _ _ e2 f2 he).1

theorem SameFound.perm {p l l' : List PendingProposal} (h : l.Perm l') (hu : ∀ x ∈ l, ∀ y ∈ l, x.ref = y.ref → x = y) :
    SameFound (p ++ l) (p ++ l') := by
  intro r
  rw [List.find?_append, List.find?_append]
  congr 1
  have hr : ∀ {l : List PendingProposal} {x : PendingProposal}, (l.find? fun pp => pp.ref == r) = some x → x ∈ l ∧ x.ref = r :=
    fun hf => ⟨List.mem_of_find?_eq_some hf, by simpa using List.find?_some hf⟩
  rcases hf : l.find? fun pp => pp.ref == r with _ | x
  · rw [hf, List.find?_eq_none]
    exact fun y hy => List.find?_eq_none.1 hf y (h.mem_iff.2 hy)
  · rw [hf]
    obtain ⟨hx, hxr⟩ := hr hf
    rcases hf' : l'.find? fun pp => pp.ref == r with _ | y
    · exact absurd (beq_iff_eq.2 hxr) (List.find?_eq_none.1 hf' x (h.mem_iff.1 hx))
    · obtain ⟨hy, hyr⟩ := hr hf'
      rw [hf', hu x hx y (h.mem_iff.2 hy) (hxr.trans hyr.symm)]

/-- **C91**, messages delivered in another order: of messages that are no commits each returns what it would have returned as
the first, in whatever order they are delivered, and afterwards no call tells the orders apart - unless two of them are
proposals with different encodings and the same reference, a collision of the hash function. -/
theorem C91_order {st : GroupState} {sd : SuiteDesc} (hsd : suite st.group.groupContext.cipherSuite = .ok sd)
    {ms ms' : List (Bytes × GoTime)} (hp : ms.Perm ms')
    (hn : ∀ m ∈ ms, ∀ a e, Carries pr st m.1 a e → a.isCommit = false)
    (hcol : ∀ m ∈ ms, ∀ m' ∈ ms, ∀ a e a' e', Carries pr st m.1 a e → Carries pr st m'.1 a' e' → ¬ Spec.ProposalCollision pr sd a a') :
    (Spec.deliver pr st ms).1 = ms.map (fun m => (unmarshalAndProcessMessage pr st m.1 m.2).1) ∧
    (Spec.deliver pr st ms').1 = ms'.map (fun m => (unmarshalAndProcessMessage pr st m.1 m.2).1) ∧
    Spec.Indistinguishable pr (Spec.deliver pr st ms).2 (Spec.deliver pr st ms').2 := by
  have h1 := deliver_noCommit st ms hn st.group.pendingProposals
  have h2 := deliver_noCommit st ms' (fun m hm => hn m (hp.mem_iff.2 hm)) st.group.pendingProposals
  rw [show st.pend st.group.pendingProposals = st from rfl] at h1 h2
  rw [h1, h2]
  refine ⟨rfl, rfl, ?_⟩
  have := indistinguishable_pend (pr := pr) (st := st.pend (st.group.pendingProposals ++ ms.flatMap (appended pr st)))
    (q := st.group.pendingProposals ++ ms'.flatMap (appended pr st)) (.perm (hp.flatMap_right _) ?_)
  · exact this
  · have hmem : ∀ x ∈ ms.flatMap (appended pr st), ∃ m ∈ ms, ∃ a e p raw, Carries pr st m.1 a e ∧ a.enc = .ok raw ∧
        a.content.content = .proposal p ∧ x = ⟨Spec.proposalRef pr sd a, p, a.content.sender.leafIndex⟩ := by
      intro x hx
      obtain ⟨m, hm, hx⟩ := List.mem_flatMap.1 hx
      obtain ⟨l, _, hl, hq⟩ := upm_noCommit st m.1 m.2 (hn m hm)
      have ha : appended pr st m = l := by unfold appended; rw [hq []]; rfl
      rw [ha] at hx
      obtain ⟨a, e, p, ref, hc, hk, hr, rfl⟩ := hl x hx
      obtain ⟨d, hd, rfl⟩ := generateProposalRef_ok hr
      rw [hsd] at hd
      cases hd
      unfold AuthenticatedContent.generateProposalRef at hr
      split at hr
      · cases hr
      · simp only [Res.bind_ok_iff] at hr
        obtain ⟨raw, hraw, _⟩ := hr
        exact ⟨m, hm, a, e, p, raw, hc, hraw, hk, rfl⟩
    intro x hx y hy hxy
    obtain ⟨m, hm, a, e, p, raw, hc, hraw, hk, rfl⟩ := hmem x hx
    obtain ⟨m', hm', a', e', p', raw', hc', hraw', hk', rfl⟩ := hmem y hy
    by_cases heq : raw = raw'
    · subst heq
      have := proposal_enc_unamb hraw hraw'
      rw [this] at hk ⊢
      rw [hk'] at hk
      cases hk
      simp only [PendingProposal.mk.injEq, and_true]
      exact hxy
    · exact absurd ⟨raw, raw', authContent_some.2 hraw, authContent_some.2 hraw', heq, hxy⟩ (hcol m hm m' hm' a e a' e' hc hc')

/-- A commit that refers to a proposal that has not arrived is refused and leaves no trace, so it can be delivered again after the
proposal. -/
theorem C91_early {st : GroupState} {raw : Bytes} {now : GoTime} {a : AuthenticatedContent} {e : Bool} {c : Commit} {ref : Bytes}
    (hc : Carries pr st raw a e) (hk : a.content.content = .commit c) (hr : ProposalOrRef.reference ref ∈ c.proposals)
    (hn : ∀ pp ∈ st.group.pendingProposals, pp.ref ≠ ref) : unmarshalAndProcessMessage pr st raw now = (.err, st) := by
  have hres : resolveProposals a.content.sender.leafIndex st.group.pendingProposals c.proposals = .err := by
    generalize c.proposals = l at hr
    induction l with
    | nil => cases hr
    | cons x l ih =>
      rcases List.mem_cons.1 hr with rfl | hr
      · have : (st.group.pendingProposals.find? fun pp => pp.ref == ref) = none := by
          rw [List.find?_eq_none]
          exact fun pp hpp h => hn pp hpp (beq_iff_eq.1 h)
        simp only [resolveProposals, this]
      · have ih := ih hr
        cases x with
        | proposal p => simp only [resolveProposals, ih]; rfl
        | reference r =>
          simp only [resolveProposals]
          split
          · rfl
          · rw [ih]; rfl
  have hcp : checkProposals pr st.group a.content.sender.leafIndex c = .err := by
    unfold checkProposals
    rw [hres]; rfl
  rw [upm_of_carries hc]
  unfold dispatch processCommit
  rw [hk]
  simp only [hcp]
  rfl

/-- What replays do leave behind: a proposal delivered `n` times more is stored `n` times more, by a group that lives in one
epoch without limit. -/
theorem C91_grows {st st1 : GroupState} {raw : Bytes} {now : GoTime} {a : AuthenticatedContent} {e : Bool} {p : Proposal}
    (hc : Carries pr st raw a e) (hk : a.content.content = .proposal p)
    (h : (unmarshalAndProcessMessage pr st raw now).1 = .ok none) (n : Nat) (hst : st1 = (Spec.deliver pr st (List.replicate n (raw, now))).2) :
    st1.group.pendingProposals.length = st.group.pendingProposals.length + n := by
  subst hst
  have hn : ∀ m ∈ List.replicate n (raw, now), ∀ a e, Carries pr st m.1 a e → a.isCommit = false := by
    intro m hm b f hb
    rw [List.eq_of_mem_replicate hm] at hb
    obtain ⟨rfl, _⟩ := hc.unique hb
    simp [AuthenticatedContent.isCommit, hk, Content.ty]
  have h1 := deliver_noCommit st _ hn st.group.pendingProposals
  rw [show st.pend st.group.pendingProposals = st from rfl] at h1
  rw [h1]
  have ha : (appended pr st (raw, now)).length = 1 := by
    rcases processProposal_cases (pr := pr) st a p hk with ⟨ref, hr, _⟩ | ⟨hp, _⟩
    · unfold appended
      rw [upm_of_carries (Carries.congr (st := st) (st' := st.pend []) rfl rfl rfl hc)]
      unfold dispatch
      rw [hk]
      simp only [processProposal_st (st := st.pend []) hk hr]
      rfl
    · rw [upm_of_carries hc] at h
      unfold dispatch at h
      rw [hk] at h
      exact absurd (bind_none_ok h).1 hp
  show (st.group.pendingProposals ++ (List.replicate n (raw, now)).flatMap (appended pr st)).length = _
  rw [List.length_append]
  congr 1
  clear h1 hn
  induction n with
  | zero => rfl
  | succ n ih => rw [List.replicate_succ, List.flatMap_cons, List.length_append, ih, ha]; omega

/-- Two members' proposals and an application message, in the clear and encrypted; all are accepted in either order, the references differ,
and a commit that refers to both is accepted after them and refused between them. -/
def toyMixed : List Bytes :=
  [toyPublic toyPair 1 1 (.proposal (.add (toyKeyPackage 5))) [], toyPrivate toyPair 1 1 (.application [1, 2]) [],
    toyPublic toyPair 1 1 (.proposal (.add (toyKeyPackage 6))) []]

example : (Spec.deliver toyPrims toyPair (toyMixed.map (·, toyNow))).1 = [.ok none, .ok (some [1, 2]), .ok none] ∧
    (Spec.deliver toyPrims toyPair (toyMixed.reverse.map (·, toyNow))).1 = [.ok none, .ok (some [1, 2]), .ok none] ∧
    (Spec.deliver toyPrims toyPair (toyMixed.map (·, toyNow))).2 ≠ (Spec.deliver toyPrims toyPair (toyMixed.reverse.map (·, toyNow))).2 ∧
    (let pend := (Spec.deliver toyPrims toyPair (toyMixed.map (·, toyNow))).2.group.pendingProposals
     (pend.map (·.ref)).Nodup ∧ pend.length = 2 ∧
     let c := toyPublic toyPair 1 1 (.commit ⟨pend.map fun p => .reference p.ref, none⟩) [1]
     (unmarshalAndProcessMessage toyPrims (Spec.deliver toyPrims toyPair (toyMixed.map (·, toyNow))).2 c toyNow).1 = .ok none ∧
     (unmarshalAndProcessMessage toyPrims (Spec.deliver toyPrims toyPair (toyMixed.reverse.map (·, toyNow))).2 c toyNow).1 = .ok none ∧
     unmarshalAndProcessMessage toyPrims toyPair c toyNow = (.err, toyPair)) := by
  decide +kernel

/-- A proposal accepted, delivered again before and after a commit. -/
example : let p := toyPublic toyPair 1 1 (.proposal (.add (toyKeyPackage 5))) []
    let c := toyPublic toyPair 1 1 (.commit ⟨[.proposal (.add (toyKeyPackage 2))], none⟩) [1]
    (Spec.deliver toyPrims toyPair [(p, toyNow), (p, toyNow), (c, toyNow), (p, toyNow), (c, toyNow)]).1 =
      [.ok none, .ok none, .ok none, .err, .err] ∧
    (Spec.deliver toyPrims toyPair [(p, toyNow), (p, toyNow)]).2.group.pendingProposals.length = 2 := by
  decide +kernel

end Mls
