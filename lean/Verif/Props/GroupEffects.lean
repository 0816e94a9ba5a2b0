import Verif.Props.Group
import Verif.Proofs.Rfc
/-
Properties of message processing, continued: C43, C45, C47, C51, C53, C60.
-/
namespace Mls

variable {pr : Prims}

/-! ### C45 -/

theorem getLeaf_heap (h h' : Heap) (t : RTree) (li : Nat) :
    getLeaf (derefTree h t) li = getLeaf (derefTree h' t) li := by
  unfold getLeaf Res.idx derefTree
  simp only [List.getElem?_map]
  rcases t[nodeOfLeaf li]? with _ | (_ | n)
  · rfl
  · rfl
  · cases n <;> rfl

theorem decryptPrivateMessage_congr {st st' : GroupState} (hc : st'.group.groupContext = st.group.groupContext)
    (he : st'.group.epochSecret = st.group.epochSecret) (ht : st'.group.tree = st.group.tree)
    (m : PrivateMessage) : decryptPrivateMessage pr st' m = decryptPrivateMessage pr st m := by
  unfold decryptPrivateMessage GroupState.vtree
  simp only [hc, he, ht, getLeaf_heap st'.heap st.heap]

theorem application_accepted {st st' : GroupState} {raw : Bytes} {now : GoTime} {d : Bytes}
    (h : unmarshalAndProcessMessage pr st raw now = (.ok (some d), st')) :
    st' = st ∧ ∃ v m a, unmarshal MlsMessage.dec raw = .ok ⟨v, .privateMessage m⟩ ∧
      decryptPrivateMessage pr st m = .ok a ∧ a.content.content = .application d := by
  obtain ⟨a, e, hc, h⟩ := accepted_cases h
  rcases h with ⟨_, _, h, _⟩ | ⟨_, _, h, _⟩ | ⟨data, hk, hd, rfl, rfl⟩
  · cases h
  · cases h
  · cases hd
    cases hc with
    | priv hm hv => exact ⟨rfl, _, _, a, hm, hv, hk⟩

theorem application_of {st : GroupState} {raw : Bytes} {now : GoTime} {d : Bytes} {v : UInt16} {m : PrivateMessage}
    {a : AuthenticatedContent} (hm : unmarshal MlsMessage.dec raw = .ok ⟨v, .privateMessage m⟩)
    (hv : decryptPrivateMessage pr st m = .ok a) (hk : a.content.content = .application d) :
    unmarshalAndProcessMessage pr st raw now = (.ok (some d), st) := by
  rw [upm_of_carries (.priv hm hv)]
  unfold dispatch
  rw [hk]
  rfl

/-- C45: accepting an application message changes nothing at all, and the same bytes are accepted
again, whatever the clock says. -/
theorem C45_replay (pr : Prims) (st st' : GroupState) (raw : Bytes) (now : GoTime) (d : Bytes)
    (h : unmarshalAndProcessMessage pr st raw now = (.ok (some d), st')) :
    st' = st ∧ ∀ now', unmarshalAndProcessMessage pr st' raw now' = (.ok (some d), st') := by
  obtain ⟨rfl, v, m, a, hm, hv, hk⟩ := application_accepted h
  exact ⟨rfl, fun now' => application_of hm hv hk⟩

/-- A history without an accepted commit keeps everything but the pending proposals and the heap. -/
theorem trace_noCommit {st st' : GroupState} {as : List AuthenticatedContent} (h : Trace pr st as st')
    (hn : ∀ a ∈ as, a.isCommit = false) :
    st'.group = { st.group with pendingProposals := st'.group.pendingProposals } := by
  induction h with
  | nil => rfl
  | @accept st1 st2 as raw now a e d h hc hr ih =>
    have ih := ih fun b hb => hn b (by simp [hb])
    obtain ⟨_, h2⟩ := message_effect (pr := pr) st1 raw now
    rw [hr, accepted_commit_iff hc hr, hn a (by simp)] at h2
    rcases h2 with ⟨h2, _⟩ | ⟨_, h2⟩
    · cases h2
    · simp only at h2
      rw [h2, ih]
  | refuse h hr ih => rw [refuse_group hr]; exact ih hn
  | @invite st1 st2 as kps r o h hr ho ih =>
    have := createWelcome_group (pr := pr) st1 kps r
    rw [hr] at this
    rw [this]; exact ih hn

/-- C45: an application message accepted once is accepted again after any history without an
accepted commit, with the same data. -/
theorem C45_history (pr : Prims) (st st' st₁ : GroupState) (raw : Bytes) (now now' : GoTime) (d : Bytes)
    (as : List AuthenticatedContent) (h : unmarshalAndProcessMessage pr st raw now = (.ok (some d), st₁))
    (ht : Trace pr st as st') (hn : ∀ a ∈ as, a.isCommit = false) :
    unmarshalAndProcessMessage pr st' raw now' = (.ok (some d), st') := by
  obtain ⟨rfl, v, m, a, hm, hv, hk⟩ := application_accepted h
  have hg := trace_noCommit ht hn
  refine application_of hm ?_ hk
  rw [decryptPrivateMessage_congr (st := st₁) (by rw [hg]) (by rw [hg]) (by rw [hg])]
  exact hv

example : unmarshalAndProcessMessage toyPrims toyPair (toyPrivate toyPair 1 1 (.application [1, 2, 3]) []) toyNow =
    (.ok (some [1, 2, 3]), toyPair) := by decide +kernel

/-! ### C60 -/

/-- RFC 9420 section 5.2: the reference of a proposal, the hash of its encoded content with a label. -/
def Spec.proposalRef (pr : Prims) (d : SuiteDesc) (a : AuthenticatedContent) : Bytes :=
  match (Spec.Rfc.authenticatedContent a).bytes with
  | some raw => pr.hash d.hash (vec (ascii "MLS 1.0 Proposal Reference") ++ vec raw)
  | none => []

theorem writeOpaqueVec_bound {b x : Bytes} (h : writeOpaqueVec b = .ok x) : b.length < 2 ^ 30 := by
  apply Classical.byContradiction
  intro hn
  rw [writeOpaqueVec_long hn] at h
  cases h

theorem generateProposalRef_ok {cs : UInt16} {a : AuthenticatedContent} {ref : Bytes}
    (h : a.generateProposalRef pr cs = .ok ref) : ∃ d, suite cs = .ok d ∧ ref = Spec.proposalRef pr d a := by
  unfold AuthenticatedContent.generateProposalRef at h
  split at h
  · cases h
  · unfold refHash encRefHashInput at h
    simp only [Res.bind_ok_iff, Res.pure_eq, Res.ok.injEq] at h
    obtain ⟨raw, hr, x, hx, d, hd, rfl⟩ := h
    refine ⟨d, hd, ?_⟩
    rw [Enc.append_ok_iff] at hx
    obtain ⟨y, z, hy, hz, rfl⟩ := hx
    rw [writeOpaqueVec_vec (writeOpaqueVec_bound hy)] at hy
    rw [writeOpaqueVec_vec (writeOpaqueVec_bound hz)] at hz
    cases hy; cases hz
    unfold Spec.proposalRef
    rw [authContent_some.2 hr]
    have : lblProposalRef = Spec.ascii "MLS 1.0 Proposal Reference" := by decide
    rw [this]

/-- C60: an accepted proposal appends exactly itself, with its reference and sender, to the pending
proposals, and changes nothing else. -/
theorem C60_proposal (pr : Prims) (st st' : GroupState) (raw : Bytes) (now : GoTime) (r : Option Bytes)
    (a : AuthenticatedContent) (e : Bool) (p : Proposal) (hc : Carries pr st raw a e)
    (hk : a.content.content = .proposal p) (h : unmarshalAndProcessMessage pr st raw now = (.ok r, st')) :
    r = none ∧ ∃ d, suite st.group.groupContext.cipherSuite = .ok d ∧
      st' = { st with group := { st.group with pendingProposals := st.group.pendingProposals ++
        [⟨Spec.proposalRef pr d a, p, a.content.sender.leafIndex⟩] } } := by
  obtain ⟨a', e', hc', h⟩ := accepted_cases h
  obtain ⟨rfl, _⟩ := hc.unique hc'
  rcases h with ⟨p', hk', rfl, hp⟩ | ⟨_, hk', _⟩ | ⟨_, hk', _⟩
  · rcases processProposal_cases (pr := pr) st a p hk with ⟨ref, hr, hp'⟩ | ⟨hp', _⟩
    · rw [hp'] at hp; cases hp
      obtain ⟨d, hd, rfl⟩ := generateProposalRef_ok hr
      exact ⟨rfl, d, hd, rfl⟩
    · rw [hp] at hp'; exact absurd rfl hp'
  · rw [hk] at hk'; cases hk'
  · rw [hk] at hk'; cases hk'

/-- A proposal that is not accepted changes nothing. -/
theorem C60_refused (pr : Prims) (st : GroupState) (raw : Bytes) (now : GoTime) (a : AuthenticatedContent)
    (e : Bool) (p : Proposal) (hc : Carries pr st raw a e) (hk : a.content.content = .proposal p)
    (h : ∀ d, (unmarshalAndProcessMessage pr st raw now).1 ≠ .ok d) :
    (unmarshalAndProcessMessage pr st raw now).2 = st := by
  rcases rejected_cases (st' := (unmarshalAndProcessMessage pr st raw now).2) rfl h with
    hs | ⟨a', e', c, _, _, _, _, hc', hk', _⟩
  · exact hs
  · obtain ⟨rfl, _⟩ := hc.unique hc'
    rw [hk] at hk'; cases hk'

/-- A member's remove proposal, sent in the clear, waits in the list. -/
example : (unmarshalAndProcessMessage toyPrims toyPair (toyPublic toyPair 1 1 (.proposal (.remove 1)) []) toyNow).1 =
      .ok none ∧
    ((unmarshalAndProcessMessage toyPrims toyPair
      (toyPublic toyPair 1 1 (.proposal (.remove 1)) []) toyNow).2.group.pendingProposals.map fun p =>
        (p.proposal, p.sender)) = [(.remove 1, 1)] := by decide +kernel

/-! ### C53 -/

/-- The pending proposals after a sequence of accepted messages. -/
def Spec.pendingAfter (pr : Prims) (d : SuiteDesc) (init : List PendingProposal)
    (as : List AuthenticatedContent) : List PendingProposal :=
  as.foldl (fun l a => match a.content.content with
    | .proposal p => l ++ [⟨proposalRef pr d a, p, a.content.sender.leafIndex⟩]
    | .commit _ => []
    | .application _ => l) init

/-- C53: at any time the pending proposals are exactly those accepted since the last accepted commit,
each with its own content, sender and reference. -/
theorem C53_pending (pr : Prims) (st st' : GroupState) (as : List AuthenticatedContent) (d : SuiteDesc)
    (hd : suite st.group.groupContext.cipherSuite = .ok d) (h : Trace pr st as st') :
    st'.group.pendingProposals = Spec.pendingAfter pr d st.group.pendingProposals as := by
  induction h with
  | nil => rfl
  | @accept st1 st2 as raw now a e r h hc hr ih =>
    have hcs := (C44_history pr _ _ _ h).1.cipherSuite
    unfold Spec.pendingAfter at ih ⊢
    rw [List.foldl_append, ← ih]
    simp only [List.foldl_cons, List.foldl_nil]
    cases hk : a.content.content with
    | proposal p =>
      obtain ⟨_, d', hd', rfl⟩ := C60_proposal pr _ _ _ _ _ _ _ _ hc hk hr
      rw [hcs, hd] at hd'
      cases hd'
      rfl
    | commit c =>
      obtain ⟨a', e', hc', h⟩ := accepted_cases hr
      obtain ⟨rfl, _⟩ := hc.unique hc'
      rcases h with ⟨_, hk', _⟩ | ⟨c', hk', _, hp⟩ | ⟨_, hk', _⟩
      · rw [hk] at hk'; cases hk'
      · rcases processCommit_cases (pr := pr) st1 a c hk [] [] now with ⟨_, _, _, _, _, _, _, hf, hp'⟩ | ⟨hp', _⟩
        · rw [hp'] at hp; cases hp
          exact (finishCommit_group hf).2.2.2.2.2.2.2
        · rw [hp] at hp'; exact absurd rfl hp'
      · rw [hk] at hk'; cases hk'
    | application data =>
      obtain ⟨a', e', hc', h⟩ := accepted_cases hr
      obtain ⟨rfl, _⟩ := hc.unique hc'
      rcases h with ⟨_, hk', _⟩ | ⟨c', hk', _, hp⟩ | ⟨_, hk', _, rfl, _⟩
      · rw [hk] at hk'; cases hk'
      · rw [hk] at hk'; cases hk'
      · rfl
  | refuse h hr ih => rw [refuse_group hr]; exact ih
  | @invite st1 st2 as kps r o h hr ho ih =>
    have := createWelcome_group (pr := pr) st1 kps r
    rw [hr] at this
    rw [this]; exact ih

/-- The proposals of a commit with their senders: the committer for those it contains, the original
sender for those it refers to; `none` if a reference is unknown. -/
def Spec.resolve (committer : UInt32) (pending : List PendingProposal) (l : List ProposalOrRef) :
    Option (List (Proposal × UInt32)) :=
  l.mapM fun
    | .proposal p => some (p, committer)
    | .reference r => (pending.find? fun pp => pp.ref = r).map fun pp => (pp.proposal, pp.sender)

theorem resolveProposals_eq (committer : UInt32) (pending : List PendingProposal) (l : List ProposalOrRef) :
    resolveProposals committer pending l =
      orErr ((Spec.resolve committer pending l).map fun x => (x.map (·.1), x.map (·.2))) := by
  induction l with
  | nil => rfl
  | cons x l ih =>
    unfold Spec.resolve at ih ⊢
    cases x with
    | proposal p =>
      simp only [resolveProposals, List.mapM_cons, ih]
      generalize (l.mapM _ : Option (List (Proposal × UInt32))) = o
      cases o <;> rfl
    | reference r =>
      simp only [resolveProposals, List.mapM_cons, ih]
      have : (fun pp : PendingProposal => pp.ref == r) = fun pp => decide (pp.ref = r) := by
        funext pp; by_cases h : pp.ref = r <;> simp [h]
      rw [this]
      cases pending.find? _ with
      | none => rfl
      | some pp =>
        simp only
        generalize (l.mapM _ : Option (List (Proposal × UInt32))) = o
        cases o <;> rfl

/-- C53: an accepted commit has every reference among the pending proposals; the tree it leads to is
made from the proposals so resolved, each with the sender it was received from; and no proposal is
pending afterwards. -/
theorem C53_commit (pr : Prims) (st st' : GroupState) (raw : Bytes) (now : GoTime) (r : Option Bytes)
    (a : AuthenticatedContent) (e : Bool) (c : Commit) (hc : Carries pr st raw a e)
    (hk : a.content.content = .commit c) (h : unmarshalAndProcessMessage pr st raw now = (.ok r, st')) :
    r = none ∧ st'.group.pendingProposals = [] ∧
    (∀ ref, ProposalOrRef.reference ref ∈ c.proposals → ∃ pp ∈ st.group.pendingProposals, pp.ref = ref) ∧
    ∃ l h t, Spec.resolve a.content.sender.leafIndex st.group.pendingProposals c.proposals = some l ∧
      treeApply st.heap st.group.tree (l.map (·.1)) (l.map (·.2)) = .ok (h, t) ∧
      finishCommit pr st.group h t a c [] [] now = .ok st' := by
  obtain ⟨a', e', hc', h⟩ := accepted_cases h
  obtain ⟨rfl, _⟩ := hc.unique hc'
  rcases h with ⟨_, hk', _⟩ | ⟨c', hk', rfl, hp⟩ | ⟨_, hk', _⟩
  · rw [hk] at hk'; cases hk'
  · rcases processCommit_cases (pr := pr) st a c hk [] [] now with ⟨ps, ss, h, t, st2, h1, h2, hf, hp'⟩ | ⟨hp', _⟩
    · rw [hp'] at hp; cases hp
      unfold checkProposals at h1
      simp only [Res.bind_ok_iff] at h1
      obtain ⟨⟨ps', ss'⟩, h3, _, _, _, _, _, _, h4⟩ := h1
      simp only [Res.pure_eq, Res.ok.injEq, Prod.mk.injEq] at h4
      obtain ⟨rfl, rfl⟩ := h4
      rw [resolveProposals_eq, orErr_ok_iff] at h3
      simp only [Option.map_eq_some_iff, Prod.mk.injEq] at h3
      obtain ⟨l, hl, rfl, rfl⟩ := h3
      refine ⟨rfl, (finishCommit_group hf).2.2.2.2.2.2.2, ?_, l, h, t, hl, h2, hf⟩
      intro ref hm
      have hall : ∀ (cs : List ProposalOrRef) (l : List (Proposal × UInt32)),
          Spec.resolve a.content.sender.leafIndex st.group.pendingProposals cs = some l →
          ProposalOrRef.reference ref ∈ cs → ∃ pp ∈ st.group.pendingProposals, pp.ref = ref := by
        intro cs
        induction cs with
        | nil => intro l _ hm; simp at hm
        | cons x cs ih =>
          intro l hl hm
          unfold Spec.resolve at hl
          rw [List.mapM_cons] at hl
          simp only [Option.bind_eq_bind, Option.bind_eq_some_iff] at hl
          obtain ⟨y, hy, l', hl', _⟩ := hl
          rcases List.mem_cons.1 hm with rfl | hm
          · simp only [Option.map_eq_some_iff] at hy
            obtain ⟨pp, hpp, _⟩ := hy
            exact ⟨pp, List.mem_of_find?_eq_some hpp, by simpa using List.find?_some hpp⟩
          · exact ih l' hl' hm
      exact hall _ _ hl hm
    · rw [hp] at hp'; exact absurd rfl hp'
  · rw [hk] at hk'; cases hk'

/-- A proposal of leaf 1 committed by reference by leaf 0: the commit is accepted in the state that
has the proposal pending, refused in the one that has not. -/
def exPending : GroupState :=
  (unmarshalAndProcessMessage toyPrims toyPair
    (toyPublic toyPair 1 1 (.proposal (.add (toyKeyPackage 5))) []) toyNow).2

example : exPending.group.pendingProposals.length = 1 ∧
    (unmarshalAndProcessMessage toyPrims exPending (toyPublic exPending 0 0
      (.commit ⟨[.reference (exPending.group.pendingProposals.map (·.ref)).head!], none⟩) [1]) toyNow).1 = .ok none ∧
    (unmarshalAndProcessMessage toyPrims toyPair (toyPublic toyPair 0 0
      (.commit ⟨[.reference (exPending.group.pendingProposals.map (·.ref)).head!], none⟩) [1]) toyNow).1 = .err := by
  decide +kernel

end Mls
