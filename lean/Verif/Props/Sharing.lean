import Verif.Props.GroupEffects
import Verif.Spec.ToyHistory
/-
C43 and C51: what failed messages and invitations do to the group through the shared parent nodes.
-/
namespace Mls

variable {pr : Prims}

/-- Two nodes that differ at most by leaves appended to the unmerged leaves of a parent. -/
inductive NodeGrown : Option Node → Option Node → Prop where
  | blank : NodeGrown none none
  | leaf (l : LeafNode) : NodeGrown (some (.leaf l)) (some (.leaf l))
  | parent {p q : ParentNode} (h : Grown p q) : NodeGrown (some (.parent p)) (some (.parent q))

/-- Two trees that differ at most by leaves appended to the unmerged leaves of parents. -/
def TreeGrown (v v' : VTree) : Prop :=
  v'.length = v.length ∧ ∀ i, (h : i < v.length) → (h' : i < v'.length) → NodeGrown v[i] v'[i]

theorem derefTree_grown {h h' : Heap} (hg : HeapGrown h h') (t : RTree) :
    TreeGrown (derefTree h t) (derefTree h' t) := by
  refine ⟨by simp [derefTree], fun i hi hi' => ?_⟩
  simp only [derefTree, List.getElem_map]
  rcases t[i]'(by simpa [derefTree] using hi) with _ | n
  · exact .blank
  · cases n with
    | leaf l => exact .leaf l
    | parent p => exact .parent (hg.nodes p)

/-- The refused message carries a commit whose proposals include an add. -/
def Spec.CommitsAdd (pr : Prims) (st : GroupState) (raw : Bytes) : Prop :=
  ∃ a e c l k s, Carries pr st raw a e ∧ a.content.content = .commit c ∧
    Spec.resolve a.content.sender.leafIndex st.group.pendingProposals c.proposals = some l ∧
    (Proposal.add k, s) ∈ l

/-- C43, except for the unmerged leaves of parent nodes: a message answered with an error leaves the
group record alone, and the tree the same but for leaves appended to unmerged leaves; it leaves
everything alone unless it is a commit that adds a member and the tree has a non-blank parent node.
Missing: the unmerged leaves (see C43_refuted). -/
theorem C43_partial (pr : Prims) (st st' : GroupState) (raw : Bytes) (now : GoTime)
    (h : unmarshalAndProcessMessage pr st raw now = (.err, st')) :
    st'.group = st.group ∧ TreeGrown st.vtree st'.vtree ∧
    (¬ Spec.CommitsAdd pr st raw → st' = st) ∧ (NoParents st.group.tree → st' = st) := by
  rcases rejected_cases h (by simp) with rfl | ⟨a, e, c, ps, ss, h', t, hc, hk, h1, h2, rfl, _⟩
  · exact ⟨rfl, derefTree_grown (.refl _) _, fun _ => rfl, fun _ => rfl⟩
  · refine ⟨rfl, derefTree_grown (treeApply_grown h2) _, ?_, ?_⟩
    · intro hn
      have : h' = st.heap := by
        refine treeApply_noAdd ?_ h2
        intro p hp
        cases p with
        | add k =>
          exfalso
          apply hn
          unfold checkProposals at h1
          simp only [Res.bind_ok_iff] at h1
          obtain ⟨⟨ps', ss'⟩, h3, _, _, _, _, _, _, h4⟩ := h1
          simp only [Res.pure_eq, Res.ok.injEq, Prod.mk.injEq] at h4
          obtain ⟨rfl, rfl⟩ := h4
          rw [resolveProposals_eq, orErr_ok_iff] at h3
          simp only [Option.map_eq_some_iff, Prod.mk.injEq] at h3
          obtain ⟨l, hl, rfl, rfl⟩ := h3
          rw [List.mem_map] at hp
          obtain ⟨⟨p, s⟩, hm, hp⟩ := hp
          simp only at hp
          subst hp
          exact ⟨a, e, c, l, k, s, hc, hk, hl, hm⟩
        | update | remove | psk | reInit | externalInit | groupContextExtensions => rfl
      rw [this]
    · intro hn
      rw [(treeApply_noParents hn h2).1]

/-- A message cut short is refused, by a group without a parent node. -/
example : NoParents toyPair.group.tree ∧ (unmarshalAndProcessMessage toyPrims toyPair [0, 1, 0] toyNow).1 = .err := by
  refine ⟨fun p hp => ?_, by decide +kernel⟩
  have : toyPair.group.tree.all (fun n => match n with | some (.parent _) => false | _ => true) = true := by decide +kernel
  have := List.all_eq_true.1 this _ hp
  cases this

/-- A group whose leaf 1 is blank under a non-blank root. -/
def toyLopsided : GroupState :=
  toyState [toyParent 0] [some (.leaf (toyLeaf 0)), some (.parent 0), none] 0 0

/-- A commit that adds a member and is then refused because of its path. -/
def toyBadCommit : Bytes :=
  toyPublic toyLopsided 0 0
    (.commit ⟨[.proposal (.add (toyKeyPackage 5))], some ⟨toyLeaf 0, []⟩⟩) [1]

/-- C43 is false: the refused commit leaves leaf 1 among the unmerged leaves of the root. -/
theorem C43_refuted : ∃ (st : GroupState) (raw : Bytes) (now : GoTime),
    (unmarshalAndProcessMessage toyPrims st raw now).1 = .err ∧
    (unmarshalAndProcessMessage toyPrims st raw now).2.vtree ≠ st.vtree ∧
    (unmarshalAndProcessMessage toyPrims st raw now).2.vtree[1]? =
      some (some (.parent { toyParent 0 with unmergedLeaves := [1] })) :=
  ⟨toyLopsided, toyBadCommit, toyNow, by decide +kernel⟩

/-- The tree hash of the group changes with it, while the context still has the old one. -/
theorem C43_tree_hash : ∃ (st : GroupState) (raw : Bytes) (now : GoTime),
    (unmarshalAndProcessMessage toyPrims st raw now).1 = .err ∧
    computeRootTreeHash toyPrims 1 (unmarshalAndProcessMessage toyPrims st raw now).2.vtree ≠
      computeRootTreeHash toyPrims 1 st.vtree :=
  ⟨toyLopsided, toyBadCommit, toyNow, by decide +kernel⟩

/-! ### C51 -/

/-- C51, except for the unmerged leaves of parent nodes: CreateWelcome, whether it succeeds or not,
leaves the group record alone, and the tree the same but for leaves appended to unmerged leaves, and
changes nothing at all if the tree has no parent node. Missing: the unmerged leaves (C51_refuted). -/
theorem C51_partial (pr : Prims) (st : GroupState) (kps : List KeyPackage) (r : WelcomeRand) :
    (createWelcome pr st kps r).2.group = st.group ∧
    TreeGrown st.vtree (createWelcome pr st kps r).2.vtree ∧
    (NoParents st.group.tree → (createWelcome pr st kps r).2 = st) := by
  unfold createWelcome
  split
  · exact ⟨rfl, derefTree_grown (.refl _) _, fun _ => rfl⟩
  · split
    · next h t ht =>
      refine ⟨rfl, derefTree_grown (treeApply_grown ht) _, ?_⟩
      intro hn
      simp only
      rw [(treeApply_noParents hn ht).1]
    all_goals exact ⟨rfl, derefTree_grown (.refl _) _, fun _ => rfl⟩

/-- C51 is false: a successful CreateWelcome leaves the invitee among the unmerged leaves of the root,
before the commit is processed; another one does so again. -/
theorem C51_refuted : ∃ (st : GroupState) (kps : List KeyPackage) (r : WelcomeRand),
    (createWelcome toyPrims st kps r).1 ≠ .err ∧ (createWelcome toyPrims st kps r).1 ≠ .panic ∧
    (createWelcome toyPrims st kps r).2.vtree ≠ st.vtree ∧
    (createWelcome toyPrims (createWelcome toyPrims st kps r).2 kps r).2.vtree[1]? =
      some (some (.parent { toyParent 0 with unmergedLeaves := [1, 1] })) :=
  ⟨toyLopsided, [toyKeyPackage 5], default, by decide +kernel⟩

/-! ### Groups without parent nodes -/

theorem finishCommit_noPath {g : Group} {h : Heap} {t : RTree} {a : AuthenticatedContent} {c : Commit}
    {ids : List PreSharedKeyID} {psks : List Bytes} {now : GoTime} {st' : GroupState} (hp : c.path = none)
    (hf : finishCommit pr g h t a c ids psks now = .ok st') : st'.heap = h ∧ st'.group.tree = t := by
  unfold finishCommit at hf
  rw [hp] at hf
  simp only [Res.bind_ok_iff] at hf
  obtain ⟨_, _, _, _, ⟨h2, t2, c2, p2, s2⟩, ⟨_, _, he'⟩, _, _, _, _, _, _, _, _, _, _, _, _, he⟩ := hf
  cases he'
  cases he
  exact ⟨rfl, rfl⟩

/-- The content is no commit with an update path. -/
def Spec.noPath (a : AuthenticatedContent) : Prop :=
  ∀ c, a.content.content = .commit c → c.path = none

/-- As long as no commit with a path is accepted, a group without parent nodes stays so. -/
theorem trace_noParents {st st' : GroupState} {as : List AuthenticatedContent} (h : Trace pr st as st')
    (hn : NoParents st.group.tree) (hp : ∀ a ∈ as, Spec.noPath a) : NoParents st'.group.tree := by
  induction h with
  | nil => exact hn
  | @accept st1 st2 as raw now a e d h hc hr ih =>
    have ih := ih fun b hb => hp b (by simp [hb])
    obtain ⟨a', e', hc', hcase⟩ := accepted_cases hr
    obtain ⟨rfl, _⟩ := hc.unique hc'
    rcases hcase with ⟨p, hk, _, hq⟩ | ⟨c, hk, _, hq⟩ | ⟨_, _, _, rfl, _⟩
    · rcases processProposal_cases (pr := pr) st1 a p hk with ⟨ref, _, hp'⟩ | ⟨hp', _⟩
      · rw [hp'] at hq; cases hq; exact ih
      · rw [hq] at hp'; exact absurd rfl hp'
    · rcases processCommit_cases (pr := pr) st1 a c hk [] [] now with ⟨_, _, h', t, _, _, h2, hf, hp'⟩ | ⟨hp', _⟩
      · rw [hp'] at hq; cases hq
        rw [(finishCommit_noPath (hp a (by simp) c hk) hf).2]
        exact (treeApply_noParents ih h2).2
      · rw [hq] at hp'; exact absurd rfl hp'
    · exact ih
  | refuse h hr ih => rw [refuse_group hr]; exact ih hp
  | @invite st1 st2 as kps r o h hr ho ih =>
    have := createWelcome_group (pr := pr) st1 kps r
    rw [hr] at this
    rw [this]; exact ih hp

theorem createGroup_noParents {id : Bytes} {kp : KeyPairPackage} {rand : Nat → UInt8} {st : GroupState}
    (h : createGroup pr id kp rand = .ok st) : NoParents st.group.tree := by
  unfold createGroup at h
  simp only [Res.bind_ok_iff] at h
  obtain ⟨⟨hp, t⟩, h1, _, _, _, _, _, _, _, _, _, _, _, _, _, _, h⟩ := h
  cases h
  refine (treeAdd_noParents ?_ h1).2
  intro p hm
  simp at hm

/-- C43 and C51 hold in full for the groups this library makes by itself: CreateGroup followed by any
history in which every accepted commit lacks an update path, as those of CreateWelcome do. There a
refused message and an invitation change nothing. -/
theorem C43_own_groups (pr : Prims) (id : Bytes) (kp : KeyPairPackage) (rand : Nat → UInt8) (st₀ st : GroupState)
    (as : List AuthenticatedContent) (h₀ : createGroup pr id kp rand = .ok st₀) (ht : Trace pr st₀ as st)
    (hp : ∀ a ∈ as, Spec.noPath a) :
    (∀ raw now st', unmarshalAndProcessMessage pr st raw now = (.err, st') → st' = st) ∧
    (∀ kps r, (createWelcome pr st kps r).2 = st) := by
  have hn := trace_noParents ht (createGroup_noParents h₀) hp
  exact ⟨fun raw now st' h => (C43_partial pr st st' raw now h).2.2.2 hn,
    fun kps r => (C51_partial pr st kps r).2.2 hn⟩

/-- The group created by `0`, which invites `1` and processes its own commit: a commit without a path. -/
example : ∃ st₀ st a, createGroup toyPrims [7] (toyMember 0) (fun _ => 3) = .ok st₀ ∧ Trace toyPrims st₀ [a] st ∧
    (∀ b ∈ [a], Spec.noPath b) ∧ st.group.groupContext.epoch = 1 := by
  obtain ⟨st₀, h0, h⟩ := Res.holds_ok (x := createGroup toyPrims [7] (toyMember 0) (fun _ => 3))
    (f := fun st₀ => (createWelcome toyPrims st₀ [(toyMember 1).pub] default).1.holds fun p =>
      decide ((unmarshalAndProcessMessage toyPrims (createWelcome toyPrims st₀ [(toyMember 1).pub] default).2 p.2 toyLater).1 = .ok none ∧
        (unmarshalAndProcessMessage toyPrims (createWelcome toyPrims st₀ [(toyMember 1).pub] default).2 p.2
          toyLater).2.group.groupContext.epoch = 1) &&
      (match unmarshal MlsMessage.dec p.2 with
        | .ok ⟨_, .privateMessage m⟩ =>
          (decryptPrivateMessage toyPrims (createWelcome toyPrims st₀ [(toyMember 1).pub] default).2 m).holds fun a =>
            match a.content.content with | .commit c => c.path.isNone | _ => false
        | _ => false))
    (by decide +kernel)
  obtain ⟨⟨w, raw⟩, h1, h⟩ := Res.holds_ok h
  simp only [Bool.and_eq_true, decide_eq_true_eq] at h
  obtain ⟨⟨h2, h3⟩, h⟩ := h
  split at h <;> try cases h
  next v m hm =>
  obtain ⟨a, h4, h⟩ := Res.holds_ok h
  split at h <;> try cases h
  next c hk =>
  refine ⟨st₀, _, a, h0, .accept (as := []) (.invite (.nil _) (Prod.ext h1 rfl) (by simp [Res.Fine])) (.priv hm h4) (Prod.ext h2 rfl), ?_, h3⟩
  intro b hb c' hc'
  rw [List.mem_singleton] at hb
  subst hb
  rw [hk] at hc'
  cases hc'
  simpa using h

end Mls
