import Verif.Model.Copies
import Verif.Props.Invariant
import Verif.Props.Sharing
/-
Groups that share memory: what a call on one of them does to the nodes and pending proposals of the others.
-/
namespace Mls

open Spec (nodeAt)

variable {pr : Prims}

/-! ### The heap -/

/-- The nodes of the heap are kept, but for leaves appended to their unmerged leaves. -/
structure HeapKept (h h' : Heap) : Prop where
  length : h.length ≤ h'.length
  nodes : ∀ p, p < h.length → Grown (h.getD p default) (h'.getD p default)

theorem HeapKept.refl (h : Heap) : HeapKept h h := ⟨Nat.le_refl _, fun _ _ => .refl _⟩

theorem HeapGrown.kept {h h' : Heap} (hg : HeapGrown h h') : HeapKept h h' := ⟨Nat.le_of_eq hg.length.symm, fun p _ => hg.nodes p⟩

/-- What is new among the unmerged leaves of old nodes is below a node of the tree. -/
def UnmergedBelow (h h' : Heap) (t : RTree) : Prop :=
  ∀ (p : Nat) (u : UInt32), p < h.length → u ∈ (h'.getD p default).unmergedLeaves → u ∈ (h.getD p default).unmergedLeaves ∨
    ∃ x, t[x]? = some (some (.parent p)) ∧ Over (u.toNat % 2 ^ 31) x

/-- The nodes of a tree are those of the other at the same place, or new ones. -/
def FromTree (h : Heap) (t t' : RTree) : Prop :=
  ∀ x p : Nat, t'[x]? = some (some (TNode.parent p)) → t[x]? = some (some (.parent p)) ∨ h.length ≤ p

theorem FromTree.refl (h : Heap) (t : RTree) : FromTree h t t := fun _ _ hx => .inl hx

theorem set_sub {t : RTree} {i : Nat} {o : Option TNode} (ho : ∀ p, o ≠ some (.parent p)) : Sub (t.set i o) t := by
  intro x p hx
  rw [List.getElem?_set] at hx
  split at hx
  · split at hx
    · exact absurd (Option.some.inj hx) (ho p)
    · cases hx
  · exact hx

theorem blankAll_sub : ∀ (xs : List Nat) (t t' : RTree), blankAll t xs = .ok t' → Sub t' t := by
  intro xs
  induction xs with
  | nil => intro t t' h; cases h; exact .refl _
  | cons y ys ih =>
    intro t t' h
    rw [blankAll] at h
    simp only [Res.bind_ok_iff, Res.setIdx_ok_iff] at h
    obtain ⟨_, ⟨_, rfl⟩, h⟩ := h
    exact (ih _ _ h).trans (set_sub fun p => by simp)

theorem setPathNodes_from : ∀ (xs : List Nat) (ns : List UpdatePathNode) (h : Heap) (t : RTree) (h' : Heap) (t' : RTree),
    setPathNodes h t xs ns = .ok (h', t') → FromTree h t t' := by
  intro xs
  induction xs with
  | nil => intro ns h t h' t' hr; rw [setPathNodes] at hr; cases hr; exact .refl _ _
  | cons y ys ih =>
    intro ns h t h' t' hr
    cases ns with
    | nil => rw [setPathNodes] at hr; cases hr
    | cons n ns =>
      rw [setPathNodes] at hr
      simp only [Res.bind_ok_iff, Res.setIdx_ok_iff] at hr
      obtain ⟨_, ⟨hy, rfl⟩, hr⟩ := hr
      intro x p hx
      rcases ih _ _ _ _ _ hr x p hx with hx | hp
      · rw [List.getElem?_set] at hx
        split at hx
        · cases hx
          exact .inr (Nat.le_refl _)
        · exact .inl hx
      · rw [List.length_append] at hp
        exact .inr (by omega)

theorem mergeUpdatePath_from {cs : UInt16} {h h' : Heap} {t t' : RTree} {i : Nat} {path : UpdatePath}
    (hr : mergeUpdatePath pr cs h t i path = .ok (h', t')) : FromTree h t t' := by
  unfold mergeUpdatePath at hr
  simp only [Res.bind_ok_iff, Res.setIdx_ok_iff] at hr
  obtain ⟨dp, _, t1, h1, fdp, _, _, _, ⟨h2, t2⟩, h3, ⟨h4, prev⟩, _, _, _, t5, ⟨_, rfl⟩, he⟩ := hr
  cases he
  intro x p hx
  rcases setPathNodes_from _ _ _ _ _ _ h3 x p (set_sub (fun p => by simp) x p hx) with hx | hp
  · exact .inl (blankAll_sub _ _ _ h1 x p hx)
  · exact .inr hp

/-- What a call on a group does to the heap and the tree. -/
structure CallEffect (st st' : GroupState) : Prop where
  kept : HeapKept st.heap st'.heap
  below : UnmergedBelow st.heap st'.heap st.group.tree
  tree : FromTree st.heap st.group.tree st'.group.tree

theorem CallEffect.refl (st : GroupState) : CallEffect st st := ⟨.refl _, fun _ _ _ h => .inl h, .refl _ _⟩

theorem CallEffect.applied {st : GroupState} (hv : ValidTree st.heap st.group.tree) {ps : List Proposal} {ss : List UInt32} {h : Heap} {t : RTree}
    (ht : treeApply st.heap st.group.tree ps ss = .ok (h, t)) : CallEffect st { st with heap := h } :=
  ⟨(treeApply_grown ht).kept, fun p u _ hu => (treeApply_effect (.inr hv) ht).2.2 p u hu, .refl _ _⟩

/-- Finishing a commit leaves the nodes as applying the proposals left them, and adds new ones. -/
theorem finishCommit_heap (hc : pr.Correct) {st st' : GroupState} (hi : GroupInv pr st) {ps : List Proposal} {ss : List UInt32}
    {h : Heap} {t : RTree} (ht : treeApply st.heap st.group.tree ps ss = .ok (h, t)) {a : AuthenticatedContent} {c : Commit} {now : GoTime}
    {ids : List PreSharedKeyID} {psks : List Bytes} (hf : finishCommit pr st.group h t a c ids psks now = .ok st') :
    h.length ≤ st'.heap.length ∧ (∀ p, p < h.length → st'.heap.getD p default = h.getD p default) ∧ FromTree h t st'.group.tree := by
  obtain ⟨hv, hs, hu⟩ := treeApply_effect (.inr hi.tree) ht
  obtain ⟨_, pt, _, ⟨_, e1, e2, _⟩ | ⟨path, ctx', sec, _, hpath⟩⟩ := finishCommit_parts hf
  · rw [e1, e2]
    exact ⟨Nat.le_refl _, fun _ _ => rfl, .refl _ _⟩
  · obtain ⟨leaf, th, g1, g2, _⟩ := commitPath_ok hpath
    have hfrom := mergeUpdatePath_from g2
    rw [getLeaf_mod] at g1
    rw [mergeUpdatePath_mod] at g2
    have hi31 : a.content.sender.leafIndex.toNat % 2 ^ 31 < 2 ^ 31 := Nat.mod_lt _ (by decide)
    have hlt : 2 * (a.content.sender.leafIndex.toNat % 2 ^ 31) < t.length := by
      unfold getLeaf at g1
      simp only [Res.bind_ok_iff, Res.idx_ok_iff] at g1
      obtain ⟨o, g1, _⟩ := g1
      rw [nodeOfLeaf_idx hi31, idx_zero] at g1
      have := (List.getElem?_eq_some_iff.1 g1).1
      rwa [derefTree_length] at this
    have hvt : ValidTree h t := by
      rcases hv with rfl | hv
      · simp at hlt
      · exact hv
    obtain ⟨d, hd, s, hs'⟩ := hvt.holds
    obtain ⟨sd, hsd⟩ := hi.suite
    have hid : a.content.sender.leafIndex.toNat % 2 ^ 31 < 2 ^ d := by
      rw [hs'.length, Nat.pow_succ] at hlt
      omega
    obtain ⟨m1, m2⟩ := mergeUpdatePath_spec hc hsd hd hid hs' path
    rcases hm : s.mergePath (pr.hash sd.hash) (a.content.sender.leafIndex.toNat % 2 ^ 31) path with _ | s'
    · exact absurd g2 (m2 hm _)
    · obtain ⟨h2, t2, k1, _, k3, k4⟩ := m1 s' hm
      rw [k1] at g2
      obtain ⟨rfl, rfl⟩ := Prod.mk.inj (Res.ok.inj g2)
      refine ⟨k3, fun p hp => ?_, hfrom⟩
      rw [List.getD_eq_getElem?_getD, List.getD_eq_getElem?_getD, k4 p hp]

theorem commit_call (hc : pr.Correct) {st st' : GroupState} (hi : GroupInv pr st) {ps : List Proposal} {ss : List UInt32}
    {h : Heap} {t : RTree} (ht : treeApply st.heap st.group.tree ps ss = .ok (h, t)) {a : AuthenticatedContent} {c : Commit} {now : GoTime}
    {ids : List PreSharedKeyID} {psks : List Bytes} (hf : finishCommit pr st.group h t a c ids psks now = .ok st') : CallEffect st st' := by
  obtain ⟨hv, hs, hu⟩ := treeApply_effect (.inr hi.tree) ht
  have hg := treeApply_grown ht
  have hl := hg.length
  obtain ⟨k1, k2, k3⟩ := finishCommit_heap hc hi ht hf
  refine ⟨⟨by omega, fun p hp => by rw [k2 p (by omega)]; exact hg.nodes p⟩, fun p u hp => by rw [k2 p (by omega)]; exact hu p u, fun x p hx => ?_⟩
  rcases k3 x p hx with hx | hp
  · exact .inl (hs x p hx)
  · exact .inr (by omega)

/-- A message that commits no add changes no node that was there before. -/
theorem message_noAdd (hc : pr.Correct) {st st' : GroupState} (hi : GroupInv pr st) {raw : Bytes} {now : GoTime}
    {r : Res (Option Bytes)} (hr : unmarshalAndProcessMessage pr st raw now = (r, st')) (hn : ¬ Spec.CommitsAdd pr st raw) :
    ∀ p, p < st.heap.length → st'.heap.getD p default = st.heap.getD p default := by
  by_cases ho : ∃ d, r = .ok d
  · obtain ⟨d, rfl⟩ := ho
    obtain ⟨a, e, hca, ⟨p, hp, _, hpp⟩ | ⟨c, hcm, _, hpc⟩ | ⟨_, _, _, rfl, _⟩⟩ := accepted_cases hr
    · rcases processProposal_cases (pr := pr) st a p hp with ⟨ref, _, he⟩ | ⟨hne, _⟩
      · rw [hpp] at he
        obtain rfl := (Prod.mk.inj he).2
        exact fun _ _ => rfl
      · rw [hpp] at hne
        exact absurd rfl hne
    · obtain ⟨l, h, t, h1, _, h3, h4⟩ := accepted_commit hca hcm hr
      have : h = st.heap := by
        refine treeApply_noAdd (fun q hq => ?_) h3
        cases q with
        | add k =>
          obtain ⟨⟨q, s⟩, hm, he⟩ := List.mem_map.1 hq
          dsimp only at he
          subst he
          exact absurd ⟨a, e, c, l, k, s, hca, hcm, h1, hm⟩ hn
        | update | remove | psk | reInit | externalInit | groupContextExtensions => rfl
      subst this
      exact (finishCommit_heap hc hi h3 h4).2.1
    · exact fun _ _ => rfl
  · by_cases he : r = .err
    · subst he
      rw [(C43_partial pr st st' raw now hr).2.2.1 hn]
      exact fun _ _ => rfl
    · rcases rejected_cases hr (fun d hd => ho ⟨d, hd⟩) with rfl | ⟨_, _, _, _, _, _, _, _, _, _, _, _, rfl⟩
      · exact fun _ _ => rfl
      · exact absurd rfl he

theorem message_call (hc : pr.Correct) {st st' : GroupState} (hi : GroupInv pr st) {raw : Bytes} {now : GoTime}
    {r : Res (Option Bytes)} (hr : unmarshalAndProcessMessage pr st raw now = (r, st')) : CallEffect st st' := by
  by_cases ho : ∃ d, r = .ok d
  · obtain ⟨d, rfl⟩ := ho
    obtain ⟨a, e, _, ⟨p, hp, _, hpp⟩ | ⟨c, hcm, _, hpc⟩ | ⟨_, _, _, rfl, _⟩⟩ := accepted_cases hr
    · rcases processProposal_cases (pr := pr) st a p hp with ⟨ref, _, he⟩ | ⟨hne, _⟩
      · rw [hpp] at he
        obtain rfl := (Prod.mk.inj he).2
        exact ⟨.refl _, fun _ _ _ h => .inl h, .refl _ _⟩
      · rw [hpp] at hne
        exact absurd rfl hne
    · rcases processCommit_cases (pr := pr) st a c hcm [] [] now with ⟨ps, ss, h, t, st1, h1, h2, h3, h4⟩ | ⟨hne, _⟩
      · rw [hpc] at h4
        obtain rfl := (Prod.mk.inj h4).2
        exact commit_call hc hi h2 h3
      · rw [hpc] at hne
        exact absurd rfl hne
    · exact .refl _
  · rcases rejected_cases hr (fun d hd => ho ⟨d, hd⟩) with rfl | ⟨a, e, c, ps, ss, h, t, _, _, _, h2, rfl, _⟩
    · exact .refl _
    · exact .applied hi.tree h2

theorem welcome_call {st st' : GroupState} (hi : GroupInv pr st) {kps : List KeyPackage} {r : WelcomeRand}
    {o : Res (Welcome × Bytes)} (hr : createWelcome pr st kps r = (o, st')) : CallEffect st st' := by
  unfold createWelcome at hr
  split at hr
  · cases hr; exact .refl _
  · split at hr
    · next h t ht =>
      cases hr
      exact .applied hi.tree ht
    all_goals cases hr; exact .refl _

/-! ### The pending proposals -/

/-- What a call does to the pending proposals. -/
def PendEffect (l l' : List PendingProposal) : Prop := l' = l ∨ l' = [] ∨ ∃ x, l' = l ++ [x]

theorem message_pend {st st' : GroupState} {raw : Bytes} {now : GoTime} {r : Res (Option Bytes)}
    (hr : unmarshalAndProcessMessage pr st raw now = (r, st')) : PendEffect st.group.pendingProposals st'.group.pendingProposals := by
  by_cases ho : ∃ d, r = .ok d
  · obtain ⟨d, rfl⟩ := ho
    obtain ⟨a, e, _, ⟨p, hp, _, hpp⟩ | ⟨c, hcm, _, hpc⟩ | ⟨_, _, _, rfl, _⟩⟩ := accepted_cases hr
    · rcases processProposal_cases (pr := pr) st a p hp with ⟨ref, _, he⟩ | ⟨hne, _⟩
      · rw [hpp] at he
        obtain rfl := (Prod.mk.inj he).2
        exact .inr (.inr ⟨_, rfl⟩)
      · rw [hpp] at hne
        exact absurd rfl hne
    · rcases processCommit_cases (pr := pr) st a c hcm [] [] now with ⟨ps, ss, h, t, st1, h1, h2, h3, h4⟩ | ⟨hne, _⟩
      · rw [hpc] at h4
        obtain rfl := (Prod.mk.inj h4).2
        refine .inr (.inl ?_)
        unfold finishCommit at h3
        simp only [Res.bind_ok_iff] at h3
        obtain ⟨_, _, _, _, ⟨_, _, _, _, _⟩, _, _, _, _, _, _, _, _, _, _, _, _, _, h3⟩ := h3
        cases h3; rfl
      · rw [hpc] at hne
        exact absurd rfl hne
    · exact .inl rfl
  · rcases rejected_cases hr (fun d hd => ho ⟨d, hd⟩) with rfl | ⟨a, e, c, ps, ss, h, t, _, _, _, h2, rfl, _⟩
    · exact .inl rfl
    · exact .inl rfl

theorem welcome_pend {st st' : GroupState} {kps : List KeyPackage} {r : WelcomeRand}
    {o : Res (Welcome × Bytes)} (hr : createWelcome pr st kps r = (o, st')) : st'.group = st.group := by
  have := (C51_partial pr st kps r).1
  rw [hr] at this
  exact this

/-! ### Groups that share memory -/

/-- What holds of a group and its copies. -/
structure CopiesInv (pr : Prims) (w : Copies) : Prop where
  nil : w.arrays[0]? = some ⟨0, []⟩
  slice : ∀ g ∈ w.groups, g.arr < w.arrays.length ∧ g.len ≤ (w.arrays.getD g.arr default).slots.length
  inv : ∀ g ∈ w.groups, GroupInv pr (w.read g)
  place : ∀ g ∈ w.groups, ∀ k ∈ w.groups, ∀ x y p : Nat, g.group.tree[x]? = some (some (.parent p)) →
    k.group.tree[y]? = some (some (.parent p)) → x = y

theorem Copies.read_heap (w : Copies) (g : SharedGroup) : (w.read g).heap = w.heap := rfl

theorem CopiesInv.pend_length {w : Copies} (hw : CopiesInv pr w) {g : SharedGroup} (hg : g ∈ w.groups) :
    (w.read g).group.pendingProposals.length = g.len := by
  show (List.take _ _).length = _
  rw [List.length_take]
  exact Nat.min_eq_left (hw.slice g hg).2

theorem set_read {l : List PendArray} {a : Nat} {b : PendArray} (h : a < l.length) (c : Nat) :
    (l.set a b).getD c default = if c = a then b else l.getD c default := by
  rw [List.getD_eq_getElem?_getD, List.getD_eq_getElem?_getD, List.getElem?_set]
  by_cases he : a = c
  · subst he; simp [h]
  · rw [if_neg he, if_neg (Ne.symm he)]

theorem append_read {l : List PendArray} {b : PendArray} (c : Nat) :
    (l ++ [b]).getD c default = if c = l.length then b else l.getD c default := by
  rw [List.getD_eq_getElem?_getD, List.getD_eq_getElem?_getD]
  by_cases h : c < l.length
  · rw [List.getElem?_append_left h, if_neg (by omega)]
  · by_cases he : c = l.length
    · subst he; simp
    · rw [if_neg he, List.getElem?_eq_none (by simp; omega), List.getElem?_eq_none (by omega)]

/-- What `append` does to every slice of the arrays. -/
theorem appendPending_read (grow : Nat → Nat) {l : List PendArray} {a n : Nat} (ha : a < l.length)
    (hn : n ≤ (l.getD a default).slots.length) (x : PendingProposal) :
    (appendPending grow l a n x).2 < (appendPending grow l a n x).1.length ∧
    l.length ≤ (appendPending grow l a n x).1.length ∧
    ((appendPending grow l a n x).1.getD (appendPending grow l a n x).2 default).slots.take (n + 1) = (l.getD a default).slots.take n ++ [x] ∧
    n + 1 ≤ ((appendPending grow l a n x).1.getD (appendPending grow l a n x).2 default).slots.length ∧
    ((appendPending grow l a n x).2 = a ∨ (appendPending grow l a n x).2 = l.length) ∧
    ∀ c m, c < l.length → m ≤ (l.getD c default).slots.length →
      m ≤ ((appendPending grow l a n x).1.getD c default).slots.length ∧
      ((((appendPending grow l a n x).1.getD c default).slots.take m = (l.getD c default).slots.take m) ∨
        (c = a ∧ n < m ∧ ((appendPending grow l a n x).1.getD c default).slots.take m = ((l.getD c default).slots.take m).set n x)) := by
  unfold appendPending
  dsimp only
  by_cases hr : n < (l.getD a default).cap
  · rw [if_pos hr]
    dsimp only
    have hlen : (List.take n (l.getD a default).slots).length = n := by rw [List.length_take]; omega
    refine ⟨by rw [List.length_set]; exact ha, by rw [List.length_set], ?_, ?_, .inl rfl, fun c m hc hm => ?_⟩
    · rw [set_read ha, if_pos rfl]
      rw [List.take_append, hlen, List.take_of_length_le (by omega), show n + 1 - n = 1 from by omega]
      rfl
    · rw [set_read ha, if_pos rfl]
      simp only [List.length_append, List.length_cons, List.length_drop, hlen]
      omega
    · rw [set_read ha]
      by_cases hca : c = a
      · subst hca
        rw [if_pos rfl]
        refine ⟨by simp only [List.length_append, List.length_cons, List.length_drop, hlen]; omega, ?_⟩
        by_cases hmn : m ≤ n
        · left
          rw [List.take_append_of_le_length (by omega), List.take_take, Nat.min_eq_left hmn]
        · right
          refine ⟨rfl, by omega, ?_⟩
          apply List.ext_getElem?
          intro e
          rw [List.getElem?_set, List.getElem?_take, List.getElem?_take, List.getElem?_append, hlen, List.length_take]
          by_cases h1 : e < m
          · rw [if_pos h1, if_pos h1]
            by_cases h2 : n = e
            · subst h2
              rw [if_neg (by omega), if_pos rfl, if_pos (by omega), Nat.sub_self]
              rfl
            · rw [if_neg h2]
              by_cases h3 : e < n
              · rw [if_pos h3, List.getElem?_take, if_pos h3]
              · rw [if_neg h3, show e - n = (e - n - 1) + 1 from by omega, List.getElem?_cons_succ, List.getElem?_drop,
                  show n + 1 + (e - n - 1) = e from by omega]
          · rw [if_neg h1, if_neg h1, if_neg (by omega)]
      · rw [if_neg hca]
        exact ⟨hm, .inl rfl⟩
  · rw [if_neg hr]
    dsimp only
    have hlen : (List.take n (l.getD a default).slots).length = n := by rw [List.length_take]; omega
    refine ⟨by simp, by simp, ?_, ?_, .inr rfl, fun c m hc hm => ?_⟩
    · rw [append_read, if_pos rfl, List.take_of_length_le (by simp)]
    · rw [append_read, if_pos rfl, List.length_append, hlen]
      exact Nat.le_refl _
    · rw [append_read, if_neg (by omega)]
      exact ⟨hm, .inl rfl⟩

/-- The slice that a call leaves the group with: the old one, perhaps longer, none, or a new one. -/
structure SliceStep (w : Copies) (g g' : SharedGroup) : Prop where
  step : (g'.arr = g.arr ∧ g.len ≤ g'.len) ∨ (g'.arr = 0 ∧ g'.len = 0) ∨ w.arrays.length ≤ g'.arr

/-- What writing back leaves of a group that is not the one called. -/
structure KeptBy (grow : Nat → Nat) (w : Copies) (i : Nat) (g : SharedGroup) (st : GroupState) (k : SharedGroup) : Prop where
  slice : k.arr < (w.write grow i g st).arrays.length ∧ k.len ≤ ((w.write grow i g st).arrays.getD k.arr default).slots.length
  pend : ((w.write grow i g st).read k).group.pendingProposals = (w.read k).group.pendingProposals ∨
    k.arr = g.arr ∧ g.len < k.len ∧ ∃ x, st.group.pendingProposals = (w.read g).group.pendingProposals ++ [x] ∧
      ((w.write grow i g st).read k).group.pendingProposals = (w.read k).group.pendingProposals.set g.len x

theorem write_spec {grow : Nat → Nat} {w : Copies} (hw : CopiesInv pr w) {i : Nat} {g : SharedGroup} (hi : w.groups[i]? = some g) {st : GroupState}
    (hp : PendEffect (w.read g).group.pendingProposals st.group.pendingProposals) :
    (w.write grow i g st).heap = st.heap ∧
    (w.write grow i g st).arrays[0]? = some ⟨0, []⟩ ∧ w.arrays.length ≤ (w.write grow i g st).arrays.length ∧
    (∃ g', (w.write grow i g st).groups = w.groups.set i g' ∧ (w.write grow i g st).read g' = st ∧ g'.group = st.group ∧
      g'.arr < (w.write grow i g st).arrays.length ∧ g'.len ≤ ((w.write grow i g st).arrays.getD g'.arr default).slots.length ∧
      SliceStep w g g') ∧
    ∀ k ∈ w.groups, KeptBy grow w i g st k := by
  have hg := List.mem_of_getElem? hi
  have hl := hw.pend_length hg
  obtain ⟨s1, s2⟩ := hw.slice g hg
  have h0 : 0 < w.arrays.length := (List.getElem?_eq_some_iff.1 hw.nil).1
  have same : ∀ a b, w.write grow i g st = ⟨st.heap, w.arrays, w.groups.set i ⟨st.group, a, b⟩⟩ → ∀ k ∈ w.groups, KeptBy grow w i g st k := by
    intro a b he k hk
    refine ⟨?_, .inl ?_⟩
    · rw [he]; exact hw.slice k hk
    · rw [he]; rfl
  rcases hp with hp | hp | ⟨x, hp⟩
  · have he : w.write grow i g st = ⟨st.heap, w.arrays, w.groups.set i ⟨st.group, g.arr, g.len⟩⟩ := by
      unfold Copies.write
      rw [hp, List.drop_eq_nil_of_le (by omega)]
      exact if_neg (by omega)
    refine ⟨by rw [he], by rw [he]; exact hw.nil, by rw [he],
      ⟨⟨st.group, g.arr, g.len⟩, by rw [he], ?_, rfl, ?_, ?_, ⟨.inl ⟨rfl, Nat.le_refl _⟩⟩⟩, same _ _ he⟩
    · rw [he]
      show (⟨st.heap, { st.group with pendingProposals := (w.read g).group.pendingProposals }⟩ : GroupState) = st
      rw [← hp]
    · rw [he]; exact s1
    · rw [he]; exact s2
  · by_cases hz : 0 < g.len
    · have he : w.write grow i g st = ⟨st.heap, w.arrays, w.groups.set i ⟨st.group, 0, 0⟩⟩ := by
        unfold Copies.write
        rw [hp, List.drop_nil]
        exact if_pos hz
      refine ⟨by rw [he], by rw [he]; exact hw.nil, by rw [he],
        ⟨⟨st.group, 0, 0⟩, by rw [he], ?_, rfl, by rw [he]; exact h0, Nat.zero_le _, ⟨.inr (.inl ⟨rfl, rfl⟩)⟩⟩, same _ _ he⟩
      rw [he]
      show (⟨st.heap, { st.group with pendingProposals := [] }⟩ : GroupState) = st
      rw [← hp]
    · have he : w.write grow i g st = ⟨st.heap, w.arrays, w.groups.set i ⟨st.group, g.arr, g.len⟩⟩ := by
        unfold Copies.write
        rw [hp, List.drop_nil]
        exact if_neg hz
      refine ⟨by rw [he], by rw [he]; exact hw.nil, by rw [he],
        ⟨⟨st.group, g.arr, g.len⟩, by rw [he], ?_, rfl, ?_, ?_, ⟨.inl ⟨rfl, Nat.le_refl _⟩⟩⟩, same _ _ he⟩
      · rw [he]
        have : (w.read g).group.pendingProposals = [] := List.eq_nil_of_length_eq_zero (by omega)
        show (⟨st.heap, { st.group with pendingProposals := (w.read g).group.pendingProposals }⟩ : GroupState) = st
        rw [this, ← hp]
      · rw [he]; exact s1
      · rw [he]; exact s2
  · have he : w.write grow i g st = ⟨st.heap, (appendPending grow w.arrays g.arr g.len x).1,
        w.groups.set i ⟨st.group, (appendPending grow w.arrays g.arr g.len x).2, g.len + 1⟩⟩ := by
      unfold Copies.write
      rw [hp, ← hl, List.drop_left]
    obtain ⟨a1, a2, a3, a4, a5, a6⟩ := appendPending_read grow s1 s2 x
    refine ⟨by rw [he], ?_, by rw [he]; exact a2, ⟨⟨st.group, (appendPending grow w.arrays g.arr g.len x).2, g.len + 1⟩, by rw [he], ?_, rfl, by rw [he]; exact a1,
      by rw [he]; exact a4, ⟨?_⟩⟩, fun k hk => ?_⟩
    · rw [he]
      show (appendPending grow w.arrays g.arr g.len x).1[0]? = _
      unfold appendPending
      dsimp only
      split
      · next hcap =>
        rw [List.getElem?_set]
        split
        · next h0' =>
          rw [h0', List.getD_eq_getElem?_getD, hw.nil] at hcap
          simp at hcap
        · exact hw.nil
      · rw [List.getElem?_append_left h0]
        exact hw.nil
    · rw [he]
      have h3 : (appendPending grow w.arrays g.arr g.len x).1.getD (appendPending grow w.arrays g.arr g.len x).2 default |>.slots.take (g.len + 1) |> (· = st.group.pendingProposals) := by
        show _ = _
        rw [a3, hp]
        rfl
      show (⟨st.heap, { st.group with pendingProposals :=
        ((appendPending grow w.arrays g.arr g.len x).1.getD (appendPending grow w.arrays g.arr g.len x).2 default).slots.take (g.len + 1) }⟩ : GroupState) = st
      rw [show ((appendPending grow w.arrays g.arr g.len x).1.getD (appendPending grow w.arrays g.arr g.len x).2 default).slots.take (g.len + 1) =
        st.group.pendingProposals from h3]
    · rcases a5 with h | h
      · exact .inl ⟨h, Nat.le_succ _⟩
      · exact .inr (.inr (by show _ ≤ (appendPending grow w.arrays g.arr g.len x).2; rw [h]))
    · obtain ⟨k1, k2⟩ := hw.slice k hk
      obtain ⟨b1, b2⟩ := a6 k.arr k.len k1 k2
      refine ⟨⟨by rw [he]; exact Nat.lt_of_lt_of_le k1 a2, by rw [he]; exact b1⟩, ?_⟩
      rw [he]
      rcases b2 with b2 | ⟨c1, c2, c3⟩
      · exact .inl b2
      · exact .inr ⟨c1, c2, x, hp, c3⟩

theorem GroupInv.shared {st : GroupState} (hi : GroupInv pr st) {h : Heap} {t : RTree} {l : List PendingProposal} (hk : HeapKept st.heap h)
    (hu : UnmergedBelow st.heap h t)
    (hp : ∀ x y p : Nat, st.group.tree[x]? = some (some (.parent p)) → t[y]? = some (some (.parent p)) → x = y) :
    GroupInv pr ⟨h, { st.group with pendingProposals := l }⟩ := by
  have hn : ∀ {x q}, nodeAt (derefTree h st.group.tree) x = some (.parent q) → ∃ q0, nodeAt st.vtree x = some (.parent q0) ∧
      q.encryptionKey = q0.encryptionKey ∧ ∀ u ∈ q.unmergedLeaves, u ∈ q0.unmergedLeaves ∨ Over (u.toNat % 2 ^ 31) x := by
    intro x q hq
    obtain ⟨p, hx, rfl⟩ := nodeAt_parent.1 hq
    have hlt := hi.tree.owned.lt hx
    refine ⟨_, nodeAt_parent.2 ⟨p, hx, rfl⟩, (hk.nodes p hlt).key, fun u hm => ?_⟩
    rcases hu p u hlt hm with hm | ⟨y, hy, ho⟩
    · exact .inl hm
    · rw [hp x y p hx hy]; exact .inr ho
  refine ⟨hi.tree.grown hk.length, hi.suite, hi.length, hi.own, fun x q hq u hm => ?_, hi.held, fun x q k hq hx => ?_⟩
  · obtain ⟨q0, h1, _, h3⟩ := hn hq
    rcases h3 u hm with hm | hm
    · exact hi.unmerged x q0 h1 u hm
    · exact hm
  · obtain ⟨q0, h1, h2, _⟩ := hn hq
    rw [h2]
    exact hi.keys x q0 k h1 hx

theorem write_inv {grow : Nat → Nat} {w : Copies} (hw : CopiesInv pr w) {i : Nat} {g : SharedGroup} (hi : w.groups[i]? = some g) {st : GroupState}
    (hp : PendEffect (w.read g).group.pendingProposals st.group.pendingProposals) (he : CallEffect (w.read g) st) (hs : GroupInv pr st) :
    CopiesInv pr (w.write grow i g st) := by
  have hg := List.mem_of_getElem? hi
  obtain ⟨w1, w2, w3, ⟨g', v1, v2, v3, v4, v5, _⟩, w5⟩ := write_spec (grow := grow) hw hi hp
  have hm : ∀ k ∈ (w.write grow i g st).groups, k = g' ∨ k ∈ w.groups := by
    intro k hk
    rw [v1] at hk
    rcases List.mem_or_eq_of_mem_set hk with h | h
    · exact .inr h
    · exact .inl h
  have hold : ∀ k ∈ w.groups, ∀ {x p : Nat}, k.group.tree[x]? = some (some (.parent p)) → p < w.heap.length :=
    fun k hk x p hx => (hw.inv k hk).tree.owned.lt hx
  have hfrom : ∀ x p : Nat, g'.group.tree[x]? = some (some (.parent p)) → g.group.tree[x]? = some (some (.parent p)) ∨ w.heap.length ≤ p := by
    intro x p hx
    rw [v3] at hx
    exact he.tree x p hx
  have cross : ∀ k ∈ w.groups, ∀ x y p : Nat, g'.group.tree[x]? = some (some (.parent p)) → k.group.tree[y]? = some (some (.parent p)) → x = y := by
    intro k hk x y p hx hy
    rcases hfrom x p hx with hx | hp
    · exact hw.place g hg k hk x y p hx hy
    · have := hold k hk hy
      omega
  refine ⟨w2, fun k hk => ?_, fun k hk => ?_, fun a ha b hb x y p hx hy => ?_⟩
  · rcases hm k hk with rfl | hk
    · exact ⟨v4, v5⟩
    · exact (w5 k hk).slice
  · rcases hm k hk with rfl | hk
    · rw [v2]; exact hs
    · unfold Copies.read
      rw [w1]
      exact (hw.inv k hk).shared he.kept he.below fun x y p hx hy => hw.place k hk g hg x y p hx hy
  · rcases hm a ha with rfl | ha
    · rcases hm b hb with rfl | hb
      · rw [v3] at hx hy
        exact hs.tree.owned.inj hx hy
      · exact cross b hb x y p hx hy
    · rcases hm b hb with rfl | hb
      · exact (cross a ha y x p hy hx).symm
      · exact hw.place a ha b hb x y p hx hy

end Mls
