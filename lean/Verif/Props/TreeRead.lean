import Verif.Proofs.TreeRead
import Verif.Spec.ToyGroup
/-
C27, C28: resolutions and tree hashes.
-/
namespace Mls

open Spec (Ratchet ITree nodeAt)

/-! ### C27 -/

/-- A tree and a subtree of its numbering: the tree at that place. -/
theorem subtree_at {t : VTree} (ht : Spec.IsTree t) {d : Nat} (hd : t.length = 2 ^ (d + 1) - 1) {u : ITree}
    (hu : ITree.Sub u (ITree.perfect d 0)) :
    t.length < 2 ^ 32 ∧ ∃ k j, k ≤ 31 ∧ u = ITree.perfect k (j * 2 ^ (k + 1)) ∧ u.top = idx k j ∧
      ∃ s : Ratchet ParentNode k, VAt t j s := by
  obtain ⟨e, he, s, rfl⟩ := isTree_iff.1 ht
  have hlen := flat_length Node.leaf Node.parent s
  have hde : d = e := by
    rw [hlen] at hd
    have h1 : 0 < 2 ^ (d + 1) := Nat.two_pow_pos _
    have h2 : 0 < 2 ^ (e + 1) := Nat.two_pow_pos _
    have : 2 ^ (e + 1) = 2 ^ (d + 1) := by omega
    have := Nat.pow_right_injective (Nat.le_refl 2) this
    omega
  subst hde
  refine ⟨vflat_lt he s, ?_⟩
  have hu' : ITree.Sub u (ITree.perfect d (0 * 2 ^ (d + 1))) := by simpa using hu
  obtain ⟨k, j, hk, hj, rfl⟩ := sub_perfect hu'
  exact ⟨k, j, by omega, rfl, perfect_top k j, at_sub (at_flat _ _ s) ⟨hk, hj⟩⟩

theorem nodeAt_of {t : VTree} {x : Nat} {o : Option Node} (h : t[x]? = some o) : nodeAt t x = o := by
  unfold nodeAt
  rw [h]
  rfl

theorem bare_iff {t : VTree} {k j : Nat} {s : Ratchet ParentNode k} (h : VAt t j s) :
    s.Bare ↔ ∀ y, ITree.Mem y (ITree.perfect k (j * 2 ^ (k + 1))) → nodeAt t y = none := by
  induction s generalizing j with
  | leaf n =>
    have h' : t[idx 0 j]? = some (n.map Node.leaf) := h
    have hp : ITree.perfect 0 (j * 2 ^ (0 + 1)) = .leaf (idx 0 j) := by simp [ITree.perfect, idx]
    rw [hp, Ratchet.Bare]
    constructor
    · rintro rfl y hy
      cases hy
      exact nodeAt_of h'
    · intro hy
      have := hy _ (ITree.Mem.leaf _)
      rw [nodeAt_of h'] at this
      simpa using this
  | @node k p l r ihl ihr =>
    rw [perfect_succ, Ratchet.Bare, ihl h.2.1, ihr h.2.2]
    constructor
    · rintro ⟨rfl, hl, hr⟩ y hy
      cases hy with
      | here => exact nodeAt_of h.1
      | inl _ _ hy => exact hl y hy
      | inr _ _ hy => exact hr y hy
    · intro hy
      refine ⟨?_, fun y h => hy y (.inl _ _ h), fun y h => hy y (.inr _ _ h)⟩
      have := hy _ (ITree.Mem.here _ _ _)
      rw [nodeAt_of h.1] at this
      simpa using this

/-- **C27.** The resolution of a node is the one of RFC 9420 section 4.1.1, computed by recursion
on the tree: the node itself followed by its unmerged leaves when it is not blank, nothing for a
blank leaf, and otherwise the resolutions of the left and of the right child. `resolve` does not
fail at any node of the tree. -/
theorem C27_resolution {t : VTree} (hlen : t.length < 2 ^ 32) {k j : Nat} {s : Ratchet ParentNode k}
    (h : VAt t j s) (hk : k ≤ 31) : resolve t (idx k j) = .ok (s.resolution (j * 2 ^ (k + 1))) :=
  resolve_spec hlen h hk

/-- **C27.** The resolution is empty exactly when there is no node at or below the node. -/
theorem C27_empty {t : VTree} (ht : Spec.IsTree t) {d : Nat} (hd : t.length = 2 ^ (d + 1) - 1) {u : ITree}
    (hu : ITree.Sub u (ITree.perfect d 0)) :
    resolve t u.top = .ok [] ↔ ∀ y, ITree.Mem y u → nodeAt t y = none := by
  obtain ⟨hlen, k, j, hk, rfl, htop, s, hs⟩ := subtree_at ht hd hu
  rw [htop, resolve_spec hlen hs hk, Res.ok.injEq, resolution_nil, bare_iff hs]

theorem perfect_leaf (j : Nat) : ITree.perfect 0 (j * 2 ^ (0 + 1)) = .leaf (idx 0 j) := by
  simp [ITree.perfect, idx]

theorem leaf_of_mem {k j y : Nat} (h : y ∈ (ITree.perfect k (j * 2 ^ (k + 1))).leaves) :
    ∃ i, y = idx 0 i ∧ Below k j 0 i := by
  induction k generalizing j with
  | zero =>
    rw [perfect_leaf, ITree.leaves, List.mem_singleton] at h
    exact ⟨j, h, Below.refl _ _⟩
  | succ k ih =>
    rw [perfect_succ, ITree.leaves, List.mem_append] at h
    rcases h with h | h
    · obtain ⟨i, e, hb⟩ := ih h
      exact ⟨i, e, hb.left⟩
    · obtain ⟨i, e, hb⟩ := ih h
      exact ⟨i, e, hb.right⟩

theorem resolution_members {t : VTree} {k j : Nat} {s : Ratchet ParentNode k} (hs : VAt t j s)
    (hb : ∀ m y, Below k j (m + 1) y → nodeAt t (idx (m + 1) y) = none) :
    s.resolution (j * 2 ^ (k + 1)) =
      (ITree.perfect k (j * 2 ^ (k + 1))).leaves.filter fun y => (nodeAt t y).isSome := by
  induction s generalizing j with
  | leaf n =>
    have h' : t[idx 0 j]? = some (n.map Node.leaf) := hs
    rw [perfect_leaf, ITree.leaves]
    cases n with
    | none =>
      have : nodeAt t (idx 0 j) = none := nodeAt_of h'
      rw [List.filter_cons_of_neg (by simp [this])]
      rfl
    | some l =>
      have : nodeAt t (idx 0 j) = some (.leaf l) := nodeAt_of h'
      rw [List.filter_cons_of_pos (by simp [this])]
      simp [Ratchet.resolution, idx]
  | @node k p l r ihl ihr =>
    have hroot := hb k j (Below.refl _ _)
    rw [nodeAt_of hs.1] at hroot
    obtain rfl : p = none := by simpa using hroot
    rw [perfect_succ, ITree.leaves, List.filter_append, ← ihl hs.2.1 fun m y h => hb m y h.left,
      ← ihr hs.2.2 fun m y h => hb m y h.right, off_succ_left, off_succ_right]
    rfl

/-- **C27.** When all parents at and below a node are blank, its resolution is the list of the
members below it, from left to right. -/
theorem C27_members {t : VTree} (ht : Spec.IsTree t) {d : Nat} (hd : t.length = 2 ^ (d + 1) - 1) {u : ITree}
    (hu : ITree.Sub u (ITree.perfect d 0)) (hb : ∀ y, ITree.Mem y u → y ∉ u.leaves → nodeAt t y = none) :
    resolve t u.top = .ok (u.leaves.filter fun y => (nodeAt t y).isSome) := by
  obtain ⟨hlen, k, j, hk, rfl, htop, s, hs⟩ := subtree_at ht hd hu
  rw [htop, resolve_spec hlen hs hk, resolution_members hs]
  intro m y hy
  refine hb _ ((mem_perfect _ _ _).2 ⟨m + 1, y, hy.1, hy.2, rfl⟩) ?_
  intro h
  obtain ⟨i, e, _⟩ := leaf_of_mem h
  exact absurd (idx_inj e).1 (by omega)

/-- **C27.** If the unmerged leaves recorded in the tree are not blank, no resolution contains a
blank node. -/
theorem C27_nonblank {t : VTree} (ht : Spec.IsTree t) {d : Nat} (hd : t.length = 2 ^ (d + 1) - 1) {u : ITree}
    (hu : ITree.Sub u (ITree.perfect d 0))
    (hn : ∀ y p, nodeAt t y = some (.parent p) → ∀ li ∈ p.unmergedLeaves, nodeAt t (Spec.leafNumber li) ≠ none) :
    ∃ r, resolve t u.top = .ok r ∧ ∀ y ∈ r, nodeAt t y ≠ none := by
  obtain ⟨hlen, k, j, hk, rfl, htop, s, hs⟩ := subtree_at ht hd hu
  refine ⟨_, by rw [htop, resolve_spec hlen hs hk], ?_⟩
  clear htop hk hu hd
  induction s generalizing j with
  | leaf n =>
    have h' : t[idx 0 j]? = some (n.map Node.leaf) := hs
    cases n with
    | none => simp [Ratchet.resolution]
    | some l =>
      have : nodeAt t (idx 0 j) = some (.leaf l) := nodeAt_of h'
      simp only [Ratchet.resolution, List.mem_singleton]
      rintro y rfl
      rw [show j * 2 ^ (0 + 1) = idx 0 j by simp [idx], this]
      simp
  | @node k p l r ihl ihr =>
    have hroot : nodeAt t (idx (k + 1) j) = p.map .parent := nodeAt_of hs.1
    cases p with
    | none =>
      simp only [Ratchet.resolution, List.mem_append]
      rintro y (hy | hy)
      · rw [← off_succ_left] at hy
        exact ihl _ hs.2.1 y hy
      · rw [← off_succ_right] at hy
        exact ihr _ hs.2.2 y hy
    | some p =>
      simp only [Ratchet.resolution, List.mem_cons, List.mem_map]
      rintro y (rfl | ⟨li, hli, rfl⟩)
      · rw [← idx_off, hroot]; simp
      · exact hn _ p hroot li hli

/-- **C27.** Every member below a node is reached by its resolution: the resolution contains the
member's leaf, or a parent node above it. -/
theorem C27_cover {t : VTree} (ht : Spec.IsTree t) {d : Nat} (hd : t.length = 2 ^ (d + 1) - 1) {u : ITree}
    (hu : ITree.Sub u (ITree.perfect d 0)) {y : Nat} (hy : y ∈ u.leaves) (hm : nodeAt t y ≠ none) :
    ∃ r, resolve t u.top = .ok r ∧ ∃ v, ITree.Sub v u ∧ v.top ∈ r ∧ y ∈ v.leaves := by
  obtain ⟨hlen, k, j, hk, rfl, htop, s, hs⟩ := subtree_at ht hd hu
  refine ⟨_, by rw [htop, resolve_spec hlen hs hk], ?_⟩
  clear htop hk hu hd
  induction s generalizing j with
  | leaf n =>
    have h' : t[idx 0 j]? = some (n.map Node.leaf) := hs
    rw [perfect_leaf] at hy ⊢
    rw [ITree.leaves, List.mem_singleton] at hy
    subst hy
    cases n with
    | none => exact absurd (nodeAt_of h') hm
    | some l => exact ⟨_, .refl _, by simp [Ratchet.resolution, ITree.top, idx], by simp [ITree.leaves]⟩
  | @node k p l r ihl ihr =>
    rw [perfect_succ] at hy ⊢
    cases p with
    | some p => exact ⟨_, .refl _, by simp [Ratchet.resolution, ITree.top, idx_off], hy⟩
    | none =>
      rw [ITree.leaves, List.mem_append] at hy
      rcases hy with hy | hy
      · obtain ⟨v, h1, h2, h3⟩ := ihl _ hy hs.2.1
        rw [off_succ_left] at h2
        exact ⟨v, .inl _ _ h1, List.mem_append_left _ h2, h3⟩
      · obtain ⟨v, h1, h2, h3⟩ := ihr _ hy hs.2.2
        rw [off_succ_right] at h2
        exact ⟨v, .inr _ _ h1, List.mem_append_right _ h2, h3⟩

/-- A tree of four leaves with a parent node, an unmerged leaf and a blank leaf. -/
def toyVTree : VTree :=
  [some (.leaf (toyLeaf 1)), some (.parent { toyParent 1 with unmergedLeaves := [1] }), some (.leaf (toyLeaf 2)), none,
    some (.leaf (toyLeaf 3)), none, none]

theorem toyVTree_isTree : Spec.IsTree toyVTree :=
  isTree_iff.2 ⟨2, by decide, .node none
    (.node (some { toyParent 1 with unmergedLeaves := [1] }) (.leaf (some (toyLeaf 1))) (.leaf (some (toyLeaf 2))))
    (.node none (.leaf (some (toyLeaf 3))) (.leaf none)), rfl⟩

/-- The hypotheses hold of a tree with a parent node, an unmerged leaf and a blank leaf. -/
example : resolve toyVTree 3 = .ok [1, 2, 4] ∧ resolve toyVTree 6 = .ok [] ∧ resolve toyVTree 5 = .ok [4] := by
  decide +kernel

/-- The left half of the toy tree, its blank leaf, and a subtree with only blank parents. -/
example : ITree.Sub (ITree.perfect 1 0) (ITree.perfect 2 0) ∧ toyVTree.length = 2 ^ (2 + 1) - 1 ∧
    (∀ y p, nodeAt toyVTree y = some (.parent p) → ∀ li ∈ p.unmergedLeaves, nodeAt toyVTree (Spec.leafNumber li) ≠ none) ∧
    2 ∈ (ITree.perfect 1 0).leaves ∧ nodeAt toyVTree 2 ≠ none ∧ (∀ y, ITree.Mem y (ITree.perfect 1 4) → y ∉ (ITree.perfect 1 4).leaves → nodeAt toyVTree y = none) := by
  refine ⟨.inl _ _ (.refl _), rfl, ?_, by decide, by decide +kernel, ?_⟩
  · intro y p hy li hli
    match y, hy with
    | 1, hy =>
      cases hy
      simp only [List.mem_singleton] at hli
      subst hli
      decide +kernel
    | 0, hy | 2, hy | 3, hy | 4, hy | 5, hy | 6, hy | _ + 7, hy => cases hy
  · intro y hy hl
    cases hy with
    | here => decide +kernel
    | inl _ _ h => cases h; exact absurd (by decide) hl
    | inr _ _ h => cases h; exact absurd (by decide) hl

/-! ### C28 -/

/-- **C28.** The root tree hash is the one of RFC 9420 section 7.8, for every complete tree. -/
theorem C28_tree_hash {pr : Prims} (hc : pr.Correct) {cs : UInt16} {d : SuiteDesc} (hd : suite cs = .ok d)
    {k : Nat} (hk : k ≤ 31) (s : Ratchet ParentNode k) (x : Bytes) :
    computeRootTreeHash pr cs (s.flat .leaf .parent) = .ok x ↔ s.treeHash (pr.hash d.hash) 0 = some x :=
  computeRootTreeHash_iff hc hd hk s x

/-- **C28.** Two complete trees with the same root tree hash are equal, or two of the inputs of the
hash function in the two computations collide. The sizes need not be the same. -/
theorem C28_binding {pr : Prims} (hc : pr.Correct) {cs : UInt16} {d : SuiteDesc} (hd : suite cs = .ok d)
    {k k' : Nat} (hk : k ≤ 31) (hk' : k' ≤ 31) (s : Ratchet ParentNode k) (s' : Ratchet ParentNode k') {x : Bytes}
    (h : computeRootTreeHash pr cs (s.flat .leaf .parent) = .ok x)
    (h' : computeRootTreeHash pr cs (s'.flat .leaf .parent) = .ok x) :
    s.flat Node.leaf Node.parent = s'.flat Node.leaf Node.parent ∨
      ∃ a ∈ s.hashed (pr.hash d.hash) 0, ∃ b ∈ s'.hashed (pr.hash d.hash) 0,
        a ≠ b ∧ pr.hash d.hash a = pr.hash d.hash b := by
  rcases treeHash_binding (hc.hash_length d.hash) (hash_size_lt _) s s' 0 0
    ((computeRootTreeHash_iff hc hd hk s x).1 h) ((computeRootTreeHash_iff hc hd hk' s' x).1 h') with e | e
  · cases e
    exact .inl rfl
  · exact .inr e

/-- **C28** for arrays: trees of the right shape with the same tree hash are equal or exhibit a
collision among the inputs hashed. -/
theorem C28_arrays {pr : Prims} (hc : pr.Correct) {cs : UInt16} {d : SuiteDesc} (hd : suite cs = .ok d)
    {t t' : VTree} (ht : Spec.IsTree t) (ht' : Spec.IsTree t') {x : Bytes}
    (h : computeRootTreeHash pr cs t = .ok x) (h' : computeRootTreeHash pr cs t' = .ok x) :
    t = t' ∨ ∃ k k', ∃ s : Ratchet ParentNode k, ∃ s' : Ratchet ParentNode k',
      t = s.flat .leaf .parent ∧ t' = s'.flat .leaf .parent ∧
      ∃ a ∈ s.hashed (pr.hash d.hash) 0, ∃ b ∈ s'.hashed (pr.hash d.hash) 0,
        a ≠ b ∧ pr.hash d.hash a = pr.hash d.hash b := by
  obtain ⟨k, hk, s, rfl⟩ := isTree_iff.1 ht
  obtain ⟨k', hk', s', rfl⟩ := isTree_iff.1 ht'
  rcases C28_binding hc hd hk hk' s s' h h' with e | e
  · exact .inl e
  · exact .inr ⟨k, k', s, s', rfl, rfl, e⟩

/-- The hypotheses hold of the toy tree. -/
example : ∃ x, computeRootTreeHash toyPrims 1 toyVTree = .ok x ∧ x.length = 32 := ⟨_, rfl, by decide +kernel⟩

end Mls
