import Verif.Proofs.TreeMath
/-
C15 - C19: the index arithmetic of tree_math.go against the in-order perfect binary tree of
Verif/Spec/Tree.lean. A complete tree with `2^d` leaves has indices below `2^(d+1) - 1`, which
fits in 32 bits when `d ≤ 31`.
-/
namespace Mls
open Spec

/-! ### C15 -/

/-- C15: leaf and node indices, numbers of leaves and array widths convert back and forth, and
the root of a complete tree is where the in-order numbering puts it. -/
theorem C15_leaf_node (li : Nat) (h : li < 2 ^ 31) : leafOfNode (nodeOfLeaf li) = some li := by
  have h2 : 2 * li % 2 ^ 32 = 2 * li := Nat.mod_eq_of_lt (by omega)
  unfold nodeOfLeaf leafOfNode isLeaf
  rw [h2]
  simp

theorem C15_node_leaf (x li : Nat) (hx : x < 2 ^ 32) (h : leafOfNode x = some li) :
    nodeOfLeaf li = x ∧ li < 2 ^ 31 := by
  unfold leafOfNode isLeaf at h
  split at h
  · next he =>
    cases h
    have he : x % 2 = 0 := by simpa using he
    unfold nodeOfLeaf
    rw [Nat.mod_eq_of_lt (by omega)]
    omega
  · cases h

/-- Every index of 2^31 or more shares its node with a smaller one. -/
theorem C15_leaf_alias (li : Nat) (h1 : 2 ^ 31 ≤ li) (h2 : li < 2 ^ 32) :
    nodeOfLeaf li = nodeOfLeaf (li - 2 ^ 31) := by
  unfold nodeOfLeaf; omega

theorem C15_width (n : Nat) (h : n ≤ 2 ^ 31) : numLeavesFromWidth (width n) = n := by
  unfold numLeavesFromWidth width
  by_cases h0 : n = 0
  · simp [h0]
  · rw [if_neg h0, Nat.mod_eq_of_lt (by omega), if_neg (by omega)]
    omega

theorem C15_width_inv (w : Nat) (hw : w < 2 ^ 32) (hodd : w = 0 ∨ w % 2 = 1) :
    width (numLeavesFromWidth w) = w := by
  unfold numLeavesFromWidth width
  by_cases h0 : w = 0
  · simp [h0]
  · rw [if_neg h0, if_neg (by omega), Nat.mod_eq_of_lt (by omega)]
    omega

/-- Leaf 3 of a tree of five leaves, and an index that is no leaf of any tree. -/
example : leafOfNode (nodeOfLeaf 3) = some 3 ∧ nodeOfLeaf 2147483651 = nodeOfLeaf 3 ∧ width 5 = 9 ∧ numLeavesFromWidth 9 = 5 := by
  decide

/-- The array of a tree with 2^d leaves has exactly the numbers of the in-order tree, its even
positions being the leaves, and the root is the top of that tree. -/
theorem C15_root (d : Nat) (hd : d ≤ 31) :
    root (2 ^ d) = (ITree.perfect d 0).top ∧ root (2 ^ d) = 2 ^ d - 1 ∧
    (ITree.perfect d 0).inorder = List.range (width (2 ^ d)) ∧
    (ITree.perfect d 0).leaves = (List.range (2 ^ d)).map nodeOfLeaf := by
  have ht := perfect_top d 0
  have hi := inorder_perfect d 0
  have hl := leaves_perfect d 0
  rw [Nat.zero_mul] at ht hi hl
  refine ⟨?_, root_pow hd, ?_, ?_⟩
  · rw [ht, root_idx hd]
  · rw [hi, width_pow hd, List.range_eq_range']
  · rw [hl, Nat.zero_mul, ← List.range_eq_range']
    apply List.map_congr_left
    intro li hli
    rw [List.mem_range] at hli
    have : 2 ^ d ≤ 2 ^ 31 := Nat.pow_le_pow_right (by decide) hd
    unfold nodeOfLeaf
    rw [Nat.mod_eq_of_lt (by omega)]

example : root (2 ^ 3) = 7 ∧ (ITree.perfect 3 0).leaves = [0, 2, 4, 6, 8, 10, 12, 14] := by decide

/-! ### C16 -/

private theorem perfect0 (d : Nat) : ITree.perfect d 0 = ITree.perfect d (0 * 2 ^ (d + 1)) := by
  rw [Nat.zero_mul]

/-- C16: on an edge of the tree all functions agree with the drawing. -/
theorem C16_edge (d : Nat) (hd : d ≤ 31) (p a b : Nat) (h : ITree.Edge (ITree.perfect d 0) p a b) :
    left p = some a ∧ right p = some b ∧ children p = some (a, b) ∧
    parent (2 ^ d) a = some p ∧ parent (2 ^ d) b = some p ∧
    sibling (2 ^ d) a = some b ∧ sibling (2 ^ d) b = some a ∧ a < p ∧ p < b := by
  rw [perfect0] at h
  obtain ⟨k, j, hk, hj, rfl, rfl, rfl⟩ := edge_perfect h
  have hlt := idx_lt_of_pos hd (k := k + 1) (by omega) hj
  have hL := left_idx (k := k) (i := j) (by omega)
  have hR := right_idx (k := k) (i := j) (by omega)
  have ja : 2 * j / 2 ^ (d - k) = 0 := by
    rw [show d - k = (d - (k + 1)) + 1 from by omega, div_half, show 2 * j / 2 = j from by omega]
    exact hj
  have jb : (2 * j + 1) / 2 ^ (d - k) = 0 := by
    rw [show d - k = (d - (k + 1)) + 1 from by omega, div_half, show (2 * j + 1) / 2 = j from by omega]
    exact hj
  refine ⟨hL, hR, ?_, ?_, ?_, ?_, ?_, idx_left_lt k j, idx_right_gt k j⟩
  · unfold children; rw [hL, hR]; rfl
  · rw [parent_idx hd hk ja, show 2 * j / 2 = j from by omega]
  · rw [parent_idx hd hk jb, show (2 * j + 1) / 2 = j from by omega]
  · rw [sibling_idx hd hk ja, if_pos (by omega)]
  · rw [sibling_idx hd hk jb, if_neg (by omega)]
    rfl

/-- Every node but the root hangs on an edge. -/
theorem C16_has_parent (d : Nat) (x : Nat) (hx : ITree.Mem x (ITree.perfect d 0))
    (hr : x ≠ (ITree.perfect d 0).top) :
    ∃ p b, ITree.Edge (ITree.perfect d 0) p x b ∨ ITree.Edge (ITree.perfect d 0) p b x := by
  rw [perfect0] at hx hr ⊢
  rw [perfect_top] at hr
  obtain ⟨k, j, hk, hj, rfl⟩ := (mem_perfect _ _ _).1 hx
  by_cases hkd : k = d
  · subst hkd
    simp only [Nat.sub_self, Nat.pow_zero, Nat.div_one] at hj
    subst hj
    exact absurd rfl hr
  · rw [show d - k = (d - (k + 1)) + 1 from by omega, div_half] at hj
    have he := edge_perfect_of (k := k) (by omega) hj
    by_cases h2 : j % 2 = 0
    · rw [show 2 * (j / 2) = j from by omega] at he
      exact ⟨_, _, .inl he⟩
    · rw [show 2 * (j / 2) + 1 = j from by omega] at he
      exact ⟨_, _, .inr he⟩

/-- Only the root has no parent. -/
theorem C16_root (d : Nat) (hd : d ≤ 31) (x : Nat) : parent (2 ^ d) x = none ↔ x = (ITree.perfect d 0).top := by
  rw [perfect0, perfect_top, ← root_idx hd]
  unfold parent
  split <;> simp [*]

/-- Exactly the leaves have no children. -/
theorem C16_leaf (d : Nat) (hd : d ≤ 31) (x : Nat) (hx : ITree.Mem x (ITree.perfect d 0)) :
    (children x = none ↔ x ∈ (ITree.perfect d 0).leaves) ∧
    (isLeaf x = true ↔ x ∈ (ITree.perfect d 0).leaves) ∧
    (∀ a b, children x = some (a, b) ↔ ITree.Edge (ITree.perfect d 0) x a b) := by
  have hx' := hx
  rw [perfect0, mem_perfect_range] at hx'
  have hlv : x ∈ (ITree.perfect d 0).leaves ↔ x % 2 = 0 := by
    rw [perfect0, leaves_perfect]
    simp only [List.mem_map, List.mem_range'_1]
    have hp : 2 ^ (d + 1) = 2 * 2 ^ d := by rw [Nat.pow_succ, Nat.mul_comm]
    constructor
    · rintro ⟨a, _, rfl⟩; omega
    · intro h
      refine ⟨x / 2, by omega, by omega⟩
  rw [perfect0] at hx
  obtain ⟨k, j, hk, hj, rfl⟩ := (mem_perfect _ _ _).1 hx
  rw [hlv]
  cases k with
  | zero =>
    have he : idx 0 j % 2 = 0 := by unfold idx; omega
    have hc : children (idx 0 j) = none := by
      unfold children left
      simp [level_idx 0 j (by omega)]
    refine ⟨by simp [hc, he], by simp [isLeaf], ?_⟩
    intro a b
    rw [hc]
    constructor
    · intro h; cases h
    · intro h
      have := (C16_edge d hd _ _ _ h).2.2.1
      rw [hc] at this
      cases this
  | succ k =>
    have he : idx (k + 1) j % 2 = 1 := by
      have hp : 2 ^ (k + 1) = 2 * 2 ^ k := by rw [Nat.pow_succ, Nat.mul_comm]
      have hp2 : j * 2 ^ (k + 1 + 1) = 2 * (j * 2 ^ (k + 1)) := by rw [Nat.pow_succ]; ring
      have := Nat.two_pow_pos k
      unfold idx
      omega
    have hedge : ITree.Edge (ITree.perfect d 0) (idx (k + 1) j) (idx k (2 * j)) (idx k (2 * j + 1)) := by
      rw [perfect0]
      exact edge_perfect_of (by omega) hj
    have hc := (C16_edge d hd _ _ _ hedge).2.2.1
    refine ⟨by simp [hc, he], by simp [isLeaf], ?_⟩
    intro a b
    constructor
    · intro h
      rw [hc] at h
      cases h
      exact hedge
    · intro h
      exact (C16_edge d hd _ _ _ h).2.2.1

example : ITree.Mem 11 (ITree.perfect 3 0) ∧ 11 ≠ (ITree.perfect 3 0).top ∧ parent 8 11 = some 7 ∧ parent 8 7 = none ∧
    children 10 = none := by
  refine ⟨.inr _ _ (.here _ _ _), by decide, by decide, by decide, by decide⟩

example : ITree.Edge (ITree.perfect 3 0) 11 9 13 ∧ children 11 = some (9, 13) ∧ sibling 8 9 = some 13 := by
  refine ⟨?_, by decide, by decide⟩
  exact .inr _ _ (.here _ _ _)

/-! ### C17 -/

/-- C17: the direct path of a node is the list of its proper ancestors, bottom up. -/
theorem C17_direct_path (d : Nat) (hd : d ≤ 31) (x : Nat) (hx : ITree.Mem x (ITree.perfect d 0)) :
    ∃ ps, (ITree.perfect d 0).ancestors x = some ps ∧ directPath (2 ^ d) x = .ok ps ∧
      (x ≠ (ITree.perfect d 0).top → ps.getLast? = some (root (2 ^ d))) ∧ ps.length + level x = d := by
  rw [perfect0] at hx ⊢
  obtain ⟨k, j, hk, hj, rfl⟩ := (mem_perfect _ _ _).1 hx
  refine ⟨_, ancestors_perfect hk hj, directPath_idx hd hk hj, ?_, ?_⟩
  · intro hr
    rw [perfect_top] at hr
    by_cases hkd : k = d
    · subst hkd
      simp only [Nat.sub_self, Nat.pow_zero, Nat.div_one] at hj
      subst hj
      exact absurd rfl hr
    · rw [show d - k = (d - (k + 1)) + 1 from by omega, upPath_snoc, List.getLast?_concat, root_idx hd]
      rw [show d - k = (d - (k + 1)) + 1 from by omega] at hj
      rw [hj]
      congr 2
      omega
  · rw [upPath_length, level_idx k j (by omega)]
    omega

/-- C17, outside the tree: however many iterations are granted, the loop is still running. -/
theorem C17_outside_never_ends (d : Nat) (hd : d ≤ 31) (x : Nat) (hx : x < 2 ^ 32)
    (hout : ¬ ITree.Mem x (ITree.perfect d 0)) (steps : Nat) :
    directPathLoop (2 ^ d) steps x = .hang := by
  apply directPath_hang hd hx
  rw [perfect0, mem_perfect_range] at hout
  omega

example : ∀ steps, directPathLoop (2 ^ 3) steps 15 = .hang :=
  C17_outside_never_ends 3 (by decide) 15 (by decide) (by rw [perfect0, mem_perfect_range]; omega)

example : directPath 8 4 = .ok [5, 3, 7] := by decide
example : ¬ ITree.Mem 15 (ITree.perfect 3 0) := by
  rw [perfect0, mem_perfect_range]
  omega

/-! ### C18 -/

/-- C18: the copath of a node names the sibling subtrees along its direct path, and for a leaf
those subtrees hold every other leaf exactly once: together with the leaf itself they are a
rearrangement of the (pairwise distinct) leaves of the tree. -/
theorem C18_copath_partition (d : Nat) (hd : d ≤ 31) (x : Nat) (hx : x ∈ (ITree.perfect d 0).leaves) :
    ∃ ts : List ITree, copath (2 ^ d) x = .ok (ts.map ITree.top) ∧
      (∀ t ∈ ts, ITree.Sub t (ITree.perfect d 0)) ∧
      (x :: ts.flatMap ITree.leaves).Perm (ITree.perfect d 0).leaves ∧
      (x :: ts.flatMap ITree.leaves).Nodup := by
  have hnd : (ITree.perfect d 0).leaves.Nodup := by
    rw [perfect0, leaves_perfect]
    rw [List.Nodup, List.pairwise_map]
    exact List.Pairwise.imp (fun h h2 => h (by omega)) List.nodup_range'
  have hx' := hx
  rw [perfect0, leaves_perfect] at hx'
  simp only [List.mem_map, List.mem_range'_1] at hx'
  obtain ⟨i, hi, rfl⟩ := hx'
  have e : 2 * i = idx 0 i := by unfold idx; simp [Nat.mul_comm]
  have hj : i / 2 ^ (d - 0) = 0 := Nat.div_eq_of_lt (by rw [Nat.sub_zero]; omega)
  have hs := siblingTrees_perfect (d := d) (k := 0) (by omega) hj
  obtain ⟨s, hsub, htop, hperm⟩ := siblingTrees_perm hs
  obtain ⟨k, j, hk, _, rfl⟩ := sub_perfect hsub
  rw [perfect_top] at htop
  obtain ⟨rfl, rfl⟩ := idx_inj htop
  have hl : (ITree.perfect 0 (j * 2 ^ (0 + 1))).leaves = [2 * j] := by
    rw [leaves_perfect]; simp
  rw [hl, List.singleton_append, Nat.zero_mul] at hperm
  refine ⟨upSib (d - 0) 0 j, ?_, ?_, hperm, hperm.nodup_iff.2 hnd⟩
  · rw [e]
    exact copath_idx hd (by omega) hj
  · intro t ht
    clear hperm hsub htop hs hnd hl e hx
    have gen : ∀ m k j, k + m = d → j / 2 ^ m = 0 → t ∈ upSib m k j →
        ITree.Sub t (ITree.perfect d (0 * 2 ^ (d + 1))) := by
      intro m
      induction m with
      | zero => intro k j _ _ h; cases h
      | succ m ih =>
        intro k j hkm hj0 h
        rw [div_half] at hj0
        simp only [upSib, List.mem_cons] at h
        rcases h with rfl | h
        · apply sub_perfect_of (by omega)
          rw [show d - k = m + 1 from by omega, div_half]
          unfold sibPos
          split
          · rw [show (j + 1) / 2 = j / 2 from by omega]; exact hj0
          · rw [show (j - 1) / 2 = j / 2 from by omega]; exact hj0
        · exact ih (k + 1) (j / 2) (by omega) hj0 h
    rw [perfect0]
    exact gen (d - 0) 0 j (by omega) hj ht

example : copath 8 4 = .ok [6, 1, 11] ∧ 4 ∈ (ITree.perfect 3 0).leaves := by decide

/-! ### C19 -/

/-- C19: the common ancestor of two nodes is the top of a subtree that holds both and that is
contained in every subtree holding both. -/
theorem C19_common_ancestor (d : Nat) (hd : d ≤ 31) (x y : Nat) (hx : ITree.Mem x (ITree.perfect d 0))
    (hy : ITree.Mem y (ITree.perfect d 0)) :
    ∃ s, ITree.Sub s (ITree.perfect d 0) ∧ s.top = commonAncestor x y ∧ ITree.Mem x s ∧ ITree.Mem y s ∧
      ∀ s', ITree.Sub s' (ITree.perfect d 0) → ITree.Mem x s' → ITree.Mem y s' → ITree.Sub s s' := by
  rw [perfect0] at hx hy ⊢
  obtain ⟨k, i, hk, hi, rfl⟩ := (mem_perfect _ _ _).1 hx
  obtain ⟨m, j, hm, hj, rfl⟩ := (mem_perfect _ _ _).1 hy
  have hx0 : idx k i / 2 ^ (d + 1) = 0 := by rw [idx_div k i d hk, hi]
  have hy0 : idx m j / 2 ^ (d + 1) = 0 := by rw [idx_div m j d hm, hj]
  obtain ⟨L, hkL, hmL, heq, hmin, hca⟩ := commonAncestor_idx (idx_lt_of_pos hd hk hi) (idx_lt_of_pos hd hm hj)
  have hLd : L ≤ d := hmin d hk hm (by rw [hx0, hy0])
  refine ⟨ITree.perfect L (idx k i / 2 ^ (L + 1) * 2 ^ (L + 1)), ?_, ?_, ?_, ?_, ?_⟩
  · apply sub_perfect_of hLd
    rw [Nat.div_div_eq_div_mul, ← Nat.pow_add, show L + 1 + (d - L) = d + 1 from by omega]
    exact hx0
  · rw [perfect_top, hca]
  · rw [mem_perfect]
    exact ⟨k, i, hkL, (idx_div k i L hkL).symm, rfl⟩
  · rw [mem_perfect]
    exact ⟨m, j, hmL, by rw [heq, idx_div m j L hmL], rfl⟩
  · intro s' hs' hxs hys
    obtain ⟨L', q, hL', _, rfl⟩ := sub_perfect hs'
    obtain ⟨k', i', hk', hi', e1⟩ := (mem_perfect _ _ _).1 hxs
    obtain ⟨m', j', hm', hj', e2⟩ := (mem_perfect _ _ _).1 hys
    obtain ⟨rfl, rfl⟩ := idx_inj e1
    obtain ⟨rfl, rfl⟩ := idx_inj e2
    have hqx : idx k i / 2 ^ (L' + 1) = q := by rw [idx_div k i L' hk', hi']
    have hqy : idx m j / 2 ^ (L' + 1) = q := by rw [idx_div m j L' hm', hj']
    have hle := hmin L' hk' hm' (by rw [hqx, hqy])
    apply sub_perfect_of hle
    rw [Nat.div_div_eq_div_mul, ← Nat.pow_add, show L + 1 + (L' - L) = L' + 1 from by omega]
    exact hqx

example : commonAncestor 4 12 = 7 ∧ commonAncestor 8 14 = 11 ∧ commonAncestor 9 8 = 9 := by decide

end Mls
