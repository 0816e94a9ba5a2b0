import Verif.Proofs.TreeHeap
/-
Arrays of the right shape are exactly the arrays of complete trees.
-/
namespace Mls

open Spec (Ratchet ITree)

/-- The shape of a non-empty ratchet tree (RFC 9420 appendix C): its length is one less than a
power of two, leaves are at even positions and parents at odd ones, and each parent node is in the
heap and belongs to one position. The length is that of a Go slice indexed by uint32. -/
structure ValidTree (h : Heap) (t : RTree) : Prop where
  complete : ∃ d, d ≤ 31 ∧ t.length = 2 ^ (d + 1) - 1
  leaves : ∀ {x : Nat} {l : LeafNode}, t[x]? = some (some (.leaf l)) → x % 2 = 0
  parents : ∀ {x p : Nat}, t[x]? = some (some (.parent p)) → x % 2 = 1
  owned : Owned h t

theorem exists_flat (d : Nat) (t : RTree) (off : Nat) (hoff : off % 2 = 0) (hl : t.length = 2 ^ (d + 1) - 1)
    (h1 : ∀ {x : Nat} {l : LeafNode}, t[x]? = some (some (.leaf l)) → (off + x) % 2 = 0)
    (h2 : ∀ {x p : Nat}, t[x]? = some (some (.parent p)) → (off + x) % 2 = 1) :
    ∃ s : Ratchet Nat d, t = s.flat .leaf .parent := by
  induction d generalizing t off with
  | zero =>
    match t, hl with
    | [o], _ =>
      match o with
      | none => exact ⟨.leaf none, rfl⟩
      | some (.leaf l) => exact ⟨.leaf (some l), rfl⟩
      | some (.parent p) =>
        have := h2 (x := 0) (p := p) rfl
        omega
  | succ d ih =>
    have hp : 0 < 2 ^ d := Nat.two_pow_pos d
    have e1 : 2 ^ (d + 1) = 2 * 2 ^ d := by rw [Nat.pow_succ]; omega
    have e2 : 2 ^ (d + 1 + 1) = 4 * 2 ^ d := by rw [Nat.pow_succ, Nat.pow_succ]; omega
    obtain ⟨l, hl1⟩ := ih (t.take (2 ^ (d + 1) - 1)) off hoff (by rw [List.length_take]; omega)
      (fun {x l} hx => h1 (by
        rw [List.getElem?_take] at hx
        split at hx
        · exact hx
        · cases hx))
      (fun {x l} hx => h2 (by
        rw [List.getElem?_take] at hx
        split at hx
        · exact hx
        · cases hx))
    obtain ⟨r, hr1⟩ := ih (t.drop (2 ^ (d + 1))) (off + 2 ^ (d + 1)) (by omega) (by rw [List.length_drop]; omega)
      (fun {x l} hx => by
        rw [List.getElem?_drop] at hx
        have := h1 hx
        omega)
      (fun {x l} hx => by
        rw [List.getElem?_drop] at hx
        have := h2 hx
        omega)
    have hmid : 2 ^ (d + 1) - 1 < t.length := by omega
    have hsplit : t = t.take (2 ^ (d + 1) - 1) ++ t[2 ^ (d + 1) - 1] :: t.drop (2 ^ (d + 1)) := by
      conv => lhs; rw [← List.take_append_drop (2 ^ (d + 1) - 1) t]
      rw [List.drop_eq_getElem_cons hmid]
      congr 3
      omega
    have hget : t[2 ^ (d + 1) - 1]? = some t[2 ^ (d + 1) - 1] := List.getElem?_eq_getElem hmid
    generalize t[2 ^ (d + 1) - 1] = o at hsplit hget
    rw [hl1, hr1] at hsplit
    match o, hsplit, hget with
    | none, hsplit, _ => exact ⟨.node none l r, hsplit⟩
    | some (.parent p), hsplit, _ => exact ⟨.node (some p) l r, hsplit⟩
    | some (.leaf l), _, hget =>
      have := h1 hget
      omega

theorem ValidTree.holds {h : Heap} {t : RTree} (hv : ValidTree h t) :
    ∃ d, d ≤ 31 ∧ ∃ s : Ratchet ParentNode d, Holds h t s := by
  obtain ⟨d, hd, hl⟩ := hv.complete
  obtain ⟨s, hs⟩ := exists_flat d t 0 rfl hl (fun hx => by simpa using hv.leaves hx) (fun hx => by simpa using hv.parents hx)
  refine ⟨d, hd, s.map (h.getD · default), hv.owned, ?_⟩
  rw [hs, flat_map]

theorem idx_succ_odd (k j : Nat) : idx (k + 1) j % 2 = 1 := by
  unfold idx
  rw [Nat.pow_succ 2 (k + 1), Nat.pow_succ 2 k]
  have : 0 < 2 ^ k := Nat.two_pow_pos k
  rw [← Nat.mul_assoc]
  omega

theorem idx_zero (j : Nat) : idx 0 j = 2 * j := by unfold idx; omega

theorem Holds.valid {h : Heap} {t : RTree} {d : Nat} (hd : d ≤ 31) {s : Ratchet ParentNode d} (hh : Holds h t s) :
    ValidTree h t := by
  refine ⟨⟨d, hd, hh.length⟩, fun {x l} hx => ?_, fun {x p} hx => ?_, hh.owned⟩
  · obtain ⟨k, j, rfl⟩ := exists_idx x
    cases k with
    | zero => rw [idx_zero]; omega
    | succ k => exact absurd hx (hh.parent_pos k j l)
  · obtain ⟨k, j, rfl⟩ := exists_idx x
    cases k with
    | zero => exact absurd hx (hh.leaf_pos j p)
    | succ k => exact idx_succ_odd k j

theorem valid_iff {h : Heap} {t : RTree} :
    ValidTree h t ↔ ∃ d, d ≤ 31 ∧ ∃ s : Ratchet ParentNode d, Holds h t s :=
  ⟨ValidTree.holds, fun ⟨_, hd, _, hs⟩ => hs.valid hd⟩

/-! ### Structural facts -/

theorem shrink_depth {P : Type} {d : Nat} (s : Ratchet P d) {a : Ratchet.Any P} (h : s.shrink = some a) : a.1 ≤ d := by
  induction s with
  | leaf n =>
    cases n with
    | none => cases h
    | some n => cases h; exact Nat.le_refl _
  | node p l r ihl ihr =>
    simp only [Ratchet.shrink] at h
    split at h
    · cases h; exact Nat.le_refl _
    · exact Nat.le_succ_of_le (ihl h)

theorem findFree_hang {t : RTree} (hl : t.length = 2 ^ 32 - 1) (hfull : ∀ i, i < 2 ^ 31 → ∃ n, t[2 * i]? = some (some n)) :
    ∀ (fuel li : Nat), findFree t fuel li = .hang := by
  intro fuel
  induction fuel with
  | zero => intro li; rfl
  | succ fuel ih =>
    intro li
    unfold findFree
    have h1 : nodeOfLeaf li = 2 * (li % 2 ^ 31) := by unfold nodeOfLeaf; omega
    obtain ⟨n, hn⟩ := hfull (li % 2 ^ 31) (by omega)
    rw [← h1] at hn
    simp only
    rw [if_neg (by omega), Res.idx_ok_iff.2 hn]
    simp only [Res.ok_bind]
    exact ih _

/-- A full tree of the maximal size: the search for a free leaf goes round for ever. -/
theorem treeAdd_hang {h : Heap} {t : RTree} {s : Ratchet ParentNode 31} (hh : Holds h t s) (hf : s.firstBlank = none)
    (leaf : LeafNode) : treeAdd h t leaf = .hang := by
  rw [firstBlank_eq, List.findIdx?_eq_none_iff] at hf
  have := findFree_hang (t := t) hh.length (fun i hi => by
    obtain ⟨o, h1, h2⟩ := hh.leaf_get hi
    rw [idx_zero] at h2
    have := hf o (List.mem_iff_getElem?.2 ⟨i, h1⟩)
    cases o with
    | none => simp at this
    | some n => exact ⟨_, h2⟩) (t.length + 1) 0
  unfold treeAdd
  rw [this]
  rfl

theorem nodeOfLeaf_mod (li : Nat) : nodeOfLeaf li = nodeOfLeaf (li % 2 ^ 31) := by
  unfold nodeOfLeaf; omega

theorem treeUpdate_mod (t : RTree) (li : Nat) (leaf : LeafNode) :
    treeUpdate t li leaf = treeUpdate t (li % 2 ^ 31) leaf := by
  unfold treeUpdate; rw [nodeOfLeaf_mod]

theorem treeRemove_mod {N : Type} (t : List (Option N)) (li : Nat) : treeRemove t li = treeRemove t (li % 2 ^ 31) := by
  unfold treeRemove; rw [nodeOfLeaf_mod]

theorem Res.setIdx_of_ge {α : Type} {l : List α} {i : Nat} (a : α) (h : l.length ≤ i) : Res.setIdx l i a = .panic := by
  unfold Res.setIdx; rw [if_neg (by omega)]

theorem treeUpdate_panic {t : RTree} {d : Nat} (hl : t.length = 2 ^ (d + 1) - 1) {li : Nat} (h1 : 2 ^ d ≤ li)
    (h2 : li < 2 ^ 31) (leaf : LeafNode) : treeUpdate t li leaf = .panic := by
  unfold treeUpdate
  rw [nodeOfLeaf_idx h2, idx_zero, Res.setIdx_of_ge _ (by rw [Nat.pow_succ] at hl; omega)]
  rfl

theorem treeRemove_panic {N : Type} {t : List (Option N)} {d : Nat} (hl : t.length = 2 ^ (d + 1) - 1) {li : Nat}
    (h1 : 2 ^ d ≤ li) (h2 : li < 2 ^ 31) : treeRemove t li = .panic := by
  unfold treeRemove
  dsimp only
  rw [nodeOfLeaf_idx h2, idx_zero, blankPath, Res.setIdx_of_ge _ (by rw [Nat.pow_succ] at hl; omega)]
  rfl

theorem treeUpdate_nil (li : Nat) (leaf : LeafNode) : treeUpdate [] li leaf = .panic := rfl

theorem treeRemove_nil {N : Type} (li : Nat) : treeRemove ([] : List (Option N)) li = .panic := rfl

end Mls
