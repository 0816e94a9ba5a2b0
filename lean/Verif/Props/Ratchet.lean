import Verif.Proofs.TreeApply
import Verif.Spec.ToyGroup
/-
C20-C25: the operations on ratchet trees.
-/
namespace Mls

open Spec (Ratchet ITree IsAncestor nodeAt)
open Spec.Ratchet (updatesOf removesOf addsOf applyAll)

/-! ### The specification's tree as an array -/

/-- A tree, or the empty array, of the right shape. -/
def ValidOrEmpty (h : Heap) (t : RTree) : Prop := t = [] ∨ ValidTree h t

theorem validOrEmpty_iff {h : Heap} {t : RTree} : ValidOrEmpty h t ↔ ∃ s, Small s ∧ HoldsOpt h t s := by
  constructor
  · rintro (rfl | hv)
    · exact ⟨none, trivial, rfl⟩
    · obtain ⟨d, hd, s, hs⟩ := hv.holds
      exact ⟨some ⟨d, s⟩, hd, hs⟩
  · rintro ⟨s, h1, h2⟩
    match s, h1, h2 with
    | none, _, h2 => exact .inl h2
    | some ⟨d, s⟩, h1, h2 => exact .inr (Holds.valid (s := s) h1 h2)

/-! ### C20 -/

/-- One operation on a tree. -/
inductive TreeOp where
  | add (leaf : LeafNode)
  | update (li : Nat) (leaf : LeafNode)
  | remove (li : Nat)

/-- Running an operation. -/
def TreeOp.run (ht : Heap × RTree) : TreeOp → Res (Heap × RTree)
  | .add leaf => treeAdd ht.1 ht.2 leaf
  | .update li leaf => (treeUpdate ht.2 li leaf).bind fun t => .ok (ht.1, t)
  | .remove li => (treeRemove ht.2 li).bind fun t => .ok (ht.1, t)

/-- **C20.** Whatever sequence of adds, updates and removes runs to its end on a tree of the right
shape (or on the empty one) ends with a tree of the right shape: its length is one less than a
power of two, leaves are at even positions and parents at odd ones, and no parent node is shared
between positions. No assumption on the indices or on the number of operations. -/
theorem C20_shape {h : Heap} {t : RTree} (hv : ValidOrEmpty h t) (ops : List TreeOp) {h' : Heap} {t' : RTree}
    (hr : ops.foldlM TreeOp.run (h, t) = .ok (h', t')) : ValidOrEmpty h' t' := by
  induction ops generalizing h t with
  | nil => cases hr; exact hv
  | cons op ops ih =>
    simp only [List.foldlM_cons, Res.bind_ok_iff] at hr
    obtain ⟨⟨h1, t1⟩, he, hr⟩ := hr
    refine ih ?_ hr
    obtain ⟨s, hs, hh⟩ := validOrEmpty_iff.1 hv
    cases op with
    | add leaf =>
      rcases treeAdd_opt hs hh leaf with ⟨h2, t2, e1, e2, e3⟩ | ⟨e1, _⟩
      · rw [show TreeOp.run (h, t) (.add leaf) = treeAdd h t leaf from rfl, e1] at he
        cases he
        exact validOrEmpty_iff.2 ⟨some _, e2, e3⟩
      · rw [show TreeOp.run (h, t) (.add leaf) = treeAdd h t leaf from rfl, e1] at he
        cases he
    | update li leaf =>
      simp only [TreeOp.run, treeUpdate_mod t li] at he
      rcases treeUpdate_opt hs hh (Nat.mod_lt li (by decide : 0 < 2 ^ 31)) leaf with ⟨t2, s2, e1, e2, e3, e4⟩ | ⟨e1, _⟩
      · rw [e1] at he
        cases he
        exact validOrEmpty_iff.2 ⟨_, e3, e4⟩
      · rw [e1] at he
        cases he
    | remove li =>
      simp only [TreeOp.run, treeRemove_mod t li] at he
      rcases treeRemove_opt hs hh (Nat.mod_lt li (by decide : 0 < 2 ^ 31)) with ⟨t2, s2, e1, e2, e3, e4⟩ | ⟨e1, _⟩
      · rw [e1] at he
        cases he
        exact validOrEmpty_iff.2 ⟨_, e3, e4⟩
      · rw [e1] at he
        cases he

/-- The arrays of the right shape are exactly the arrays of the specification's trees. -/
theorem C20_trees {h : Heap} {t : RTree} :
    ValidTree h t ↔ ∃ d, d ≤ 31 ∧ ∃ s : Ratchet ParentNode d, Owned h t ∧ derefTree h t = s.flat .leaf .parent := by
  rw [valid_iff]
  constructor
  · rintro ⟨d, hd, s, hs⟩; exact ⟨d, hd, s, hs.owned, hs.flat⟩
  · rintro ⟨d, hd, s, h1, h2⟩; exact ⟨d, hd, s, h1, h2⟩

/-- A tree with three members and two parent nodes, and a full one of 2^31 members, for the concrete cases. -/
def exTree : Heap × RTree :=
  ([⟨[7], [], []⟩, ⟨[8], [], [1]⟩], [some (.leaf (toyLeaf 1)), some (.parent 1), some (.leaf (toyLeaf 2)), some (.parent 0),
    some (.leaf (toyLeaf 3)), none, none])

/-- Every leaf has a member, every parent is blank. -/
def exFullTree : RTree := (List.range (2 ^ 32 - 1)).map fun x => if x % 2 = 0 then some (.leaf (toyLeaf 1)) else none

theorem exTree_valid : ValidTree exTree.1 exTree.2 := by
  have hp : ∀ {x p : Nat}, exTree.2[x]? = some (some (.parent p)) → x = 1 ∧ p = 1 ∨ x = 3 ∧ p = 0 := by
    intro x p h
    match x, h with
    | 1, h => simp [exTree] at h; omega
    | 3, h => simp [exTree] at h; omega
    | 0, h | 2, h | 4, h | 5, h | 6, h => simp [exTree] at h
    | x + 7, h => simp [exTree] at h
  refine ⟨⟨2, by decide, rfl⟩, fun {x l} h => ?_, fun {x p} h => ?_, fun {x p} h => ?_, fun {x y p} h h' => ?_⟩
  · match x, h with
    | 0, _ | 2, _ | 4, _ | 6, _ => rfl
    | 1, h | 3, h | 5, h => simp [exTree] at h
    | x + 7, h => simp [exTree] at h
  · rcases hp h with ⟨rfl, _⟩ | ⟨rfl, _⟩ <;> rfl
  · rcases hp h with ⟨_, rfl⟩ | ⟨_, rfl⟩ <;> decide
  · have := hp h
    have := hp h'
    omega

theorem exFullTree_get (x : Nat) : exFullTree[x]? =
    if x < 2 ^ 32 - 1 then some (if x % 2 = 0 then some (.leaf (toyLeaf 1)) else none) else none := by
  unfold exFullTree
  rw [List.getElem?_map]
  split
  · next h => rw [List.getElem?_range h]; rfl
  · next h => rw [List.getElem?_eq_none (by rw [List.length_range]; omega)]; rfl

theorem exFullTree_valid : ValidTree [] exFullTree := by
  have hp : ∀ {x p : Nat}, exFullTree[x]? ≠ some (some (.parent p)) := by
    intro x p h
    rw [exFullTree_get] at h
    split at h
    · split at h <;> simp at h
    · cases h
  refine ⟨⟨31, by decide, ?_⟩, fun {x l} h => ?_, fun h => absurd h hp, fun h => absurd h hp, fun h => absurd h hp⟩
  · unfold exFullTree
    rw [List.length_map, List.length_range]
  · rw [exFullTree_get] at h
    split at h
    · split at h
      · assumption
      · simp at h
    · cases h

/-- Five adds, an update and two removes on the empty tree: the tree grows to eight leaves and
shrinks to four. -/
example : ((([.add (toyLeaf 1), .add (toyLeaf 2), .add (toyLeaf 3), .add (toyLeaf 4), .add (toyLeaf 5)] : List TreeOp).foldlM
      TreeOp.run ([], [])).bind fun r => .ok r.2.length) = .ok 15 ∧
    ((([.add (toyLeaf 1), .add (toyLeaf 2), .add (toyLeaf 3), .add (toyLeaf 4), .add (toyLeaf 5), .update 1 (toyLeaf 6),
      .remove 4, .remove 2] : List TreeOp).foldlM TreeOp.run ([], [])).bind fun r => .ok r.2.length) = .ok 7 := by
  decide +kernel

/-! ### C21 and C24 -/

/-- What one node looks like after leaf `i` was recorded on it. -/
def withUnmerged (i : Nat) : Node → Node
  | .leaf l => .leaf l
  | .parent p => .parent { p with unmergedLeaves := p.unmergedLeaves ++ [UInt32.ofNat i] }

/-- **C21, C24.** Adding to a tree of the right shape that still has room (a blank leaf, or fewer
than 2^31 leaves): the new leaf goes to the leftmost blank leaf, after doubling the tree when there
is none; every ancestor of it that is not blank gets the leaf's index appended to its unmerged
leaves; every other node of the tree is as before, and what doubling adds is blank. -/
theorem C21_add {h : Heap} {t : RTree} (hv : ValidTree h t) (leaf : LeafNode)
    (hroom : t.length < 2 ^ 32 - 1 ∨ ∃ i, t[2 * i]? = some none) :
    ∃ h' t' i d, treeAdd h t leaf = .ok (h', t') ∧ ValidTree h' t' ∧
      (∀ j, j < i → nodeAt (derefTree h t) (2 * j) ≠ none) ∧ nodeAt (derefTree h t) (2 * i) = none ∧
      t'.length = (if 2 * i < t.length then t.length else 2 * t.length + 1) ∧
      t'.length = 2 ^ (d + 1) - 1 ∧ i < 2 ^ d ∧
      nodeAt (derefTree h' t') (2 * i) = some (.leaf leaf) ∧
      (∀ x, x ≠ 2 * i → IsAncestor d i x →
        nodeAt (derefTree h' t') x = (nodeAt (derefTree h t) x).map (withUnmerged i)) ∧
      (∀ x, x ≠ 2 * i → ¬ IsAncestor d i x → nodeAt (derefTree h' t') x = nodeAt (derefTree h t) x) := by
  obtain ⟨d, hd, s, hh⟩ := hv.holds
  have hlen := hh.length
  have hp : 0 < 2 ^ d := Nat.two_pow_pos d
  have hleaf : ∀ j, j < 2 ^ d → ∃ o, s.leaves[j]? = some o ∧ nodeAt (derefTree h t) (2 * j) = o.map .leaf := by
    intro j hj
    obtain ⟨o, h1, h2⟩ := hh.leaf_get hj
    refine ⟨o, h1, ?_⟩
    unfold nodeAt
    rw [derefTree_get, ← idx_zero, h2]
    cases o <;> rfl
  have hroom' : d ≤ 30 ∨ s.firstBlank.isSome := by
    by_cases h30 : d ≤ 30
    · exact .inl h30
    · right
      have hd' : d = 31 := by omega
      subst hd'
      rcases hroom with hr | ⟨i, hi⟩
      · omega
      · rw [firstBlank_eq, List.findIdx?_isSome, List.any_eq_true]
        have hlt : 2 * i < t.length := (List.getElem?_eq_some_iff.1 hi).1
        have hi31 : i < 2 ^ 31 := by omega
        obtain ⟨o, h1, h2⟩ := hh.leaf_get hi31
        rw [idx_zero, hi] at h2
        cases o with
        | none => exact ⟨none, List.mem_iff_getElem?.2 ⟨i, h1⟩, rfl⟩
        | some n => cases h2
  obtain ⟨h', t', h1, h2, h3⟩ := treeAdd_spec hd hh hroom' leaf
  have hG : ∀ (i : Nat) (p : Option ParentNode), Option.map (withUnmerged i) (p.map .parent) =
      (Option.map (Ratchet.addUnmerged i) p).map .parent := by
    intro i p; cases p <;> rfl
  rcases add_eq_alongPath s leaf with ⟨hf, he⟩ | ⟨i, hf, he⟩
  · -- the tree is full
    rw [he] at h3
    dsimp only at h3
    have hd30 : d ≤ 30 := by
      rcases hroom' with h | h
      · exact h
      · rw [hf] at h; cases h
    have hi : 2 ^ d < 2 ^ (d + 1) := by rw [Nat.pow_succ]; omega
    have hget := fun x => alongPath_get (ml := Node.leaf) (mp := Node.parent) (f := fun _ => some leaf)
      (F := fun _ => some (.leaf leaf)) (fun _ => rfl) (hG (2 ^ d)) (Ratchet.node none s (.blank d)) hi x
    have hgrow := hh.grow.flat
    have hlen' := h3.length
    rw [firstBlank_eq, List.findIdx?_eq_none_iff] at hf
    have hsame : ∀ x, x < 2 ^ (d + 1 + 1) - 1 →
        ∃ o, ((Ratchet.node none s (.blank d)).flat Node.leaf Node.parent)[x]? = some o ∧ o = nodeAt (derefTree h t) x := by
      intro x hx
      rw [← hgrow, derefTree_append]
      unfold nodeAt
      rw [List.getElem?_append]
      split
      · next hlt => exact ⟨_, List.getElem?_eq_getElem hlt, by rw [List.getElem?_eq_getElem hlt]; rfl⟩
      · next hge =>
        rw [derefTree_length] at hge
        have hn : (derefTree h t)[x]? = none := List.getElem?_eq_none (by rw [derefTree_length]; omega)
        rw [hn]
        refine ⟨none, ?_, rfl⟩
        unfold derefTree
        rw [List.map_replicate, List.getElem?_replicate, List.length_map, if_pos (by rw [Nat.pow_succ] at hx; omega)]
        rfl
    have hpt : ∀ x, nodeAt (derefTree h' t') x = if x = 2 * 2 ^ d then some (.leaf leaf)
        else if x ∈ upPath (d + 1) 0 (2 ^ d) then (nodeAt (derefTree h t) x).map (withUnmerged (2 ^ d))
        else nodeAt (derefTree h t) x := by
      intro x
      show (derefTree h' t')[x]?.join = _
      rw [h3.flat, hget x]
      rcases Nat.lt_or_ge x (2 ^ (d + 1 + 1) - 1) with hx | hx
      · obtain ⟨o, ho1, ho2⟩ := hsame x hx
        rw [ho1, ← ho2]
        split
        · rfl
        · split <;> rfl
      · have hnone : ((Ratchet.node none s (.blank d)).flat Node.leaf Node.parent)[x]? = none :=
          List.getElem?_eq_none (by rw [flat_length]; exact hx)
        have hnone' : nodeAt (derefTree h t) x = none := by
          unfold nodeAt
          rw [List.getElem?_eq_none (by rw [derefTree_length, hlen]; rw [Nat.pow_succ] at hx; omega)]
          rfl
        have hne : ¬ x = 2 * 2 ^ d := by rw [Nat.pow_succ, Nat.pow_succ] at hx; omega
        rw [hnone, hnone', if_neg hne, if_neg hne]
        split <;> rfl
    refine ⟨h', t', 2 ^ d, d + 1, h1, h3.valid (by omega), ?_, ?_, ?_, hlen', hi, ?_, ?_, ?_⟩
    · intro j hj
      obtain ⟨o, ho1, ho2⟩ := hleaf j hj
      rw [ho2]
      have := hf o (List.mem_iff_getElem?.2 ⟨j, ho1⟩)
      cases o <;> simp at this ⊢
    · unfold nodeAt
      rw [List.getElem?_eq_none (by rw [derefTree_length, hlen, Nat.pow_succ]; omega)]
      rfl
    · rw [hlen', hlen, if_neg (by rw [Nat.pow_succ]; omega), Nat.pow_succ 2 (d + 1)]
      have : 0 < 2 ^ (d + 1) := Nat.two_pow_pos _
      omega
    · rw [hpt, if_pos rfl]
    · intro x hx ha
      rw [hpt, if_neg hx, if_pos ((isAncestor_iff hi).1 ha)]
    · intro x hx ha
      rw [hpt, if_neg hx, if_neg fun hc => ha ((isAncestor_iff hi).2 hc)]
  · -- there is a blank leaf
    rw [he] at h3
    dsimp only at h3
    rw [firstBlank_eq, List.findIdx?_eq_some_iff_getElem] at hf
    obtain ⟨hi0, hi1, hi2⟩ := hf
    have hi : i < 2 ^ d := by rwa [leaves_length] at hi0
    have hget := fun x => alongPath_get (ml := Node.leaf) (mp := Node.parent) (f := fun _ => some leaf)
      (F := fun _ => some (.leaf leaf)) (fun _ => rfl) (hG i) s hi x
    have hlen' := h3.length
    have hpt : ∀ x, x < t.length → nodeAt (derefTree h' t') x = if x = 2 * i then some (.leaf leaf)
        else if x ∈ upPath d 0 i then (nodeAt (derefTree h t) x).map (withUnmerged i)
        else nodeAt (derefTree h t) x := by
      intro x hx
      show (derefTree h' t')[x]?.join = _
      rw [h3.flat, hget x]
      unfold nodeAt
      rw [← hh.flat, List.getElem?_eq_getElem (by rw [derefTree_length]; exact hx)]
      split
      · rfl
      · split <;> rfl
    have hout : ∀ x, t.length ≤ x → nodeAt (derefTree h' t') x = none ∧ nodeAt (derefTree h t) x = none := by
      intro x hx
      unfold nodeAt
      rw [List.getElem?_eq_none (by rw [derefTree_length]; omega), List.getElem?_eq_none (by rw [derefTree_length]; omega)]
      exact ⟨rfl, rfl⟩
    have h2i : 2 * i < t.length := by rw [Nat.pow_succ] at hlen; omega
    refine ⟨h', t', i, d, h1, h3.valid hd, ?_, ?_, ?_, hlen', hi, ?_, ?_, ?_⟩
    · intro j hj
      obtain ⟨o, ho1, ho2⟩ := hleaf j (by omega)
      rw [ho2]
      have := hi2 j hj
      rw [List.getElem?_eq_getElem (by omega)] at ho1
      cases ho1
      cases hc : s.leaves[j] with
      | none => rw [hc] at this; simp at this
      | some n => simp
    · obtain ⟨o, ho1, ho2⟩ := hleaf i hi
      rw [ho2]
      rw [List.getElem?_eq_getElem hi0] at ho1
      cases ho1
      cases hc : s.leaves[i] with
      | none => rfl
      | some n => rw [hc] at hi1; cases hi1
    · rw [if_pos h2i, hlen', hlen]
    · rw [hpt _ h2i, if_pos rfl]
    · intro x hx ha
      rcases Nat.lt_or_ge x t.length with hl | hl
      · rw [hpt x hl, if_neg hx, if_pos ((isAncestor_iff hi).1 ha)]
      · rw [(hout x hl).1, (hout x hl).2]; rfl
    · intro x hx ha
      rcases Nat.lt_or_ge x t.length with hl | hl
      · rw [hpt x hl, if_neg hx, if_neg fun hc => ha ((isAncestor_iff hi).2 hc)]
      · rw [(hout x hl).1, (hout x hl).2]

/-- The same as a refinement: the code performs the specification's add. -/
theorem C21_add_refines {h : Heap} {t : RTree} {d : Nat} (hd : d ≤ 31) {s : Ratchet ParentNode d} (ho : Owned h t)
    (hf : derefTree h t = s.flat .leaf .parent) (hroom : d ≤ 30 ∨ s.firstBlank.isSome) (leaf : LeafNode) :
    ∃ h' t', treeAdd h t leaf = .ok (h', t') ∧ Owned h' t' ∧
      derefTree h' t' = (s.add leaf).2.flat .leaf .parent := by
  obtain ⟨h', t', h1, _, h3⟩ := treeAdd_spec hd ⟨ho, hf⟩ hroom leaf
  exact ⟨h', t', h1, h3.owned, h3.flat⟩

/-- The members after an add. -/
theorem C21_members {d : Nat} (s : Ratchet ParentNode d) (leaf : LeafNode) :
    (s.add leaf).2.leaves = (match s.leaves.findIdx? (·.isNone) with
      | some i => s.leaves.set i (some leaf)
      | none => s.leaves ++ some leaf :: List.replicate (2 ^ d - 1) none) ∧
    (s.add leaf).2.size = s.size + 1 :=
  ⟨leaves_add s leaf, size_add s leaf⟩

/-- A full tree of 2^31 leaves: the search for a free leaf never ends. -/
theorem C21_full_hang {h : Heap} {t : RTree} (hv : ValidTree h t) (hl : t.length = 2 ^ 32 - 1)
    (hfull : ∀ i, t[2 * i]? ≠ some none) (leaf : LeafNode) : treeAdd h t leaf = .hang := by
  obtain ⟨d, hd, s, hh⟩ := hv.holds
  have hd' : d = 31 := by
    have := hh.length
    rcases Nat.lt_or_ge d 31 with h | h
    · have : 2 ^ (d + 1) ≤ 2 ^ 31 := Nat.pow_le_pow_right (by decide) (by omega)
      omega
    · omega
  subst hd'
  refine treeAdd_hang hh ?_ leaf
  rw [firstBlank_eq, List.findIdx?_eq_none_iff]
  intro o ho
  obtain ⟨i, hi⟩ := List.mem_iff_getElem?.1 ho
  have hi31 : i < 2 ^ 31 := by
    have := (List.getElem?_eq_some_iff.1 hi).1
    rwa [leaves_length] at this
  obtain ⟨o', h1, h2⟩ := hh.leaf_get hi31
  rw [hi] at h1
  cases h1
  rw [idx_zero] at h2
  cases o with
  | none => exact absurd h2 (hfull i)
  | some n => rfl

/-- Adding to a full tree of 2^31 members never ends. -/
example (leaf : LeafNode) : treeAdd [] exFullTree leaf = .hang := by
  refine C21_full_hang exFullTree_valid ?_ (fun i h => ?_) leaf
  · unfold exFullTree
    rw [List.length_map, List.length_range]
  · rw [exFullTree_get, Nat.mul_mod_right, if_pos rfl] at h
    split at h <;> simp at h

/-- The hypotheses of C21_add hold of a tree with room, and of C21_add_refines, C22, C23 and C25 as well. -/
example : ValidTree exTree.1 exTree.2 ∧ exTree.2.length < 2 ^ 32 - 1 ∧ 2 * 2 < exTree.2.length ∧ exTree.2.length ≤ 2 * 5 :=
  ⟨exTree_valid, by decide, by decide, by decide⟩

/-- A tree of three leaves with a parent: the fourth leaf is free, and the root records it. -/
example : treeAdd [⟨[7], [], []⟩] [some (.leaf (toyLeaf 1)), none, some (.leaf (toyLeaf 2)), some (.parent 0),
      some (.leaf (toyLeaf 3)), none, none] (toyLeaf 4) =
    .ok ([⟨[7], [], [3]⟩], [some (.leaf (toyLeaf 1)), none, some (.leaf (toyLeaf 2)), some (.parent 0),
      some (.leaf (toyLeaf 3)), none, some (.leaf (toyLeaf 4))]) := by
  decide +kernel

/-! ### C23 -/

/-- **C23.** Updating a leaf of a tree of the right shape replaces that leaf, blanks its
ancestors, leaves every other node as it was, and never touches the parent nodes themselves. -/
theorem C23_update {h : Heap} {t : RTree} (hv : ValidTree h t) {i : Nat} (hi : 2 * i < t.length) (leaf : LeafNode) :
    ∃ t' d, treeUpdate t i leaf = .ok t' ∧ ValidTree h t' ∧ t'.length = t.length ∧ t.length = 2 ^ (d + 1) - 1 ∧
      nodeAt (derefTree h t') (2 * i) = some (.leaf leaf) ∧
      (∀ x, x ≠ 2 * i → IsAncestor d i x → nodeAt (derefTree h t') x = none) ∧
      (∀ x, x ≠ 2 * i → ¬ IsAncestor d i x → nodeAt (derefTree h t') x = nodeAt (derefTree h t) x) := by
  obtain ⟨d, hd, s, hh⟩ := hv.holds
  have hlen := hh.length
  have hid : i < 2 ^ d := by rw [Nat.pow_succ] at hlen; omega
  obtain ⟨t', h1, h2⟩ := treeUpdate_holds hd hh hid leaf
  have hlen' := h2.length
  have hget := fun x => alongPath_get (ml := Node.leaf) (mp := Node.parent) (f := fun _ => some leaf)
      (g := fun _ => none) (F := fun _ => some (.leaf leaf)) (G := fun _ => none) (fun _ => rfl) (fun _ => rfl) s hid x
  have hpt : ∀ x, nodeAt (derefTree h t') x = (((s.alongPath (fun _ => some leaf) (fun _ => none) i).flat
      Node.leaf Node.parent)[x]?).join := by
    intro x
    unfold nodeAt
    rw [h2.flat]
    rfl
  refine ⟨t', d, h1, h2.valid hd, by rw [hlen, hlen'], hlen, ?_, ?_, ?_⟩
  · rw [hpt, hget, if_pos rfl, ← hh.flat, List.getElem?_eq_getElem (by rw [derefTree_length]; exact hi)]
    rfl
  · intro x hx ha
    rw [hpt, hget, if_neg hx, if_pos ((isAncestor_iff hid).1 ha)]
    rcases ((s.flat Node.leaf Node.parent))[x]? with _ | o <;> rfl
  · intro x hx ha
    rw [hpt, hget, if_neg hx, if_neg fun hc => ha ((isAncestor_iff hid).2 hc), ← hh.flat]
    rfl

/-- An update of an index outside the tree panics. -/
theorem C23_outside {h : Heap} {t : RTree} (hv : ValidTree h t) {i : Nat} (hi : t.length ≤ 2 * i) (h31 : i < 2 ^ 31)
    (leaf : LeafNode) : treeUpdate t i leaf = .panic := by
  obtain ⟨d, _, hl⟩ := hv.complete
  exact treeUpdate_panic hl (by rw [Nat.pow_succ] at hl; omega) h31 leaf

example : treeUpdate exTree.2 5 (toyLeaf 9) = .panic := C23_outside exTree_valid (by decide) (by decide) _

example : ∃ t', treeUpdate exTree.2 0 (toyLeaf 9) = .ok t' ∧ ValidTree exTree.1 t' ∧
    nodeAt (derefTree exTree.1 t') 0 = some (.leaf (toyLeaf 9)) := by
  obtain ⟨t', _, h1, h2, _, _, h3, _⟩ := C23_update exTree_valid (i := 0) (by decide) (toyLeaf 9)
  exact ⟨t', h1, h2, h3⟩

example : treeUpdate [some (.leaf (toyLeaf 1)), some (.parent 1), some (.leaf (toyLeaf 2)), some (.parent 0),
      some (.leaf (toyLeaf 3)), some (.parent 2), none] 2 (toyLeaf 9) =
    .ok [some (.leaf (toyLeaf 1)), some (.parent 1), some (.leaf (toyLeaf 2)), none, some (.leaf (toyLeaf 9)), none, none] := by
  decide +kernel

/-! ### C22 -/

/-- **C22.** Removing a leaf of a tree of the right shape blanks that leaf and its ancestors, leaves
every other node that remains as it was, keeps every other member in the tree at its index, and
leaves the smallest complete tree that holds them (the empty array when nobody is left). -/
theorem C22_remove {h : Heap} {t : RTree} (hv : ValidTree h t) {i : Nat} (hi : 2 * i < t.length) :
    ∃ t' d, treeRemove t i = .ok t' ∧ ValidOrEmpty h t' ∧ t.length = 2 ^ (d + 1) - 1 ∧ t'.length ≤ t.length ∧
      (∀ x, x < t'.length → x = 2 * i ∨ IsAncestor d i x → nodeAt (derefTree h t') x = none) ∧
      (∀ x, x < t'.length → x ≠ 2 * i → ¬ IsAncestor d i x →
        nodeAt (derefTree h t') x = nodeAt (derefTree h t) x) ∧
      (∀ j, j ≠ i → nodeAt (derefTree h t') (2 * j) = nodeAt (derefTree h t) (2 * j)) ∧
      (∀ k, (∀ j, j ≠ i → nodeAt (derefTree h t) (2 * j) ≠ none → j < 2 ^ k) → t'.length ≤ 2 ^ (k + 1) - 1) ∧
      ((∀ j, j ≠ i → nodeAt (derefTree h t) (2 * j) = none) → t' = []) := by
  obtain ⟨d, hd, s, hh⟩ := hv.holds
  have hlen := hh.length
  have hid : i < 2 ^ d := by rw [Nat.pow_succ] at hlen; omega
  obtain ⟨t', h1, h2⟩ := treeRemove_holds hd hh hid
  have hget := fun x => alongPath_get (ml := Node.leaf) (mp := Node.parent) (f := fun _ => none)
      (g := fun _ => none) (F := fun _ => none) (G := fun _ => none) (fun _ => rfl) (fun _ => rfl) s hid x
  have hsh := shrink_flat (ml := Node.leaf) (mp := Node.parent) (s.alongPath (fun _ => none) (fun _ => none) i)
  have hleaves := leaves_alongPath (f := fun _ => none) (g := fun _ => none) s hid
  have hmem : ∀ (j : Nat) n, (s.alongPath (fun _ => none) (fun _ => none) i).leaves[j]? = some (some n) ↔
      j ≠ i ∧ nodeAt (derefTree h t) (2 * j) = some (.leaf n) := by
    intro j n
    rw [hleaves, List.getElem?_modify]
    rcases Nat.lt_or_ge j (2 ^ d) with hj | hj
    · obtain ⟨o, ho1, ho2⟩ := hh.leaf_get hj
      rw [ho1]
      unfold nodeAt
      rw [derefTree_get, ← idx_zero, ho2]
      by_cases hij : i = j
      · simp [hij]
      · have : j ≠ i := fun h => hij h.symm
        cases o <;> simp [hij, this, TNode.deref]
    · rw [List.getElem?_eq_none (by rw [leaves_length]; exact hj)]
      unfold nodeAt
      rw [List.getElem?_eq_none (by rw [derefTree_length, hlen, Nat.pow_succ]; omega)]
      simp
  have hnode : ∀ (j : Nat), nodeAt (derefTree h t) (2 * j) = none ∨ ∃ n, nodeAt (derefTree h t) (2 * j) = some (.leaf n) := by
    intro j
    rcases Nat.lt_or_ge j (2 ^ d) with hj | hj
    · obtain ⟨o, ho1, ho2⟩ := hh.leaf_get hj
      unfold nodeAt
      rw [derefTree_get, ← idx_zero, ho2]
      cases o with
      | none => exact .inl rfl
      | some n => exact .inr ⟨n, rfl⟩
    · left
      unfold nodeAt
      rw [List.getElem?_eq_none (by rw [derefTree_length, hlen, Nat.pow_succ]; omega)]
      rfl
  cases hr : s.remove i with
  | none =>
    rw [hr] at h2
    cases h2
    unfold Ratchet.remove at hr
    rw [hr] at hsh
    refine ⟨[], d, h1, .inl rfl, hlen, by simp, by simp, by simp, ?_, by simp, fun _ => rfl⟩
    intro j hj
    rcases hnode j with hn | ⟨n, hn⟩
    · rw [hn]; simp [nodeAt, derefTree]
    · have := hsh j (some n) ((hmem j n).2 ⟨hj, hn⟩)
      cases this
  | some a =>
    obtain ⟨k, s'⟩ := a
    rw [hr] at h2
    replace h2 : Holds h t' s' := h2
    unfold Ratchet.remove at hr
    rw [hr] at hsh
    obtain ⟨hk, hfl, hin, j0, n0, hj0, hmin⟩ := hsh
    have hlen' := h2.length
    have hpow : 2 ^ (k + 1) ≤ 2 ^ (d + 1) := Nat.pow_le_pow_right (by decide) (by omega)
    have hpt : ∀ x, x < t'.length → nodeAt (derefTree h t') x =
        (((s.alongPath (fun _ => none) (fun _ => none) i).flat Node.leaf Node.parent)[x]?).join := by
      intro x hx
      unfold nodeAt
      rw [h2.flat, hfl, List.getElem?_take_of_lt (by omega)]
    have hother : ∀ x, x < t'.length → x ≠ 2 * i → ¬ IsAncestor d i x →
        nodeAt (derefTree h t') x = nodeAt (derefTree h t) x := by
      intro x hx hne ha
      rw [hpt x hx, hget, if_neg hne, if_neg fun hc => ha ((isAncestor_iff hid).2 hc), ← hh.flat]
      rfl
    have hnoanc : ∀ j, ¬ IsAncestor d i (2 * j) := by
      intro j hc
      obtain ⟨e, he, heq⟩ := mem_upPath.1 ((isAncestor_iff hid).1 hc)
      have := idx_succ_odd (0 + e) (i / 2 ^ (e + 1))
      rw [← heq] at this
      omega
    refine ⟨t', d, h1, .inr (h2.valid (by omega)), hlen, by omega, ?_, hother, ?_, ?_, ?_⟩
    · intro x hx ha
      rw [hpt x hx, hget]
      by_cases hxi : x = 2 * i
      · rw [if_pos hxi]
        rcases ((s.flat Node.leaf Node.parent))[x]? with _ | o <;> rfl
      · rcases ha with ha | ha
        · exact absurd ha hxi
        · rw [if_neg hxi, if_pos ((isAncestor_iff hid).1 ha)]
          rcases ((s.flat Node.leaf Node.parent))[x]? with _ | o <;> rfl
    · intro j hj
      rcases Nat.lt_or_ge (2 * j) t'.length with hl | hl
      · exact hother _ hl (by omega) (hnoanc j)
      · have : nodeAt (derefTree h t') (2 * j) = none := by
          unfold nodeAt
          rw [List.getElem?_eq_none (by rw [derefTree_length]; exact hl)]
          rfl
        rw [this]
        rcases hnode j with hn | ⟨n, hn⟩
        · rw [hn]
        · have := hin j n ((hmem j n).2 ⟨hj, hn⟩)
          rw [Nat.pow_succ] at hlen'
          omega
    · intro k' hk'
      obtain ⟨hj1, hj2⟩ := (hmem j0 n0).1 hj0
      have hlt := hk' j0 hj1 (by rw [hj2]; simp)
      rcases Nat.lt_or_ge k' k with hkk | hkk
      · have := hmin k' hkk; omega
      · have : 2 ^ (k + 1) ≤ 2 ^ (k' + 1) := Nat.pow_le_pow_right (by decide) (by omega)
        omega
    · intro hall
      obtain ⟨hj1, hj2⟩ := (hmem j0 n0).1 hj0
      rw [hall j0 hj1] at hj2
      cases hj2

/-- Removing an index outside the tree panics. -/
theorem C22_outside {h : Heap} {t : RTree} (hv : ValidTree h t) {i : Nat} (hi : t.length ≤ 2 * i) (h31 : i < 2 ^ 31) :
    treeRemove t i = .panic := by
  obtain ⟨d, _, hl⟩ := hv.complete
  exact treeRemove_panic hl (by rw [Nat.pow_succ] at hl; omega) h31

example : treeRemove exTree.2 5 = .panic := C22_outside exTree_valid (by decide) (by decide)

example : ∃ t', treeRemove exTree.2 2 = .ok t' ∧ ValidOrEmpty exTree.1 t' ∧ t'.length ≤ 3 := by
  obtain ⟨t', d, h1, h2, _, _, _, _, _, h3, _⟩ := C22_remove exTree_valid (i := 2) (by decide)
  refine ⟨t', h1, h2, h3 1 fun j hj hn => ?_⟩
  match j, hj, hn with
  | 0, _, _ | 1, _, _ => decide
  | 2, hj, _ => exact absurd rfl hj
  | 3, _, hn => exact absurd (by decide +kernel) hn
  | j + 4, _, hn =>
    refine absurd ?_ hn
    unfold nodeAt
    rw [List.getElem?_eq_none]
    · rfl
    · simp only [derefTree, exTree, List.length_map, List.length_cons, List.length_nil]
      omega

/-- The fifth member leaves: four leaves remain. -/
example : (treeRemove [some (.leaf (toyLeaf 1)), none, some (.leaf (toyLeaf 2)), some (.parent 0), some (.leaf (toyLeaf 3)), none,
      some (.leaf (toyLeaf 4)), some (.parent 1), some (.leaf (toyLeaf 5)), none, none, none, none, none, none] 4 : Res RTree) =
    .ok [some (.leaf (toyLeaf 1)), none, some (.leaf (toyLeaf 2)), some (.parent 0), some (.leaf (toyLeaf 3)), none,
      some (.leaf (toyLeaf 4))] := by
  decide +kernel

/-! ### C25 -/

/-- **C25.** Applying the proposals of a commit, in whatever order they are listed: the result is
the specification's tree after all updates (each on its own sender's leaf), then all removes, then
all adds in the order of the list. It panics when an update or remove names an index outside the
tree at that moment, and loops when more than 2^31 leaves would be needed. -/
theorem C25_apply {h : Heap} {t : RTree} (hv : ValidOrEmpty h t) {ps : List Proposal}
    {senders : List UInt32} (hlen : ps.length = senders.length)
    (hu : ∀ u ∈ updatesOf (ps.zip senders), u.1.toNat < 2 ^ 31) (hr : ∀ li ∈ removesOf ps, li.toNat < 2 ^ 31) :
    ∃ s, HoldsOpt h t s ∧
    match applyAll s (updatesOf (ps.zip senders)) (removesOf ps) (addsOf ps) with
    | none => treeApply h t ps senders = .panic
    | some r => (Small r ∧ ∃ h' t', treeApply h t ps senders = .ok (h', t') ∧ HoldsOpt h' t' r) ∨
        (¬ Small r ∧ treeApply h t ps senders = .hang) := by
  obtain ⟨s, hs, hh⟩ := validOrEmpty_iff.1 hv
  exact ⟨s, hh, treeApply_spec hlen hu hr hs hh⟩

/-- The array determines the tree. -/
theorem flat_inj {d : Nat} (a b : Ratchet ParentNode d) (h : a.flat Node.leaf Node.parent = b.flat Node.leaf Node.parent) :
    a = b := by
  induction a with
  | leaf n =>
    cases b with
    | leaf m => cases n <;> cases m <;> simp [Ratchet.flat] at h ⊢; exact h
  | node p l r ihl ihr =>
    cases b with
    | node q l' r' =>
      simp only [Ratchet.flat] at h
      obtain ⟨h1, h2⟩ := List.append_inj h (by rw [flat_length, flat_length])
      simp only [List.cons.injEq] at h2
      rw [ihl l' h1, ihr r' h2.2]
      have := h2.1
      cases p <;> cases q <;> simp at this ⊢
      exact this

theorem HoldsOpt.unique_tree {h : Heap} {t : RTree} {s s' : Option (Ratchet.Any ParentNode)}
    (h1 : HoldsOpt h t s) (h2 : HoldsOpt h t s') : s = s' := by
  match s, s', h1, h2 with
  | none, none, _, _ => rfl
  | none, some ⟨d, b⟩, h1, h2 =>
    cases h1
    have := Holds.length (s := b) h2
    have hp : 2 ≤ 2 ^ (d + 1) := Nat.le_self_pow (by omega) 2
    simp at this
    omega
  | some ⟨d, b⟩, none, h1, h2 =>
    cases h2
    have := Holds.length (s := b) h1
    have hp : 2 ≤ 2 ^ (d + 1) := Nat.le_self_pow (by omega) 2
    simp at this
    omega
  | some ⟨d, a⟩, some ⟨e, b⟩, h1, h2 =>
    replace h1 : Holds h t a := h1
    replace h2 : Holds h t b := h2
    have hde : d = e := by
      have e1 := h1.length
      have e2 := h2.length
      have p1 : 0 < 2 ^ (d + 1) := Nat.two_pow_pos _
      have p2 : 0 < 2 ^ (e + 1) := Nat.two_pow_pos _
      have : 2 ^ (d + 1) = 2 ^ (e + 1) := by omega
      have := Nat.pow_right_injective (Nat.le_refl 2) this
      omega
    subst hde
    have hf := h1.flat.symm.trans h2.flat
    rw [flat_inj a b hf]

/-- The order in the commit does not matter beyond the order of updates, of removes and of adds
among themselves: two lists of proposals with the same ones have the same outcome for a reader. -/
theorem C25_order {h : Heap} {t : RTree} (hv : ValidOrEmpty h t) {ps qs : List Proposal} {ss rs : List UInt32}
    (hp : ps.length = ss.length) (hq : qs.length = rs.length)
    (e1 : updatesOf (ps.zip ss) = updatesOf (qs.zip rs)) (e2 : removesOf ps = removesOf qs) (e3 : addsOf ps = addsOf qs)
    (hu : ∀ u ∈ updatesOf (ps.zip ss), u.1.toNat < 2 ^ 31) (hr : ∀ li ∈ removesOf ps, li.toNat < 2 ^ 31) :
    (treeApply h t ps ss).bind (fun r => .ok (derefTree r.1 r.2)) =
      (treeApply h t qs rs).bind (fun r => .ok (derefTree r.1 r.2)) := by
  obtain ⟨s, hs, hh⟩ := validOrEmpty_iff.1 hv
  have h1 := treeApply_spec hp hu hr hs hh
  have h2 := treeApply_spec hq (e1 ▸ hu) (e2 ▸ hr) hs hh
  rw [← e1, ← e2, ← e3] at h2
  cases ha : applyAll s (updatesOf (ps.zip ss)) (removesOf ps) (addsOf ps) with
  | none =>
    rw [ha] at h1 h2
    rw [h1, h2]
  | some r =>
    rw [ha] at h1 h2
    rcases h1 with ⟨hs1, h', t', he, hh1⟩ | ⟨hs1, he⟩ <;> rcases h2 with ⟨hs2, h'', t'', he2, hh2⟩ | ⟨hs2, he2⟩
    · rw [he, he2]
      simp only [Res.bind]
      congr 1
      match r, hh1, hh2 with
      | none, hh1, hh2 => cases hh1; cases hh2; rfl
      | some a, hh1, hh2 => exact hh1.flat.trans hh2.flat.symm
    · exact absurd hs1 hs2
    · exact absurd hs2 hs1
    · rw [he, he2]

/-- The order of an update, a remove and an add among each other does not matter. -/
example : (treeApply exTree.1 exTree.2 [.add (toyKeyPackage 5), .remove 1, .update (toyLeaf 9)] [0, 0, 2]).bind
      (fun r => .ok (derefTree r.1 r.2)) =
    (treeApply exTree.1 exTree.2 [.update (toyLeaf 9), .remove 1, .add (toyKeyPackage 5)] [2, 0, 0]).bind
      (fun r => .ok (derefTree r.1 r.2)) :=
  C25_order (.inr exTree_valid) rfl rfl rfl rfl rfl (by decide) (by decide)

/-- An add, a remove and an update, listed in that order: the update of leaf 2 and the removal of
leaf 1 come first, so the new member gets leaf 1. -/
example : treeApply [] [some (.leaf (toyLeaf 1)), none, some (.leaf (toyLeaf 2)), none, some (.leaf (toyLeaf 3)), none, none]
      [.add (toyKeyPackage 5), .remove 1, .update (toyLeaf 9)] [0, 0, 2] =
    .ok ([], [some (.leaf (toyLeaf 1)), none, some (.leaf (toyKeyPackage 5).leafNode), none, some (.leaf (toyLeaf 9)), none,
      none]) := by
  decide +kernel

end Mls
