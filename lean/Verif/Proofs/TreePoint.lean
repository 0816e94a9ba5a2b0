import Verif.Proofs.TreeShape
/-
The structural operations seen from the array, and the application of whole commits.
-/
namespace Mls

open Spec (Ratchet ITree IsAncestor nodeAt)

theorem isAncestor_iff {d i x : Nat} (hi : i < 2 ^ d) : IsAncestor d i x ↔ x ∈ upPath d 0 i := by
  have := ancestors_perfect (d := d) (i := 0) (k := 0) (j := i) (Nat.zero_le _)
    (by rw [Nat.sub_zero]; exact Nat.div_eq_of_lt hi)
  rw [Nat.zero_mul, idx_zero, Nat.sub_zero] at this
  unfold IsAncestor
  rw [this]
  simp

theorem alongPath_get {P N : Type} {ml : LeafNode → N} {mp : P → N} {f : Option LeafNode → Option LeafNode}
    {g : Option P → Option P} {F G : Option N → Option N} (hF : ∀ n, F (Option.map ml n) = (f n).map ml)
    (hG : ∀ p, G (Option.map mp p) = (g p).map mp) {d i : Nat} (s : Ratchet P d) (hi : i < 2 ^ d) (x : Nat) :
    ((s.alongPath f g i).flat ml mp)[x]? =
      if x = 2 * i then ((s.flat ml mp)[x]?).map F
      else if x ∈ upPath d 0 i then ((s.flat ml mp)[x]?).map G else (s.flat ml mp)[x]? := by
  have key : ∀ x, ((s.flat ml mp).mapIdx fun x v =>
      if x = 2 * i then F v else if x ∈ upPath d 0 i then G v else v)[x]? =
      if x = 2 * i then ((s.flat ml mp)[x]?).map F
      else if x ∈ upPath d 0 i then ((s.flat ml mp)[x]?).map G else (s.flat ml mp)[x]? := by
    intro x
    rw [List.getElem?_mapIdx]
    split
    · rfl
    · split
      · rfl
      · simp
  rw [← key]
  congr 1
  exact (flat_alongPath hF hG (pathMod_of fun x => by rw [key, idx_zero]) (by simp [flat_length]) hi).symm

theorem shrink_flat {P N : Type} {ml : LeafNode → N} {mp : P → N} {d : Nat} (s : Ratchet P d) :
    match s.shrink with
    | none => ∀ (i : Nat) o, s.leaves[i]? = some o → o = none
    | some ⟨k, s'⟩ => k ≤ d ∧ s'.flat ml mp = (s.flat ml mp).take (2 ^ (k + 1) - 1) ∧
        (∀ (i : Nat) n, s.leaves[i]? = some (some n) → i < 2 ^ k) ∧
        (∃ (i : Nat) (n : LeafNode), s.leaves[i]? = some (some n) ∧ ∀ e, e < k → 2 ^ e ≤ i) := by
  induction s with
  | leaf n =>
    cases n with
    | none =>
      intro i o h
      cases i with
      | zero => simpa [Ratchet.leaves] using h.symm
      | succ i => simp [Ratchet.leaves] at h
    | some n =>
      refine ⟨Nat.le_refl _, rfl, ?_, 0, n, rfl, by simp⟩
      intro i n' h
      cases i with
      | zero => simp
      | succ i => simp [Ratchet.leaves] at h
  | @node d p l r ihl ihr =>
    have hll := leaves_length l
    have hlr := leaves_length r
    have hp : 0 < 2 ^ d := Nat.two_pow_pos d
    simp only [Ratchet.shrink]
    by_cases ho : r.occupied = true
    · rw [if_pos ho]
      refine ⟨Nat.le_refl _, ?_, ?_, ?_⟩
      · rw [List.take_of_length_le]
        rw [flat_length]
      · intro i n h
        have := (List.getElem?_eq_some_iff.1 h).1
        rwa [leaves_length] at this
      · obtain ⟨n, hn⟩ := (occupied_iff r).1 ho
        obtain ⟨i, hi⟩ := List.mem_iff_getElem?.1 hn
        refine ⟨2 ^ d + i, n, ?_, fun e he => ?_⟩
        · simp only [Ratchet.leaves]
          rw [List.getElem?_append_right (by omega), hll, Nat.add_sub_cancel_left, hi]
        · have : 2 ^ e ≤ 2 ^ d := Nat.pow_le_pow_right (by decide) (by omega)
          omega
    · rw [if_neg ho]
      have hr : ∀ (i : Nat) n, r.leaves[i]? ≠ some (some n) := fun i n h =>
        ho ((occupied_iff r).2 ⟨n, List.mem_iff_getElem?.2 ⟨i, h⟩⟩)
      have hsplit : ∀ (i : Nat) n, (Ratchet.node p l r).leaves[i]? = some (some n) ↔ l.leaves[i]? = some (some n) := by
        intro i n
        simp only [Ratchet.leaves]
        rw [List.getElem?_append]
        split
        · rfl
        · next hge =>
          constructor
          · intro h; exact absurd h (hr _ n)
          · intro h; have := (List.getElem?_eq_some_iff.1 h).1; omega
      cases hs : l.shrink with
      | none =>
        rw [hs] at ihl
        intro i o h
        cases o with
        | none => rfl
        | some n => have := ihl i (some n) ((hsplit i n).1 h); cases this
      | some a =>
        obtain ⟨k, s'⟩ := a
        rw [hs] at ihl
        obtain ⟨h1, h2, h3, i, n, h4, h5⟩ := ihl
        have hpow : 2 ^ (k + 1) ≤ 2 ^ (d + 1) := Nat.pow_le_pow_right (by decide) (by omega)
        refine ⟨by omega, ?_, fun i n h => h3 i n ((hsplit i n).1 h), i, n, (hsplit i n).2 h4, h5⟩
        rw [h2]
        simp only [Ratchet.flat]
        rw [List.take_append_of_le_length (by rw [flat_length]; omega)]

theorem add_eq_alongPath {d : Nat} (s : Ratchet ParentNode d) (n : LeafNode) :
    (s.firstBlank = none ∧ s.add n = ⟨d + 1, (Ratchet.node none s (.blank d)).alongPath (fun _ => some n)
        (Option.map (Ratchet.addUnmerged (2 ^ d))) (2 ^ d)⟩) ∨
    (∃ i, s.firstBlank = some i ∧ s.add n = ⟨d, s.alongPath (fun _ => some n) (Option.map (Ratchet.addUnmerged i)) i⟩) := by
  unfold Ratchet.add
  cases hf : s.firstBlank with
  | some i => exact .inr ⟨i, rfl, rfl⟩
  | none =>
    refine .inl ⟨rfl, ?_⟩
    have hb : ∀ k i, (Ratchet.blank k : Ratchet ParentNode k).alongPath (fun _ => some n)
        (Option.map (Ratchet.addUnmerged (2 ^ d))) i = (Ratchet.blank k).alongPath (fun _ => some n) id i := by
      intro k
      induction k with
      | zero => intro i; rfl
      | succ k ih => intro i; simp only [Ratchet.blank, Ratchet.alongPath, Option.map_none, id, ih]
    simp only [Ratchet.alongPath, Nat.lt_irrefl, if_false, Nat.sub_self, Option.map_none, hb]

theorem modify_append_left {α : Type} (l r : List α) {i : Nat} (f : α → α) (h : i < l.length) :
    (l ++ r).modify i f = l.modify i f ++ r := by
  apply List.ext_getElem?
  intro x
  simp only [List.getElem?_modify, List.getElem?_append, List.length_modify]
  by_cases hx : x < l.length
  · simp [hx]
  · simp only [hx, if_false, show ¬ i = x from by omega]
    cases r[x - l.length]? <;> rfl

theorem modify_append_right {α : Type} (l r : List α) {i : Nat} (f : α → α) (h : l.length ≤ i) :
    (l ++ r).modify i f = l ++ r.modify (i - l.length) f := by
  apply List.ext_getElem?
  intro x
  simp only [List.getElem?_modify, List.getElem?_append]
  by_cases hx : x < l.length
  · simp only [hx, if_true, show ¬ i = x from by omega, if_false]
    cases l[x]? <;> rfl
  · simp only [hx, if_false]
    by_cases he : i = x
    · simp [he]
    · simp [he, show ¬ i - l.length = x - l.length from by omega]

theorem modify_const {α : Type} (l : List α) (i : Nat) (a : α) : l.modify i (fun _ => a) = l.set i a := by
  apply List.ext_getElem?
  intro x
  simp only [List.getElem?_modify, List.getElem?_set]
  by_cases hx : i = x
  · subst hx
    by_cases hl : i < l.length
    · simp [hl]
    · simp [hl]
  · simp only [hx, if_false]
    cases l[x]? <;> rfl

theorem leaves_alongPath {P : Type} {f : Option LeafNode → Option LeafNode} {g : Option P → Option P} {d i : Nat}
    (s : Ratchet P d) (hi : i < 2 ^ d) : (s.alongPath f g i).leaves = s.leaves.modify i f := by
  induction s generalizing i with
  | leaf n =>
    obtain rfl : i = 0 := by simpa using hi
    rfl
  | @node d p l r ihl ihr =>
    have hll := leaves_length l
    simp only [Ratchet.alongPath]
    split
    · next h =>
      simp only [Ratchet.leaves, ihl h]
      rw [modify_append_left _ _ _ (by omega)]
    · next h =>
      rw [Nat.pow_succ] at hi
      simp only [Ratchet.leaves, ihr (i := i - 2 ^ d) (by omega)]
      rw [modify_append_right _ _ _ (by omega), hll]

theorem leaves_blank {P : Type} (d : Nat) : (Ratchet.blank d : Ratchet P d).leaves = List.replicate (2 ^ d) none := by
  induction d with
  | zero => rfl
  | succ d ih =>
    simp only [Ratchet.blank, Ratchet.leaves, ih, List.replicate_append_replicate, Nat.pow_succ]
    congr 1
    omega

/-- The leaves after an add: the first blank one is taken, or the row of leaves is doubled. -/
theorem leaves_add {d : Nat} (s : Ratchet ParentNode d) (n : LeafNode) :
    (s.add n).2.leaves = match s.leaves.findIdx? (·.isNone) with
      | some i => s.leaves.set i (some n)
      | none => s.leaves ++ some n :: List.replicate (2 ^ d - 1) none := by
  rw [← firstBlank_eq]
  have hp : 0 < 2 ^ d := Nat.two_pow_pos d
  rcases add_eq_alongPath s n with ⟨h1, h2⟩ | ⟨i, h1, h2⟩
  · rw [h1, h2]
    dsimp only
    rw [leaves_alongPath _ (by rw [Nat.pow_succ]; omega)]
    simp only [Ratchet.leaves, leaves_blank]
    rw [modify_append_right _ _ _ (by rw [leaves_length]), leaves_length, Nat.sub_self]
    obtain ⟨q, hq⟩ : ∃ q, 2 ^ d = q + 1 := ⟨2 ^ d - 1, by omega⟩
    rw [hq, List.replicate_succ]
    rfl
  · rw [h1, h2]
    dsimp only
    rw [firstBlank_eq, List.findIdx?_eq_some_iff_getElem] at h1
    obtain ⟨hi, _⟩ := h1
    rw [leaves_length] at hi
    rw [leaves_alongPath _ hi, modify_const]

theorem size_add {d : Nat} (s : Ratchet ParentNode d) (n : LeafNode) : (s.add n).2.size = s.size + 1 := by
  unfold Ratchet.size
  rw [leaves_add]
  cases hf : s.leaves.findIdx? (·.isNone) with
  | none =>
    simp [List.filterMap_append]
  | some i =>
    simp only
    rw [List.findIdx?_eq_some_iff_getElem] at hf
    obtain ⟨hi, h1, h9⟩ := hf
    clear h9
    generalize s.leaves = l at *
    induction l generalizing i with
    | nil => simp at hi
    | cons a l ih =>
      cases i with
      | zero =>
        cases a with
        | none => simp
        | some a => simp at h1
      | succ i =>
        simp only [List.set_cons_succ, List.filterMap_cons]
        have hi' : i < l.length := by simpa using hi
        have h1' : l[i].isNone = true := by simpa using h1
        cases a with
        | none => simpa using ih i hi' h1'
        | some a => simpa using ih i hi' h1'

theorem size_le {P : Type} {d : Nat} (s : Ratchet P d) (h : s.firstBlank = none) : s.size = 2 ^ d := by
  rw [firstBlank_eq, List.findIdx?_eq_none_iff] at h
  rw [← leaves_length s]
  unfold Ratchet.size
  generalize s.leaves = l at *
  induction l with
  | nil => rfl
  | cons a l ih =>
    cases a with
    | none => simp at h
    | some a => simp only [List.filterMap_cons, id, List.length_cons]; rw [ih fun x hx => h x (by simp [hx])]

end Mls
