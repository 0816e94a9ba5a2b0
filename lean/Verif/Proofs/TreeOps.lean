import Verif.Proofs.Ratchet
import Verif.Proofs.Aliasing
/-
The operations of ratchetTree on arrays that hold complete trees.
-/
namespace Mls

open Spec (Ratchet)

/-! ### Powers of two -/

theorem isPowerOf2_pow (e : Nat) : isPowerOf2 (2 ^ e) = true := by
  have hp : 0 < 2 ^ e := Nat.two_pow_pos e
  unfold isPowerOf2
  have h : 2 ^ e &&& (2 ^ e - 1) = 0 := by
    apply Nat.eq_of_testBit_eq
    intro i
    rw [Nat.testBit_and, Nat.testBit_two_pow, Nat.testBit_two_pow_sub_one, Nat.zero_testBit]
    by_cases h : e = i
    · simp [h]
    · simp [h]
  rw [h]
  simp

theorem isPowerOf2_between {d x : Nat} (h1 : 2 ^ d < x) (h2 : x < 2 ^ (d + 1)) : isPowerOf2 x = false := by
  unfold isPowerOf2
  have hb : ∀ y, 2 ^ d ≤ y → y < 2 ^ (d + 1) → y.testBit d = true := by
    intro y hy1 hy2
    rw [Nat.testBit_eq_decide_div_mod_eq]
    have : y / 2 ^ d = 1 := Nat.div_eq_of_lt_le (by omega) (by rw [Nat.pow_succ] at hy2; omega)
    rw [this]
    decide
  have h : (x &&& (x - 1)) ≠ 0 := by
    intro h
    have := Nat.testBit_and x (x - 1) d
    rw [h, hb x (by omega) h2, hb (x - 1) (by omega) (by omega)] at this
    simp at this
  simp [h]

/-! ### Sizes -/

theorem numLeaves_pow {N : Type} {t : List N} {d : Nat} (hd : d ≤ 31) (hl : t.length = 2 ^ (d + 1) - 1) :
    treeNumLeaves t = 2 ^ d := by
  have hp : 0 < 2 ^ d := Nat.two_pow_pos d
  have h31 : 2 ^ d ≤ 2 ^ 31 := Nat.pow_le_pow_right (by decide) hd
  unfold treeNumLeaves numLeavesFromWidth
  rw [hl, Nat.pow_succ, Nat.mod_eq_of_lt (by omega), if_neg (by omega)]
  omega

theorem nodeOfLeaf_idx {li : Nat} (h : li < 2 ^ 31) : nodeOfLeaf li = idx 0 li := by
  unfold nodeOfLeaf idx
  rw [Nat.mod_eq_of_lt (by omega)]
  simp [Nat.mul_comm]

theorem leaf_lt {d li : Nat} (hd : d ≤ 31) (h : li < 2 ^ d) : li < 2 ^ 31 :=
  Nat.lt_of_lt_of_le h (Nat.pow_le_pow_right (by decide) hd)

theorem below_leaf {d li : Nat} (h : li < 2 ^ d) : Below d 0 0 li := ⟨Nat.zero_le _, by
  rw [Nat.sub_zero]; exact Nat.div_eq_of_lt h⟩

theorem below_path {d li m : Nat} (hm : m ≤ d) (h : li < 2 ^ d) : Below d 0 m (li / 2 ^ m) := by
  refine ⟨hm, ?_⟩
  rw [Nat.div_div_eq_div_mul, ← Nat.pow_add, show m + (d - m) = d from by omega]
  exact Nat.div_eq_of_lt h

/-! ### Blanking paths -/

theorem blankAncestors_spec {N : Type} {d : Nat} (hd : d ≤ 31) :
    ∀ (m k j fuel : Nat) (t : List (Option N)), k + m = d → j / 2 ^ m = 0 → m < fuel → t.length = 2 ^ (d + 1) - 1 →
    ∃ t', blankAncestors (2 ^ d) fuel t (idx k j) = .ok t' ∧ t'.length = t.length ∧
      ∀ x, t'[x]? = if x ∈ upPath m k j then (t[x]?).map (fun _ => none) else t[x]? := by
  intro m
  induction m with
  | zero =>
    intro k j fuel t hk hj hf hl
    obtain ⟨fuel, rfl⟩ : ∃ f, fuel = f + 1 := ⟨fuel - 1, by omega⟩
    simp at hk hj
    subst hk hj
    refine ⟨t, ?_, rfl, by simp [upPath]⟩
    unfold blankAncestors
    rw [parent_root hd]
  | succ m ih =>
    intro k j fuel t hk hj hf hl
    obtain ⟨fuel, rfl⟩ : ∃ f, fuel = f + 1 := ⟨fuel - 1, by omega⟩
    unfold blankAncestors
    rw [parent_idx hd (by omega) (by rw [show d - k = m + 1 from by omega]; exact hj)]
    have hb : Below d 0 (k + 1) (j / 2) := ⟨by omega, by
      rw [show d - (k + 1) = m from by omega, ← div_half]; exact hj⟩
    have hlt := hb.lt
    simp only
    rw [Res.setIdx_of_lt _ (by omega)]
    simp only [Res.ok_bind]
    obtain ⟨t', h1, h2, h3⟩ := ih (k + 1) (j / 2) fuel (t.set (idx (k + 1) (j / 2)) none) (by omega)
      (by rw [← div_half]; exact hj) (by omega) (by simpa using hl)
    refine ⟨t', h1, by simpa using h2, fun x => ?_⟩
    rw [h3]
    simp only [upPath, List.mem_cons, List.getElem?_set]
    by_cases hx : idx (k + 1) (j / 2) = x
    · subst hx
      have hn : t[idx (k + 1) (j / 2)]? = some t[idx (k + 1) (j / 2)] := List.getElem?_eq_getElem (by omega)
      simp only [if_true, true_or, hn, Option.map_some]
      have hin : idx (k + 1) (j / 2) < t.length := by omega
      simp only [hin, if_true]
      split <;> rfl
    · have hx' : ¬ x = idx (k + 1) (j / 2) := fun h => hx h.symm
      simp only [hx, hx', if_false, false_or]

theorem blankPath_spec {N : Type} {d : Nat} (hd : d ≤ 31) :
    ∀ (m k j fuel : Nat) (t : List (Option N)), k + m = d → j / 2 ^ m = 0 → m < fuel → t.length = 2 ^ (d + 1) - 1 →
    ∃ t', blankPath (2 ^ d) fuel t (idx k j) = .ok t' ∧ t'.length = t.length ∧
      ∀ x, t'[x]? = if x = idx k j ∨ x ∈ upPath m k j then (t[x]?).map (fun _ => none) else t[x]? := by
  intro m
  induction m with
  | zero =>
    intro k j fuel t hk hj hf hl
    obtain ⟨fuel, rfl⟩ : ∃ f, fuel = f + 1 := ⟨fuel - 1, by omega⟩
    simp at hk hj
    subst hk hj
    have hlt := (Below.refl k 0).lt
    refine ⟨t.set (idx k 0) none, ?_, by simp, fun x => ?_⟩
    · unfold blankPath
      rw [Res.setIdx_of_lt _ (by omega), parent_root hd]
      rfl
    · simp only [upPath, List.getElem?_set, List.not_mem_nil, or_false]
      by_cases hx : idx k 0 = x
      · subst hx
        rw [if_pos rfl, if_pos rfl, if_pos (by omega), List.getElem?_eq_getElem (by omega)]
        rfl
      · rw [if_neg hx, if_neg (fun h => hx h.symm)]
  | succ m ih =>
    intro k j fuel t hk hj hf hl
    obtain ⟨fuel, rfl⟩ : ∃ f, fuel = f + 1 := ⟨fuel - 1, by omega⟩
    have hb0 : Below d 0 k j := ⟨by omega, by rw [show d - k = m + 1 from by omega]; exact hj⟩
    have hlt0 := hb0.lt
    unfold blankPath
    rw [Res.setIdx_of_lt _ (by omega)]
    simp only [Res.ok_bind]
    rw [parent_idx hd (by omega) (by rw [show d - k = m + 1 from by omega]; exact hj)]
    simp only
    obtain ⟨t', h1, h2, h3⟩ := ih (k + 1) (j / 2) fuel (t.set (idx k j) none) (by omega)
      (by rw [← div_half]; exact hj) (by omega) (by simpa using hl)
    refine ⟨t', h1, by simpa using h2, fun x => ?_⟩
    rw [h3]
    simp only [upPath, List.mem_cons, List.getElem?_set]
    by_cases hx : idx k j = x
    · subst hx
      have hn : t[idx k j]? = some t[idx k j] := List.getElem?_eq_getElem (by omega)
      simp only [if_true, true_or, hn, Option.map_some]
      have hin : idx k j < t.length := by omega
      simp only [hin, if_true]
      split <;> rfl
    · have hx' : ¬ x = idx k j := fun h => hx h.symm
      simp only [hx, hx', if_false, false_or]

theorem pathMod_of {N : Type} {F G : Option N → Option N} {d i : Nat} {t t' : List (Option N)}
    (h : ∀ x, t'[x]? = if x = idx 0 i then (t[x]?).map F else if x ∈ upPath d 0 i then (t[x]?).map G else t[x]?) :
    PathMod F G d i t t' := by
  intro m y
  rw [h]
  by_cases h0 : m = 0 ∧ y = i
  · obtain ⟨rfl, rfl⟩ := h0
    simp
  · have h1 : ¬ idx m y = idx 0 i := fun he => h0 (idx_inj he)
    rw [if_neg h1, if_neg h0]
    by_cases h2 : 0 < m ∧ m ≤ d ∧ y = i / 2 ^ m
    · rw [if_pos h2, if_pos]
      obtain ⟨a, b, rfl⟩ := h2
      refine mem_upPath.2 ⟨m - 1, by omega, ?_⟩
      rw [show 0 + (m - 1) + 1 = m from by omega, show m - 1 + 1 = m from by omega]
    · rw [if_neg h2, if_neg]
      intro hm
      obtain ⟨e, he, heq⟩ := mem_upPath.1 hm
      obtain ⟨rfl, rfl⟩ := idx_inj heq
      exact h2 ⟨by omega, by omega, by rw [Nat.zero_add]⟩

theorem not_mem_upPath_leaf {d i : Nat} : idx 0 i ∉ upPath d 0 i := by
  intro hm
  obtain ⟨e, he, heq⟩ := mem_upPath.1 hm
  have := (idx_inj heq).1
  omega

/-! ### Update -/

theorem treeUpdate_spec {d : Nat} (hd : d ≤ 31) {t : RTree} (hl : t.length = 2 ^ (d + 1) - 1) {li : Nat}
    (hli : li < 2 ^ d) (leaf : LeafNode) :
    ∃ t', treeUpdate t li leaf = .ok t' ∧ t'.length = t.length ∧
      PathMod (fun _ => some (.leaf leaf)) (fun _ => none) d li t t' := by
  have hlt := (below_leaf hli).lt
  unfold treeUpdate
  rw [nodeOfLeaf_idx (leaf_lt hd hli), Res.setIdx_of_lt _ (by omega)]
  simp only [Res.ok_bind]
  rw [numLeaves_pow hd (by simpa using hl)]
  obtain ⟨t', h1, h2, h3⟩ := blankAncestors_spec hd d 0 li 64 (t.set (idx 0 li) (some (.leaf leaf)))
    (by omega) (Nat.div_eq_of_lt hli) (by omega) (by simpa using hl)
  refine ⟨t', h1, by simpa using h2, pathMod_of fun x => ?_⟩
  rw [h3]
  simp only [List.getElem?_set]
  by_cases hx : idx 0 li = x
  · subst hx
    rw [if_neg not_mem_upPath_leaf, if_pos rfl, if_pos (by omega), if_pos rfl,
      List.getElem?_eq_getElem (by omega)]
    rfl
  · rw [if_neg hx, if_neg (c := x = idx 0 li) (fun h => hx h.symm)]

/-! ### Remove -/

theorem lastPowerLoop_some {N : Type} {t : List (Option N)} {li L : Nat} {n : N}
    (h : Res.idx t (nodeOfLeaf li) = .ok (some n)) : lastPowerLoop t li L = .ok (some L) := by
  unfold lastPowerLoop
  simp only [h, Res.ok_bind, Res.pure_eq]

theorem lastPowerLoop_zero {N : Type} {t : List (Option N)} {L : Nat}
    (h : Res.idx t (nodeOfLeaf 0) = .ok none) : lastPowerLoop t 0 L = .ok none := by
  unfold lastPowerLoop
  simp only [h, Res.ok_bind, Res.pure_eq]

theorem lastPowerLoop_succ {N : Type} {t : List (Option N)} {li L : Nat}
    (h : Res.idx t (nodeOfLeaf (li + 1)) = .ok none) :
    lastPowerLoop t (li + 1) L =
      lastPowerLoop t li (if isPowerOf2 (nodeOfLeaf (li + 1)) then nodeOfLeaf (li + 1) else L) := by
  rw [lastPowerLoop]
  simp only [h, Res.ok_bind, Res.pure_eq]

theorem lastPowerLoop_blank {N : Type} {t : List (Option N)} {d : Nat} (hd : d ≤ 30) :
    ∀ (c : Nat) (L : Nat), c < 2 ^ d → (∀ i, 2 ^ d ≤ i → i ≤ 2 ^ d + c → t[idx 0 i]? = some none) →
    lastPowerLoop t (2 ^ d + c) L = lastPowerLoop t (2 ^ d - 1) (2 ^ (d + 1)) := by
  have hp : 0 < 2 ^ d := Nat.two_pow_pos d
  have h30 : 2 ^ d ≤ 2 ^ 30 := Nat.pow_le_pow_right (by decide) hd
  have hlow : ∀ L, t[idx 0 (2 ^ d)]? = some none →
      lastPowerLoop t (2 ^ d) L = lastPowerLoop t (2 ^ d - 1) (2 ^ (d + 1)) := by
    intro L hb
    obtain ⟨q, hq⟩ : ∃ q, 2 ^ d = q + 1 := ⟨2 ^ d - 1, by omega⟩
    have hn : nodeOfLeaf (2 ^ d) = 2 ^ (d + 1) := by
      unfold nodeOfLeaf; rw [Nat.mod_eq_of_lt (by omega), Nat.pow_succ]; omega
    have hr : Res.idx t (nodeOfLeaf (2 ^ d)) = .ok none := by
      rw [nodeOfLeaf_idx (by omega)]; exact Res.idx_ok_iff.2 hb
    have hpow : isPowerOf2 (nodeOfLeaf (2 ^ d)) = true := by rw [hn]; exact isPowerOf2_pow _
    rw [← hn]
    rw [hq] at hr hpow ⊢
    rw [lastPowerLoop_succ hr, if_pos hpow, Nat.add_sub_cancel]
  intro c
  induction c with
  | zero => intro L _ hb; exact hlow L (hb _ (by omega) (by omega))
  | succ c ih =>
    intro L hc hb
    have hr : Res.idx t (nodeOfLeaf (2 ^ d + (c + 1))) = .ok none := by
      rw [nodeOfLeaf_idx (by omega)]; exact Res.idx_ok_iff.2 (hb _ (by omega) (by omega))
    have hn : isPowerOf2 (nodeOfLeaf (2 ^ d + (c + 1))) = false := by
      unfold nodeOfLeaf
      rw [Nat.mod_eq_of_lt (by omega)]
      exact isPowerOf2_between (d := d + 1) (by rw [Nat.pow_succ]; omega) (by rw [Nat.pow_succ, Nat.pow_succ]; omega)
    rw [show 2 ^ d + (c + 1) = (2 ^ d + c) + 1 from by omega] at hr hn ⊢
    rw [lastPowerLoop_succ hr, if_neg (by rw [hn]; exact Bool.false_ne_true)]
    exact ih L (by omega) fun i h1 h2 => hb i h1 (by omega)

theorem lastPowerLoop_occupied {N : Type} {t : List (Option N)} {d : Nat} (hd : d ≤ 30)
    (hin : ∀ i, i < 2 ^ (d + 1) → ∃ o, t[idx 0 i]? = some o) :
    ∀ (c : Nat) (L : Nat), c < 2 ^ d → (∃ i n, 2 ^ d ≤ i ∧ i ≤ 2 ^ d + c ∧ t[idx 0 i]? = some (some n)) →
    lastPowerLoop t (2 ^ d + c) L = .ok (some L) := by
  have hp : 0 < 2 ^ d := Nat.two_pow_pos d
  have h30 : 2 ^ d ≤ 2 ^ 30 := Nat.pow_le_pow_right (by decide) hd
  intro c
  induction c with
  | zero =>
    rintro L _ ⟨i, n, h1, h2, h3⟩
    obtain rfl : i = 2 ^ d := by omega
    have hr : Res.idx t (nodeOfLeaf (2 ^ d)) = .ok (some n) := by
      rw [nodeOfLeaf_idx (by omega)]; exact Res.idx_ok_iff.2 h3
    exact lastPowerLoop_some hr
  | succ c ih =>
    rintro L hc ⟨i, n, h1, h2, h3⟩
    obtain ⟨o, ho⟩ := hin (2 ^ d + (c + 1)) (by rw [Nat.pow_succ]; omega)
    have hr : Res.idx t (nodeOfLeaf (2 ^ d + (c + 1))) = .ok o := by
      rw [nodeOfLeaf_idx (by omega)]; exact Res.idx_ok_iff.2 ho
    have hn : isPowerOf2 (nodeOfLeaf (2 ^ d + (c + 1))) = false := by
      unfold nodeOfLeaf
      rw [Nat.mod_eq_of_lt (by omega)]
      exact isPowerOf2_between (d := d + 1) (by rw [Nat.pow_succ]; omega) (by rw [Nat.pow_succ, Nat.pow_succ]; omega)
    have hne : o = none → i ≤ 2 ^ d + c := by
      rintro rfl
      rcases Nat.lt_or_ge i (2 ^ d + (c + 1)) with h | h
      · omega
      · obtain rfl : i = 2 ^ d + (c + 1) := by omega
        rw [h3] at ho; cases ho
    rw [show 2 ^ d + (c + 1) = (2 ^ d + c) + 1 from by omega] at hr hn ⊢
    cases o with
    | some n' => exact lastPowerLoop_some hr
    | none =>
      rw [lastPowerLoop_succ hr, if_neg (by rw [hn]; exact Bool.false_ne_true)]
      exact ih L (by omega) ⟨i, n, h1, hne rfl, h3⟩

theorem leaves_length {P : Type} {d : Nat} (s : Ratchet P d) : s.leaves.length = 2 ^ d := by
  induction s with
  | leaf => rfl
  | node p l r ihl ihr => simp [Ratchet.leaves, ihl, ihr, Nat.pow_succ]; omega

/-- The leaves of a tree inside an array. -/
theorem at_leaf {P N : Type} {ml : LeafNode → N} {mp : P → N} {t : List (Option N)} {k j : Nat} {s : Ratchet P k}
    (h : At ml mp t j s) {i : Nat} (h1 : i < 2 ^ k) :
    ∃ o, s.leaves[i]? = some o ∧ t[idx 0 (j * 2 ^ k + i)]? = some (o.map ml) := by
  induction s generalizing j i with
  | leaf n =>
    obtain rfl : i = 0 := by simpa using h1
    exact ⟨n, rfl, by simpa [At] using h⟩
  | @node k p l r ihl ihr =>
    have hll := leaves_length l
    rw [At] at h
    have hpk : 2 ^ (k + 1) = 2 * 2 ^ k := by rw [Nat.pow_succ]; omega
    have hmul' : j * 2 ^ (k + 1) = 2 * j * 2 ^ k := by rw [hpk]; ring
    have hmul2 : (2 * j + 1) * 2 ^ k = 2 * j * 2 ^ k + 2 ^ k := by ring
    rcases Nat.lt_or_ge i (2 ^ k) with hi | hi
    · obtain ⟨o, ho1, ho2⟩ := ihl h.2.1 hi
      refine ⟨o, ?_, by rw [hmul']; exact ho2⟩
      simp only [Ratchet.leaves]
      rw [List.getElem?_append_left (by omega), ho1]
    · obtain ⟨o, ho1, ho2⟩ := ihr (i := i - 2 ^ k) h.2.2 (by omega)
      refine ⟨o, ?_, ?_⟩
      · simp only [Ratchet.leaves]
        rw [List.getElem?_append_right (by omega), hll, ho1]
      · rw [hmul', show 2 * j * 2 ^ k + i = (2 * j + 1) * 2 ^ k + (i - 2 ^ k) from by omega]
        exact ho2

theorem occupied_iff {P : Type} {d : Nat} (s : Ratchet P d) : s.occupied = true ↔ ∃ n, some n ∈ s.leaves := by
  induction s with
  | leaf n => cases n <;> simp [Ratchet.occupied, Ratchet.leaves]
  | node p l r ihl ihr =>
    simp only [Ratchet.occupied, Bool.or_eq_true, ihl, ihr, Ratchet.leaves, List.mem_append]
    constructor
    · rintro (⟨n, h⟩ | ⟨n, h⟩)
      · exact ⟨n, .inl h⟩
      · exact ⟨n, .inr h⟩
    · rintro ⟨n, h | h⟩
      · exact .inl ⟨n, h⟩
      · exact .inr ⟨n, h⟩

/-- The array of a tree of any depth, or of the empty tree. -/
def anyFlat {P N : Type} (ml : LeafNode → N) (mp : P → N) : Option (Ratchet.Any P) → List (Option N)
  | none => []
  | some ⟨_, s⟩ => s.flat ml mp

/-- The truncation of an array that starts with a complete tree. -/
theorem lastPowerLoop_spec {P N : Type} {ml : LeafNode → N} {mp : P → N} {t : List (Option N)} {d : Nat}
    (hd : d ≤ 31) {s : Ratchet P d} (h : At ml mp t 0 s) (hlen : 2 ^ (d + 1) - 1 ≤ t.length) :
    ∃ r, lastPowerLoop t (2 ^ d - 1) (2 ^ (d + 1)) = .ok r ∧
      ∃ k, (match r with | none => [] | some L => t.take (L - 1)) = anyFlat ml mp s.shrink ∧
        k ≤ d ∧ ∀ L, r = some L → L = 2 ^ (k + 1) := by
  induction s with
  | leaf n =>
    have h0 : t[0]? = some (n.map ml) := by simpa [At, idx] using h
    have hr : Res.idx t (nodeOfLeaf 0) = .ok (n.map ml) := Res.idx_ok_iff.2 (by simpa [nodeOfLeaf] using h0)
    simp only [Nat.pow_zero, Nat.sub_self]
    cases n with
    | none => exact ⟨none, lastPowerLoop_zero hr, 0, rfl, Nat.le_refl _, by simp⟩
    | some n =>
      refine ⟨some 2, lastPowerLoop_some hr, 0, ?_, Nat.le_refl _, by simp⟩
      cases t with
      | nil => simp at h0
      | cons a t =>
        simp at h0
        simp [anyFlat, Ratchet.shrink, Ratchet.flat, h0]
  | @node d p l r ihl ihr =>
    have hp : 0 < 2 ^ d := Nat.two_pow_pos d
    have hl : At ml mp t 0 l := h.2.1
    have hr : At ml mp t 1 r := h.2.2
    have hpk : 2 ^ (d + 1) = 2 * 2 ^ d := by rw [Nat.pow_succ]; omega
    have hleaf : ∀ i, i < 2 ^ (d + 1) → ∃ o, t[idx 0 i]? = some o := by
      intro i hi
      obtain ⟨o, _, ho⟩ := at_leaf h hi
      exact ⟨_, by simpa using ho⟩
    have e : 2 ^ (d + 1) - 1 = 2 ^ d + (2 ^ d - 1) := by omega
    by_cases ho : r.occupied = true
    · obtain ⟨n, hn⟩ := (occupied_iff r).1 ho
      obtain ⟨i, hi⟩ := List.mem_iff_getElem?.1 hn
      have hilt : i < 2 ^ d := by
        have := (List.getElem?_eq_some_iff.1 hi).1
        rwa [leaves_length] at this
      obtain ⟨o, ho1, ho2⟩ := at_leaf hr hilt
      rw [hi] at ho1
      cases ho1
      rw [Nat.one_mul] at ho2
      have := lastPowerLoop_occupied (by omega) hleaf (2 ^ d - 1) (2 ^ (d + 1 + 1)) (by omega)
        ⟨2 ^ d + i, ml n, by omega, by omega, ho2⟩
      rw [e, this]
      refine ⟨_, rfl, d + 1, ?_, Nat.le_refl _, by simp⟩
      simp only [Ratchet.shrink, ho, if_true, anyFlat]
      refine eq_flat_of_at (h.congr fun m y hb => ?_) (by rw [List.length_take]; omega)
      rw [List.getElem?_take_of_lt hb.lt]
    · have hb : ∀ i, 2 ^ d ≤ i → i ≤ 2 ^ d + (2 ^ d - 1) → t[idx 0 i]? = some none := by
        intro i h1 h2
        obtain ⟨o, ho1, ho2⟩ := at_leaf hr (i := i - 2 ^ d) (by omega)
        rw [Nat.one_mul, show 2 ^ d + (i - 2 ^ d) = i from by omega] at ho2
        cases o with
        | none => simpa using ho2
        | some n => exact absurd ((occupied_iff r).2 ⟨n, List.mem_iff_getElem?.2 ⟨_, ho1⟩⟩) ho
      rw [e, lastPowerLoop_blank (by omega) (2 ^ d - 1) _ (by omega) hb]
      obtain ⟨q, h1, k, h2, h3, h4⟩ := ihl (by omega) hl (by omega)
      refine ⟨q, h1, k, ?_, by omega, h4⟩
      rw [h2]
      simp [Ratchet.shrink, ho]

/-- The array ratchetTree.remove keeps. -/
def keptPart {N : Type} (t1 : List (Option N)) : Option Nat → List (Option N)
  | none => []
  | some L => if L < t1.length + 1 then t1.take (L - 1) else t1

theorem treeRemove_of {N : Type} {t t1 : List (Option N)} {li n m : Nat} {r : Option Nat} (hn : treeNumLeaves t = n)
    (hb : blankPath n 64 t (nodeOfLeaf li) = .ok t1) (hm : (n + 2 ^ 32 - 1) % 2 ^ 32 = m)
    (hr : lastPowerLoop t1 m (t1.length + 1) = .ok r) :
    treeRemove t li = .ok (keptPart t1 r) := by
  subst hn hm
  unfold treeRemove
  dsimp only
  rw [hb, Res.ok_bind, hr, Res.ok_bind]
  cases r with
  | none => rfl
  | some L =>
    dsimp only [keptPart]
    split <;> rfl

theorem treeRemove_spec {P N : Type} {ml : LeafNode → N} {mp : P → N} {d : Nat} (hd : d ≤ 31) (s : Ratchet P d)
    {li : Nat} (hli : li < 2 ^ d) :
    treeRemove (s.flat ml mp) li = .ok (anyFlat ml mp (s.remove li)) := by
  have hp : 0 < 2 ^ d := Nat.two_pow_pos d
  have h31 : 2 ^ d ≤ 2 ^ 31 := Nat.pow_le_pow_right (by decide) hd
  have hfl := flat_length ml mp s
  obtain ⟨t', h1, h2, h3⟩ := blankPath_spec hd d 0 li 64 (s.flat ml mp) (by omega) (Nat.div_eq_of_lt hli) (by omega) hfl
  have hm : PathMod (fun _ => none) (fun _ => none) d li (s.flat ml mp) t' := by
    refine pathMod_of fun x => ?_
    rw [h3]
    by_cases hx : x = idx 0 li
    · simp [hx]
    · simp [hx]
  have ht' := flat_alongPath (f := fun _ => none) (g := fun _ => none) (fun _ => rfl) (fun _ => rfl) hm (by omega) hli
  have hat := at_flat ml mp (s.alongPath (fun _ => none) (fun _ => none) li)
  rw [← ht'] at hat
  have hmod : (2 ^ d + 2 ^ 32 - 1) % 2 ^ 32 = 2 ^ d - 1 := by omega
  have hlen : t'.length + 1 = 2 ^ (d + 1) := by
    have : 0 < 2 ^ (d + 1) := Nat.two_pow_pos _
    omega
  obtain ⟨r, hr1, k, hr2, hr3, hr4⟩ := lastPowerLoop_spec hd hat (by omega)
  rw [← hlen] at hr1
  rw [treeRemove_of (numLeaves_pow hd hfl) (by rw [nodeOfLeaf_idx (leaf_lt hd hli)]; exact h1) hmod hr1]
  rw [Ratchet.remove, ← hr2]
  cases r with
  | none => rfl
  | some L =>
    simp only [keptPart]
    split
    · rfl
    · next hge => rw [List.take_of_length_le (by omega)]

end Mls
