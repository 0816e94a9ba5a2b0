import Verif.Model.TreeMath
import Verif.Spec.Tree
import Mathlib.Tactic.Ring
/-
Normal form of node indices and agreement of tree_math.go with the in-order perfect tree.
-/
namespace Mls

open Spec (ITree)

/-- The node of level `k` at position `i` of that level. -/
def idx (k i : Nat) : Nat := i * 2 ^ (k + 1) + (2 ^ k - 1)

theorem idx_testBit (k i j : Nat) :
    (idx k i).testBit j = if j ≤ k then decide (j < k) else i.testBit (j - (k + 1)) := by
  have h : idx k i = 2 ^ (k + 1) * i + (2 ^ k - 1) := by unfold idx; rw [Nat.mul_comm]
  have hp : 0 < 2 ^ k := Nat.two_pow_pos k
  rw [h, Nat.testBit_two_pow_mul_add _ (by rw [Nat.pow_succ]; omega)]
  simp only [Nat.testBit_two_pow_sub_one]
  by_cases hj : j ≤ k
  · rw [if_pos hj, if_pos (by omega)]
  · rw [if_neg hj, if_neg (by omega)]

theorem shr_mod_two (x j : Nat) : (x >>> j) % 2 = if x.testBit j then 1 else 0 := by
  rw [Nat.testBit_eq_decide_div_mod_eq, Nat.shiftRight_eq_div_pow]
  have : x / 2 ^ j % 2 = 0 ∨ x / 2 ^ j % 2 = 1 := by omega
  rcases this with h | h <;> simp [h]

theorem levelLoop_idx (k i fuel l : Nat) (hl : l ≤ k) (hf : k < l + fuel) :
    levelLoop (idx k i) fuel l = k := by
  induction fuel generalizing l with
  | zero => omega
  | succ fuel ih =>
    unfold levelLoop
    rw [shr_mod_two, idx_testBit, if_pos hl]
    by_cases h : l < k
    · simp only [h, decide_true, if_true]
      exact ih (l + 1) (by omega) (by omega)
    · have : l = k := by omega
      subst this
      simp

theorem idx_mod_two (k i : Nat) : idx k i % 2 = if k = 0 then 0 else 1 := by
  have := shr_mod_two (idx k i) 0
  rw [Nat.shiftRight_zero, idx_testBit] at this
  rw [this]
  by_cases h : k = 0
  · simp [h]
  · have : 0 < k := by omega
    simp [h, this]

theorem level_idx (k i : Nat) (hk : k ≤ 32) : level (idx k i) = k := by
  unfold level
  rw [idx_mod_two]
  by_cases h : k = 0
  · simp [h]
  · simp only [h, if_false]
    rw [if_neg (by decide)]
    exact levelLoop_idx k i 33 0 (by omega) (by omega)

/-- Every number is a node of some level. -/
theorem exists_idx (x : Nat) : ∃ k i, x = idx k i := by
  induction x using Nat.strongRecOn with
  | _ x ih =>
    by_cases h : x % 2 = 0
    · exact ⟨0, x / 2, by unfold idx; omega⟩
    · obtain ⟨k, i, hki⟩ := ih (x / 2) (by omega)
      refine ⟨k + 1, i, ?_⟩
      have hp : 0 < 2 ^ k := Nat.two_pow_pos k
      have : x = 2 * (x / 2) + 1 := by omega
      rw [this, hki]
      unfold idx
      rw [Nat.pow_succ 2 (k + 1), Nat.pow_succ 2 k]
      generalize 2 ^ k = p at *
      have : i * (p * 2 * 2) = 2 * (i * (p * 2)) := by ring
      omega

theorem idx_lt_pow {k i : Nat} (h : idx k i < 2 ^ 32) : k ≤ 32 := by
  by_contra hk
  have : 2 ^ 33 ≤ 2 ^ k := Nat.pow_le_pow_right (by decide) (by omega)
  unfold idx at h
  omega

theorem idx_inj {k i k' i' : Nat} (h : idx k i = idx k' i') : k = k' ∧ i = i' := by
  have hk : k = k' := by
    rcases Nat.lt_trichotomy k k' with hlt | heq | hgt
    · have h1 := idx_testBit k i k
      have h2 := idx_testBit k' i' k
      rw [h] at h1
      rw [h1] at h2
      simp [hlt, Nat.le_of_lt hlt] at h2
    · exact heq
    · have h1 := idx_testBit k i k'
      have h2 := idx_testBit k' i' k'
      rw [h] at h1
      rw [h1] at h2
      simp [hgt, Nat.le_of_lt hgt] at h2
  subst hk
  refine ⟨rfl, ?_⟩
  unfold idx at h
  have hp : 0 < 2 ^ (k + 1) := Nat.two_pow_pos _
  have : i * 2 ^ (k + 1) = i' * 2 ^ (k + 1) := by omega
  exact Nat.eq_of_mul_eq_mul_right hp this

theorem idx_div (k i m : Nat) (hm : k ≤ m) : idx k i / 2 ^ (m + 1) = i / 2 ^ (m - k) := by
  have hp : 0 < 2 ^ (k + 1) := Nat.two_pow_pos _
  have h1 : 2 ^ (m + 1) = 2 ^ (k + 1) * 2 ^ (m - k) := by
    rw [← Nat.pow_add]; congr 1; omega
  rw [h1, ← Nat.div_div_eq_div_mul]
  congr 1
  unfold idx
  rw [Nat.add_comm, Nat.add_mul_div_right _ _ hp, Nat.div_eq_of_lt, Nat.zero_add]
  have : 0 < 2 ^ k := Nat.two_pow_pos k
  rw [Nat.pow_succ]; omega

theorem shl32_one {k : Nat} (hk : k < 32) : shl32 1 k = 2 ^ k := by
  unfold shl32
  rw [Nat.one_mul, Nat.mod_eq_of_lt (Nat.pow_lt_pow_right (by decide) hk)]

theorem shl32_testBit (x k j : Nat) :
    (shl32 x k).testBit j = (decide (j < 32) && (decide (k ≤ j) && x.testBit (j - k))) := by
  unfold shl32
  rw [Nat.testBit_mod_two_pow, Nat.mul_comm, Nat.testBit_two_pow_mul]

theorem idx_bit_lt {k i j : Nat} (hx : idx k i < 2 ^ 32) (hj : 32 ≤ j) : (idx k i).testBit j = false :=
  Nat.testBit_lt_two_pow (Nat.lt_of_lt_of_le hx (Nat.pow_le_pow_right (by decide) hj))

theorem mod_two_testBit (b j : Nat) : (b % 2).testBit j = (decide (j = 0) && b.testBit 0) := by
  have := Nat.testBit_mod_two_pow b 1 j
  rw [Nat.pow_one] at this
  rw [this]
  by_cases h : j = 0
  · subst h; simp
  · have : ¬ j < 1 := by omega
    simp [h, this]

theorem parentRaw_idx {k i : Nat} (hx : idx k i < 2 ^ 32) (hk : k < 32) :
    parentRaw (idx k i) = idx (k + 1) (i / 2) := by
  have hb : ∀ j, 32 ≤ j → (idx k i).testBit j = false := fun j hj => idx_bit_lt hx hj
  have hi : ∀ j, 32 ≤ j + (k + 1) → i.testBit j = false := by
    intro j hj
    have := hb (j + (k + 1)) hj
    rw [idx_testBit, if_neg (by omega)] at this
    simpa using this
  unfold parentRaw
  simp only
  rw [level_idx k i (by omega)]
  apply Nat.eq_of_testBit_eq
  intro j
  rw [Nat.testBit_xor, Nat.testBit_or, shl32_testBit, shl32_testBit, mod_two_testBit,
    Nat.testBit_shiftRight, idx_testBit, idx_testBit, idx_testBit]
  have htwo : ∀ m, (i / 2).testBit m = i.testBit (m + 1) := by
    intro m; rw [← Nat.testBit_succ]
  rw [htwo]
  have h1 : (1 : Nat).testBit (j - k) = decide (j - k = 0) := by
    by_cases h : j - k = 0
    · simp [h]
    · have := Nat.testBit_two_pow (n := 0) (m := j - k)
      simp only [Nat.pow_zero] at this
      rw [this]
      by_cases h2 : 0 = j - k
      · omega
      · simp [h, h2]
  rw [h1]
  simp only [Nat.add_zero]
  have hk1 : ¬ (k + 1 ≤ k) := by omega
  have hk2 : k + 1 - (k + 1) = 0 := by omega
  simp only [hk1, if_false, hk2]
  rcases Nat.lt_trichotomy j k with h | h | h
  · have e1 : j ≤ k := by omega
    have e2 : ¬ k ≤ j := by omega
    have e3 : ¬ k + 1 ≤ j := by omega
    have e4 : j ≤ k + 1 := by omega
    have e5 : j < k + 1 := by omega
    simp [e1, h, e2, e3, e4, e5]
  · subst h
    have e3 : ¬ j + 1 ≤ j := by omega
    simp [hk]
  · have e1 : ¬ j ≤ k := by omega
    have e0 : ¬ j < k := by omega
    have e2 : k ≤ j := by omega
    have e6 : ¬ (j - k = 0) := by omega
    have e3 : k + 1 ≤ j := by omega
    simp only [e1, if_false, e2, e6, decide_false, Bool.and_false, Bool.or_false, e3, decide_true,
      Bool.true_and]
    by_cases h4 : j = k + 1
    · subst h4
      by_cases h5 : k + 1 < 32
      · simp [h5]
      · have := hi 0 (by omega)
        simp [h5, this]
    · have e7 : ¬ j ≤ k + 1 := by omega
      have e8 : ¬ (j - (k + 1) = 0) := by omega
      have e9 : j - (k + 1 + 1) + 1 = j - (k + 1) := by omega
      simp [e7, e8, e9]

theorem idx_succ_lt_of_left {k i : Nat} (hx : idx (k + 1) i < 2 ^ 32) : k < 32 := by
  have := idx_lt_pow hx; omega

theorem left_idx {k i : Nat} (hx : idx (k + 1) i < 2 ^ 32) : left (idx (k + 1) i) = some (idx k (2 * i)) := by
  have hk : k < 32 := idx_succ_lt_of_left hx
  unfold left
  simp only
  rw [level_idx _ _ (by omega), if_neg (by omega)]
  congr 1
  have hk1 : k + 1 - 1 = k := by omega
  rw [hk1, shl32_one hk]
  apply Nat.eq_of_testBit_eq
  intro j
  rw [Nat.testBit_xor, Nat.testBit_two_pow, idx_testBit, idx_testBit]
  rcases Nat.lt_trichotomy j k with h | h | h
  · have e1 : j ≤ k + 1 := by omega
    have e2 : j ≤ k := by omega
    have e3 : ¬ k = j := by omega
    have e4 : j < k + 1 := by omega
    simp [e1, e2, e3, e4, h]
  · subst h; simp
  · have e2 : ¬ j ≤ k := by omega
    have e3 : ¬ k = j := by omega
    simp only [e2, if_false, e3, decide_false, Bool.xor_false]
    by_cases h4 : j = k + 1
    · subst h4
      simp
    · have e7 : ¬ j ≤ k + 1 := by omega
      simp only [e7, if_false]
      have e9 : j - (k + 1) = (j - (k + 1 + 1)) + 1 := by omega
      rw [e9, Nat.testBit_succ]
      congr 1
      omega

theorem right_idx {k i : Nat} (hk : k < 31) :
    right (idx (k + 1) i) = some (idx k (2 * i + 1)) := by
  unfold right
  simp only
  rw [level_idx _ _ (by omega), if_neg (by omega)]
  congr 1
  have hk1 : k + 1 - 1 = k := by omega
  rw [hk1]
  have h3 : ∀ m, (3 : Nat).testBit m = decide (m < 2) := fun m => Nat.testBit_two_pow_sub_one 2 m
  apply Nat.eq_of_testBit_eq
  intro j
  rw [Nat.testBit_xor, shl32_testBit, h3, idx_testBit, idx_testBit]
  rcases Nat.lt_trichotomy j k with h | h | h
  · have e1 : j ≤ k + 1 := by omega
    have e2 : j ≤ k := by omega
    have e3 : ¬ k ≤ j := by omega
    have e4 : j < k + 1 := by omega
    simp [e1, e2, e3, e4, h]
  · subst h
    have : j < 32 := by omega
    simp [this]
  · have e2 : ¬ j ≤ k := by omega
    simp only [e2, if_false]
    by_cases h4 : j = k + 1
    · subst h4
      have : k + 1 < 32 := by omega
      simp [this]
    · have e7 : ¬ j ≤ k + 1 := by omega
      have e8 : ¬ (j - k < 2) := by omega
      simp only [e7, if_false, e8, decide_false, Bool.and_false, Bool.xor_false]
      have e9 : j - (k + 1) = (j - (k + 1 + 1)) + 1 := by omega
      rw [e9, Nat.testBit_succ]
      congr 1
      omega

/-! ### The perfect tree -/

theorem perfect_succ (d i : Nat) : ITree.perfect (d + 1) (i * 2 ^ (d + 2)) =
    .node (ITree.perfect d (2 * i * 2 ^ (d + 1))) (idx (d + 1) i)
      (ITree.perfect d ((2 * i + 1) * 2 ^ (d + 1))) := by
  have h1 : i * 2 ^ (d + 2) = 2 * i * 2 ^ (d + 1) := by ring
  have h2 : i * 2 ^ (d + 2) + 2 ^ (d + 1) = (2 * i + 1) * 2 ^ (d + 1) := by ring
  rw [ITree.perfect, h2, h1]
  unfold idx
  rw [show d + 1 + 1 = d + 2 from rfl, h1]

theorem perfect_top (d i : Nat) : (ITree.perfect d (i * 2 ^ (d + 1))).top = idx d i := by
  cases d with
  | zero => simp [ITree.perfect, ITree.top, idx]
  | succ d => rw [perfect_succ]; rfl

theorem mem_perfect (d i y : Nat) : ITree.Mem y (ITree.perfect d (i * 2 ^ (d + 1))) ↔
    ∃ k j, k ≤ d ∧ j / 2 ^ (d - k) = i ∧ y = idx k j := by
  induction d generalizing i with
  | zero =>
    constructor
    · intro h
      cases h
      exact ⟨0, i, Nat.le_refl _, by simp, by simp [idx]⟩
    · rintro ⟨k, j, hk, hj, rfl⟩
      have hk : k = 0 := by omega
      subst hk
      simp only [Nat.sub_zero, Nat.pow_zero, Nat.div_one] at hj
      subst hj
      simp only [idx, Nat.pow_zero, Nat.sub_self, Nat.add_zero]
      exact ITree.Mem.leaf _
  | succ d ih =>
    rw [perfect_succ]
    constructor
    · intro h
      cases h with
      | here => exact ⟨d + 1, i, Nat.le_refl _, by simp, rfl⟩
      | inl _ _ h =>
        obtain ⟨k, j, hk, hj, rfl⟩ := (ih _).1 h
        refine ⟨k, j, by omega, ?_, rfl⟩
        rw [show d + 1 - k = (d - k) + 1 from by omega, Nat.pow_succ, ← Nat.div_div_eq_div_mul, hj]
        omega
      | inr _ _ h =>
        obtain ⟨k, j, hk, hj, rfl⟩ := (ih _).1 h
        refine ⟨k, j, by omega, ?_, rfl⟩
        rw [show d + 1 - k = (d - k) + 1 from by omega, Nat.pow_succ, ← Nat.div_div_eq_div_mul, hj]
        omega
    · rintro ⟨k, j, hk, hj, rfl⟩
      by_cases h : k = d + 1
      · subst h
        simp only [Nat.sub_self, Nat.pow_zero, Nat.div_one] at hj
        subst hj
        exact ITree.Mem.here _ _ _
      · have hj' : j / 2 ^ (d - k) / 2 = i := by
          rw [Nat.div_div_eq_div_mul, ← Nat.pow_succ, Nat.succ_eq_add_one, show d - k + 1 = d + 1 - k from by omega]
          exact hj
        have hc : j / 2 ^ (d - k) = 2 * i ∨ j / 2 ^ (d - k) = 2 * i + 1 := by omega
        rcases hc with hc | hc
        · exact ITree.Mem.inl _ _ ((ih _).2 ⟨k, j, by omega, hc, rfl⟩)
        · exact ITree.Mem.inr _ _ ((ih _).2 ⟨k, j, by omega, hc, rfl⟩)

/-- Position of an index with respect to a level. -/
theorem idx_range (k j : Nat) : j * 2 ^ (k + 1) ≤ idx k j ∧ idx k j < (j + 1) * 2 ^ (k + 1) - 1 := by
  have hp : 0 < 2 ^ k := Nat.two_pow_pos k
  unfold idx
  rw [Nat.add_mul, Nat.one_mul, Nat.pow_succ]
  omega

/-- The numbers of a perfect tree are consecutive. -/
theorem mem_perfect_range (d i y : Nat) : ITree.Mem y (ITree.perfect d (i * 2 ^ (d + 1))) ↔
    i * 2 ^ (d + 1) ≤ y ∧ y < (i + 1) * 2 ^ (d + 1) - 1 := by
  rw [mem_perfect]
  constructor
  · rintro ⟨k, j, hk, hj, rfl⟩
    have hd : idx k j / 2 ^ (d + 1) = i := by rw [idx_div k j d hk, hj]
    have hp : 0 < 2 ^ (d + 1) := Nat.two_pow_pos _
    have h1 := Nat.div_mul_le_self (idx k j) (2 ^ (d + 1))
    have h2 := Nat.lt_div_mul_add (a := idx k j) hp
    rw [hd] at h1 h2
    refine ⟨h1, ?_⟩
    rw [Nat.add_mul, Nat.one_mul]
    have hne : idx k j + 1 ≠ i * 2 ^ (d + 1) + 2 ^ (d + 1) := by
      intro he
      have hq : idx k j + 1 = (i + 1) * 2 ^ (d - k) * 2 ^ (k + 1) := by
        rw [he, Nat.mul_assoc, ← Nat.pow_add, show d - k + (k + 1) = d + 1 from by omega]
        ring
      have hpk : 0 < 2 ^ k := Nat.two_pow_pos k
      unfold idx at hq
      have h3 : j * 2 ^ (k + 1) + 2 ^ k = (i + 1) * 2 ^ (d - k) * 2 ^ (k + 1) := by omega
      have h4 : (j * 2 ^ (k + 1) + 2 ^ k) % 2 ^ (k + 1) = 0 := by rw [h3]; simp
      rw [Nat.mul_add_mod_self_right, Nat.mod_eq_of_lt (Nat.pow_lt_pow_right (by decide) (by omega))] at h4
      omega
    omega
  · rintro ⟨h1, h2⟩
    obtain ⟨k, j, rfl⟩ := exists_idx y
    have hp : 0 < 2 ^ (d + 1) := Nat.two_pow_pos _
    have hk : k ≤ d := by
      by_contra hk
      -- the low d+1 bits are all ones
      have hr : idx k j % 2 ^ (d + 1) = 2 ^ (d + 1) - 1 := by
        apply Nat.eq_of_testBit_eq
        intro b
        rw [Nat.testBit_mod_two_pow, idx_testBit, Nat.testBit_two_pow_sub_one]
        by_cases hb : b < d + 1
        · have e1 : b ≤ k := by omega
          have e2 : b < k := by omega
          simp [hb, e1, e2]
        · simp [hb]
      have hq := Nat.div_add_mod (idx k j) (2 ^ (d + 1))
      rw [hr] at hq
      have hlow : i ≤ idx k j / 2 ^ (d + 1) := (Nat.le_div_iff_mul_le hp).2 h1
      have := Nat.mul_le_mul_left (2 ^ (d + 1)) hlow
      rw [Nat.mul_comm] at this
      rw [Nat.add_mul, Nat.one_mul] at h2
      omega
    refine ⟨k, j, hk, ?_, rfl⟩
    rw [← idx_div k j d hk]
    apply Nat.div_eq_of_lt_le
    · exact h1
    · omega

theorem edge_perfect {d i p a b : Nat} (h : ITree.Edge (ITree.perfect d (i * 2 ^ (d + 1))) p a b) :
    ∃ k j, k < d ∧ j / 2 ^ (d - (k + 1)) = i ∧ p = idx (k + 1) j ∧ a = idx k (2 * j) ∧ b = idx k (2 * j + 1) := by
  induction d generalizing i with
  | zero => cases h
  | succ d ih =>
    rw [perfect_succ] at h
    cases h with
    | here => exact ⟨d, i, by omega, by simp, rfl, perfect_top _ _, perfect_top _ _⟩
    | inl _ _ h =>
      obtain ⟨k, j, hk, hj, e⟩ := ih h
      refine ⟨k, j, by omega, ?_, e⟩
      rw [show d + 1 - (k + 1) = (d - (k + 1)) + 1 from by omega, Nat.pow_succ, ← Nat.div_div_eq_div_mul, hj]
      omega
    | inr _ _ h =>
      obtain ⟨k, j, hk, hj, e⟩ := ih h
      refine ⟨k, j, by omega, ?_, e⟩
      rw [show d + 1 - (k + 1) = (d - (k + 1)) + 1 from by omega, Nat.pow_succ, ← Nat.div_div_eq_div_mul, hj]
      omega

theorem edge_perfect_of {d i k j : Nat} (hk : k < d) (hj : j / 2 ^ (d - (k + 1)) = i) :
    ITree.Edge (ITree.perfect d (i * 2 ^ (d + 1))) (idx (k + 1) j) (idx k (2 * j)) (idx k (2 * j + 1)) := by
  induction d generalizing i with
  | zero => omega
  | succ d ih =>
    rw [perfect_succ]
    by_cases h : k = d
    · subst h
      simp only [Nat.sub_self, Nat.pow_zero, Nat.div_one] at hj
      subst hj
      have := ITree.Edge.here (ITree.perfect k (2 * j * 2 ^ (k + 1))) (idx (k + 1) j)
        (ITree.perfect k ((2 * j + 1) * 2 ^ (k + 1)))
      rwa [perfect_top, perfect_top] at this
    · have hj' : j / 2 ^ (d - (k + 1)) / 2 = i := by
        rw [Nat.div_div_eq_div_mul, ← Nat.pow_succ, Nat.succ_eq_add_one, show d - (k + 1) + 1 = d + 1 - (k + 1) from by omega]
        exact hj
      have hc : j / 2 ^ (d - (k + 1)) = 2 * i ∨ j / 2 ^ (d - (k + 1)) = 2 * i + 1 := by omega
      rcases hc with hc | hc
      · exact ITree.Edge.inl _ _ (ih (by omega) hc)
      · exact ITree.Edge.inr _ _ (ih (by omega) hc)

/-! ### Root, width, log2 -/

theorem log2Loop_eq (x d : Nat) (h1 : 2 ^ d ≤ x) (h2 : x < 2 ^ (d + 1)) (fuel k : Nat) (hk : k ≤ d + 1)
    (hf : d + 1 < k + fuel) : log2Loop x fuel k = d + 1 := by
  induction fuel generalizing k with
  | zero => omega
  | succ fuel ih =>
    unfold log2Loop
    rw [Nat.shiftRight_eq_div_pow]
    by_cases h : k ≤ d
    · have : 0 < x / 2 ^ k := Nat.div_pos (Nat.le_trans (Nat.pow_le_pow_right (by decide) h) h1) (Nat.two_pow_pos k)
      rw [if_pos this]
      exact ih (k + 1) (by omega) (by omega)
    · have hk' : k = d + 1 := by omega
      subst hk'
      rw [Nat.div_eq_of_lt h2, if_neg (by omega)]

theorem log2_eq {x d : Nat} (h1 : 2 ^ d ≤ x) (h2 : x < 2 ^ (d + 1)) (hd : d < 32) : log2 x = d := by
  have hp : 0 < 2 ^ d := Nat.two_pow_pos d
  unfold log2
  rw [if_neg (by omega), log2Loop_eq x d h1 h2 33 0 (by omega) (by omega)]
  omega

theorem width_pow {d : Nat} (hd : d ≤ 31) : width (2 ^ d) = 2 ^ (d + 1) - 1 := by
  have hp : 0 < 2 ^ d := Nat.two_pow_pos d
  have h31 : 2 ^ d ≤ 2 ^ 31 := Nat.pow_le_pow_right (by decide) hd
  unfold width
  rw [if_neg (by omega), Nat.pow_succ, Nat.mod_eq_of_lt (by omega)]
  omega

theorem root_pow {d : Nat} (hd : d ≤ 31) : root (2 ^ d) = 2 ^ d - 1 := by
  have hp : 0 < 2 ^ d := Nat.two_pow_pos d
  unfold root
  rw [width_pow hd, log2_eq (d := d) (by rw [Nat.pow_succ]; omega) (by omega) (by omega), shl32_one (by omega)]

theorem root_idx {d : Nat} (hd : d ≤ 31) : root (2 ^ d) = idx d 0 := by
  rw [root_pow hd]; unfold idx; simp

theorem idx_lt_of_pos {d k j : Nat} (hd : d ≤ 31) (hk : k ≤ d) (hj : j / 2 ^ (d - k) = 0) :
    idx k j < 2 ^ 32 - 1 := by
  have h1 := (mem_perfect d 0 (idx k j)).2 ⟨k, j, hk, hj, rfl⟩
  have h2 := ((mem_perfect_range d 0 _).1 h1).2
  have : 2 ^ (d + 1) ≤ 2 ^ 32 := Nat.pow_le_pow_right (by decide) (by omega)
  omega

/-! ### Parent, children, sibling -/

theorem parent_idx {d k j : Nat} (hd : d ≤ 31) (hk : k < d) (hj : j / 2 ^ (d - k) = 0) :
    parent (2 ^ d) (idx k j) = some (idx (k + 1) (j / 2)) := by
  unfold parent
  rw [root_idx hd, if_neg (by intro h; have := (idx_inj h).1; omega)]
  have := idx_lt_of_pos hd (by omega) hj
  rw [parentRaw_idx (by omega) (by omega)]

theorem parent_root {d : Nat} (hd : d ≤ 31) : parent (2 ^ d) (idx d 0) = none := by
  unfold parent
  rw [root_idx hd, if_pos rfl]

theorem idx_left_lt (k j : Nat) : idx k (2 * j) < idx (k + 1) j := by
  have hp : 0 < 2 ^ k := Nat.two_pow_pos k
  unfold idx
  rw [Nat.pow_succ 2 (k + 1), Nat.pow_succ 2 k]
  have : 2 * j * (2 ^ k * 2) = j * (2 ^ k * 2 * 2) := by ring
  omega

theorem idx_right_gt (k j : Nat) : idx (k + 1) j < idx k (2 * j + 1) := by
  have hp : 0 < 2 ^ k := Nat.two_pow_pos k
  unfold idx
  rw [Nat.pow_succ 2 (k + 1), Nat.pow_succ 2 k]
  have : (2 * j + 1) * (2 ^ k * 2) = j * (2 ^ k * 2 * 2) + 2 ^ k * 2 := by ring
  omega

theorem sibling_idx {d k j : Nat} (hd : d ≤ 31) (hk : k < d) (hj : j / 2 ^ (d - k) = 0) :
    sibling (2 ^ d) (idx k j) = some (idx k (if j % 2 = 0 then j + 1 else j - 1)) := by
  unfold sibling
  rw [parent_idx hd hk hj]
  simp only
  have hj2 : j / 2 / 2 ^ (d - (k + 1)) = 0 := by
    rw [Nat.div_div_eq_div_mul, Nat.mul_comm, ← Nat.pow_succ, Nat.succ_eq_add_one, show d - (k + 1) + 1 = d - k from by omega]
    exact hj
  have hlt := idx_lt_of_pos hd (k := k + 1) (by omega) hj2
  by_cases h : j % 2 = 0
  · have e : j = 2 * (j / 2) := by omega
    have h1 := idx_left_lt k (j / 2)
    rw [← e] at h1
    rw [if_pos h1, right_idx (by omega), if_pos h, ← e]
  · have e : j = 2 * (j / 2) + 1 := by omega
    have h1 := idx_right_gt k (j / 2)
    rw [← e] at h1
    rw [if_neg (by omega), left_idx (by omega), if_neg h]
    congr 2
    omega

/-! ### Direct paths and copaths -/

/-- Ancestors of the node (k, j) up to level `m`. -/
def upPath : Nat → Nat → Nat → List Nat
  | 0, _, _ => []
  | m + 1, k, j => idx (k + 1) (j / 2) :: upPath m (k + 1) (j / 2)

theorem upPath_length (m k j : Nat) : (upPath m k j).length = m := by
  induction m generalizing k j with
  | zero => rfl
  | succ m ih => simp [upPath, ih]

theorem upPath_snoc (m k j : Nat) : upPath (m + 1) k j = upPath m k j ++ [idx (k + m + 1) (j / 2 ^ (m + 1))] := by
  induction m generalizing k j with
  | zero => simp [upPath]
  | succ m ih =>
    rw [upPath, ih (k + 1) (j / 2)]
    rw [upPath, List.cons_append]
    congr 3
    rw [show k + 1 + m + 1 = k + (m + 1) + 1 from by omega, Nat.div_div_eq_div_mul, Nat.pow_succ 2 (m + 1), Nat.mul_comm 2]

theorem directPathLoop_idx {d : Nat} (hd : d ≤ 31) (m k j fuel : Nat) (hm : k + m = d)
    (hj : j / 2 ^ m = 0) (hf : m < fuel) : directPathLoop (2 ^ d) fuel (idx k j) = .ok (upPath m k j) := by
  induction fuel generalizing m k j with
  | zero => omega
  | succ fuel ih =>
    unfold directPathLoop
    cases m with
    | zero =>
      have hk : k = d := by omega
      have hj0 : j = 0 := by simpa using hj
      subst hk hj0
      rw [parent_root hd]
      rfl
    | succ m =>
      rw [parent_idx hd (by omega) (by rw [show d - k = m + 1 from by omega]; exact hj)]
      simp only
      have hj2 : j / 2 / 2 ^ m = 0 := by
        rw [Nat.div_div_eq_div_mul, Nat.mul_comm, ← Nat.pow_succ]; exact hj
      rw [ih m (k + 1) (j / 2) (by omega) hj2 (by omega)]
      rfl

theorem directPath_idx {d k j : Nat} (hd : d ≤ 31) (hk : k ≤ d) (hj : j / 2 ^ (d - k) = 0) :
    directPath (2 ^ d) (idx k j) = .ok (upPath (d - k) k j) :=
  directPathLoop_idx hd (d - k) k j 64 (by omega) hj (by omega)


theorem div_half {j m : Nat} : j / 2 ^ (m + 1) = j / 2 / 2 ^ m := by
  rw [Nat.div_div_eq_div_mul, Nat.mul_comm, ← Nat.pow_succ]

theorem div_half' {j m : Nat} : j / 2 ^ (m + 1) = j / 2 ^ m / 2 := by
  rw [Nat.div_div_eq_div_mul, ← Nat.pow_succ]

theorem ancestors_none {t : ITree} {y : Nat} (h : ¬ ITree.Mem y t) : t.ancestors y = none := by
  induction t with
  | leaf x =>
    simp only [ITree.ancestors]
    rw [if_neg]
    rintro rfl
    exact h (ITree.Mem.leaf _)
  | node l x r ihl ihr =>
    simp only [ITree.ancestors]
    rw [if_neg, ihl (fun hm => h (ITree.Mem.inl _ _ hm)), ihr (fun hm => h (ITree.Mem.inr _ _ hm))]
    · rfl
    · rintro rfl
      exact h (ITree.Mem.here _ _ _)

theorem siblingTrees_none {t : ITree} {y : Nat} (h : ¬ ITree.Mem y t) : t.siblingTrees y = none := by
  induction t with
  | leaf x =>
    simp only [ITree.siblingTrees]
    rw [if_neg]
    rintro rfl
    exact h (ITree.Mem.leaf _)
  | node l x r ihl ihr =>
    simp only [ITree.siblingTrees]
    rw [if_neg, ihl (fun hm => h (ITree.Mem.inl _ _ hm)), ihr (fun hm => h (ITree.Mem.inr _ _ hm))]
    · rfl
    · rintro rfl
      exact h (ITree.Mem.here _ _ _)

theorem not_mem_other {d i k j : Nat} (hj : j / 2 ^ (d - k) ≠ i) :
    ¬ ITree.Mem (idx k j) (ITree.perfect d (i * 2 ^ (d + 1))) := by
  rw [mem_perfect]
  rintro ⟨k', j', _, hj', he⟩
  obtain ⟨rfl, rfl⟩ := idx_inj he
  exact hj hj'

theorem ancestors_perfect {d i k j : Nat} (hk : k ≤ d) (hj : j / 2 ^ (d - k) = i) :
    (ITree.perfect d (i * 2 ^ (d + 1))).ancestors (idx k j) = some (upPath (d - k) k j) := by
  induction d generalizing i with
  | zero =>
    have hk0 : k = 0 := by omega
    subst hk0
    simp only [Nat.sub_zero, Nat.pow_zero, Nat.div_one] at hj
    subst hj
    simp [ITree.perfect, ITree.ancestors, idx, upPath]
  | succ d ih =>
    rw [perfect_succ]
    simp only [ITree.ancestors]
    by_cases hkd : k = d + 1
    · subst hkd
      simp only [Nat.sub_self, Nat.pow_zero, Nat.div_one] at hj
      subst hj
      rw [if_pos rfl, Nat.sub_self]
      rfl
    · rw [if_neg (fun he => hkd (idx_inj he).1)]
      have hm : d + 1 - k = (d - k) + 1 := by omega
      rw [hm] at hj ⊢
      have hj' := hj
      rw [div_half'] at hj'
      have hsn := upPath_snoc (d - k) k j
      rw [hj, show k + (d - k) + 1 = d + 1 from by omega] at hsn
      rw [hsn]
      by_cases hc : j / 2 ^ (d - k) = 2 * i
      · rw [ih (by omega) hc]
      · rw [ancestors_none (not_mem_other hc), ih (i := 2 * i + 1) (by omega) (by omega)]
        rfl

/-- The sibling position. -/
def sibPos (j : Nat) : Nat := if j % 2 = 0 then j + 1 else j - 1

/-- The subtrees hanging off the path of the node (k, j). -/
def upSib : Nat → Nat → Nat → List ITree
  | 0, _, _ => []
  | m + 1, k, j => ITree.perfect k (sibPos j * 2 ^ (k + 1)) :: upSib m (k + 1) (j / 2)

theorem upSib_snoc (m k j : Nat) : upSib (m + 1) k j =
    upSib m k j ++ [ITree.perfect (k + m) (sibPos (j / 2 ^ m) * 2 ^ (k + m + 1))] := by
  induction m generalizing k j with
  | zero => simp [upSib]
  | succ m ih =>
    rw [upSib, ih (k + 1) (j / 2)]
    rw [upSib, List.cons_append]
    rw [show k + 1 + m = k + (m + 1) from by omega, div_half]

theorem siblingTrees_perfect {d i k j : Nat} (hk : k ≤ d) (hj : j / 2 ^ (d - k) = i) :
    (ITree.perfect d (i * 2 ^ (d + 1))).siblingTrees (idx k j) = some (upSib (d - k) k j) := by
  induction d generalizing i with
  | zero =>
    have hk0 : k = 0 := by omega
    subst hk0
    simp only [Nat.sub_zero, Nat.pow_zero, Nat.div_one] at hj
    subst hj
    simp [ITree.perfect, ITree.siblingTrees, idx, upSib]
  | succ d ih =>
    rw [perfect_succ]
    simp only [ITree.siblingTrees]
    by_cases hkd : k = d + 1
    · subst hkd
      simp only [Nat.sub_self, Nat.pow_zero, Nat.div_one] at hj
      subst hj
      rw [if_pos rfl, Nat.sub_self]
      rfl
    · rw [if_neg (fun he => hkd (idx_inj he).1)]
      have hm : d + 1 - k = (d - k) + 1 := by omega
      rw [hm] at hj ⊢
      have hj' := hj
      rw [div_half'] at hj'
      have hsn := upSib_snoc (d - k) k j
      rw [show k + (d - k) = d from by omega] at hsn
      rw [hsn]
      by_cases hc : j / 2 ^ (d - k) = 2 * i
      · rw [ih (by omega) hc]
        simp only [hc, sibPos]
        rw [if_pos (by omega)]
      · have hc2 : j / 2 ^ (d - k) = 2 * i + 1 := by omega
        rw [siblingTrees_none (not_mem_other hc), ih (i := 2 * i + 1) (by omega) hc2]
        simp only [hc2, sibPos]
        rw [if_neg (by omega)]
        rfl

/-- The node (k, j) and its ancestors below level `k + m`. -/
def selfPath : Nat → Nat → Nat → List Nat
  | 0, _, _ => []
  | m + 1, k, j => idx k j :: selfPath m (k + 1) (j / 2)

theorem dropLast_upPath (m k j : Nat) : (idx k j :: upPath m k j).dropLast = selfPath m k j := by
  induction m generalizing k j with
  | zero => rfl
  | succ m ih =>
    rw [upPath, selfPath, ← ih (k + 1) (j / 2)]
    rfl

theorem copathLoop_idx {d : Nat} (hd : d ≤ 31) (m k j : Nat) (hm : k + m = d) (hj : j / 2 ^ m = 0) :
    copathLoop (2 ^ d) (selfPath m k j) = .ok ((upSib m k j).map ITree.top) := by
  induction m generalizing k j with
  | zero => rfl
  | succ m ih =>
    simp only [copathLoop, selfPath]
    rw [sibling_idx hd (by omega) (by rw [show d - k = m + 1 from by omega]; exact hj)]
    simp only
    rw [ih (k + 1) (j / 2) (by omega) (by rw [← div_half]; exact hj)]
    simp only [Res.bind, upSib, List.map_cons, perfect_top]
    rfl

theorem copath_idx {d k j : Nat} (hd : d ≤ 31) (hk : k ≤ d) (hj : j / 2 ^ (d - k) = 0) :
    copath (2 ^ d) (idx k j) = .ok ((upSib (d - k) k j).map ITree.top) := by
  unfold copath
  rw [directPath_idx hd hk hj]
  simp only [Res.bind]
  by_cases h : (upPath (d - k) k j).length = 0
  · rw [if_pos h]
    rw [upPath_length] at h
    rw [h]
    rfl
  · rw [if_neg h, dropLast_upPath, copathLoop_idx hd (d - k) k j (by omega) hj]

/-! ### Nodes outside the tree -/

theorem parent_outside {d x : Nat} (hd : d ≤ 31) (hx : x < 2 ^ 32) (hw : 2 ^ (d + 1) - 1 ≤ x) :
    ∃ p, parent (2 ^ d) x = some p ∧ p < 2 ^ 32 ∧ 2 ^ (d + 1) - 1 ≤ p := by
  have hp : 0 < 2 ^ d := Nat.two_pow_pos d
  have hroot : x ≠ root (2 ^ d) := by
    rw [root_pow hd]
    rw [Nat.pow_succ] at hw
    omega
  unfold parent
  rw [if_neg hroot]
  refine ⟨_, rfl, ?_⟩
  obtain ⟨k, j, rfl⟩ := exists_idx x
  have hk : k ≤ 32 := by
    by_contra hk
    have := (idx_range k j).1
    have h2 : 2 ^ 33 ≤ 2 ^ k := Nat.pow_le_pow_right (by decide) (by omega)
    unfold idx at hx
    omega
  by_cases hk32 : k = 32
  · subst hk32
    have hj : j = 0 := by
      unfold idx at hx
      omega
    subst hj
    have : parentRaw (idx 32 0) = 2 ^ 32 - 1 := by decide
    rw [this]
    have : 2 ^ (d + 1) ≤ 2 ^ 32 := Nat.pow_le_pow_right (by decide) (by omega)
    omega
  · rw [parentRaw_idx hx (by omega)]
    have hj : j / 2 ^ (31 - k) = 0 := by
      rw [← idx_div k j 31 (by omega)]
      exact Nat.div_eq_of_lt hx
    constructor
    · by_cases hk31 : k = 31
      · subst hk31
        simp only [Nat.sub_self, Nat.pow_zero, Nat.div_one] at hj
        subst hj
        decide
      · have h := idx_div (k + 1) (j / 2) 31 (by omega)
        rw [← div_half, show 31 - (k + 1) + 1 = 31 - k from by omega, hj] at h
        exact (Nat.div_eq_zero_iff_lt (by decide)).1 h
    · by_contra hlt
      have hm : ITree.Mem (idx (k + 1) (j / 2)) (ITree.perfect d (0 * 2 ^ (d + 1))) := by
        rw [mem_perfect_range]
        omega
      obtain ⟨k', j', hk', hj', he⟩ := (mem_perfect _ _ _).1 hm
      obtain ⟨rfl, rfl⟩ := idx_inj he
      have hm2 : ITree.Mem (idx k j) (ITree.perfect d (0 * 2 ^ (d + 1))) := by
        rw [mem_perfect]
        refine ⟨k, j, by omega, ?_, rfl⟩
        rw [← div_half, show d - (k + 1) + 1 = d - k from by omega] at hj'
        exact hj'
      have := ((mem_perfect_range _ _ _).1 hm2).2
      omega

/-- Outside the tree the direct path never ends: the loop runs out of any amount of fuel. -/
theorem directPath_hang {d x : Nat} (hd : d ≤ 31) (hx : x < 2 ^ 32) (hw : 2 ^ (d + 1) - 1 ≤ x) (fuel : Nat) :
    directPathLoop (2 ^ d) fuel x = .hang := by
  induction fuel generalizing x with
  | zero => rfl
  | succ fuel ih =>
    obtain ⟨p, hp, hp1, hp2⟩ := parent_outside hd hx hw
    unfold directPathLoop
    rw [hp]
    simp only
    rw [ih hp1 hp2]
    rfl

/-! ### Subtrees -/

theorem sub_perfect {d i : Nat} {s : ITree} (h : ITree.Sub s (ITree.perfect d (i * 2 ^ (d + 1)))) :
    ∃ k j, k ≤ d ∧ j / 2 ^ (d - k) = i ∧ s = ITree.perfect k (j * 2 ^ (k + 1)) := by
  induction d generalizing i with
  | zero =>
    refine ⟨0, i, Nat.le_refl _, by simp, ?_⟩
    cases h
    rfl
  | succ d ih =>
    rw [perfect_succ] at h
    cases h with
    | refl => exact ⟨d + 1, i, Nat.le_refl _, by simp, (perfect_succ d i).symm⟩
    | inl _ _ h =>
      obtain ⟨k, j, hk, hj, e⟩ := ih h
      refine ⟨k, j, by omega, ?_, e⟩
      rw [show d + 1 - k = (d - k) + 1 from by omega, div_half', hj]
      omega
    | inr _ _ h =>
      obtain ⟨k, j, hk, hj, e⟩ := ih h
      refine ⟨k, j, by omega, ?_, e⟩
      rw [show d + 1 - k = (d - k) + 1 from by omega, div_half', hj]
      omega

theorem sub_perfect_of {d i k j : Nat} (hk : k ≤ d) (hj : j / 2 ^ (d - k) = i) :
    ITree.Sub (ITree.perfect k (j * 2 ^ (k + 1))) (ITree.perfect d (i * 2 ^ (d + 1))) := by
  induction d generalizing i with
  | zero =>
    have hk0 : k = 0 := by omega
    subst hk0
    simp only [Nat.sub_zero, Nat.pow_zero, Nat.div_one] at hj
    subst hj
    exact ITree.Sub.refl _
  | succ d ih =>
    by_cases h : k = d + 1
    · subst h
      simp only [Nat.sub_self, Nat.pow_zero, Nat.div_one] at hj
      subst hj
      exact ITree.Sub.refl _
    · rw [perfect_succ]
      rw [show d + 1 - k = (d - k) + 1 from by omega, div_half'] at hj
      by_cases hc : j / 2 ^ (d - k) = 2 * i
      · exact ITree.Sub.inl _ _ (ih (by omega) hc)
      · exact ITree.Sub.inr _ _ (ih (by omega) (by omega))

theorem siblingTrees_perm {t : ITree} {y : Nat} {ts : List ITree} (h : t.siblingTrees y = some ts) :
    ∃ s, ITree.Sub s t ∧ s.top = y ∧ (s.leaves ++ ts.flatMap ITree.leaves).Perm t.leaves := by
  induction t generalizing ts with
  | leaf x =>
    simp only [ITree.siblingTrees] at h
    split at h
    · next hx =>
      cases h
      exact ⟨.leaf x, ITree.Sub.refl _, hx.symm, by simp [ITree.leaves]⟩
    · cases h
  | node l x r ihl ihr =>
    simp only [ITree.siblingTrees] at h
    split at h
    · next hx =>
      cases h
      exact ⟨.node l x r, ITree.Sub.refl _, hx.symm, by simp⟩
    · split at h
      · next p hp =>
        cases h
        obtain ⟨s, hs, ht, hperm⟩ := ihl hp
        refine ⟨s, ITree.Sub.inl _ _ hs, ht, ?_⟩
        rw [List.flatMap_append, ← List.append_assoc]
        simp only [List.flatMap_cons, List.flatMap_nil, List.append_nil, ITree.leaves]
        exact hperm.append_right _
      · rw [Option.map_eq_some_iff] at h
        obtain ⟨p, hp, rfl⟩ := h
        obtain ⟨s, hs, ht, hperm⟩ := ihr hp
        refine ⟨s, ITree.Sub.inr _ _ hs, ht, ?_⟩
        rw [List.flatMap_append, ← List.append_assoc]
        simp only [List.flatMap_cons, List.flatMap_nil, List.append_nil, ITree.leaves]
        exact (hperm.append_right _).trans List.perm_append_comm

theorem leaves_perfect (d i : Nat) : (ITree.perfect d (i * 2 ^ (d + 1))).leaves =
    (List.range' (i * 2 ^ d) (2 ^ d)).map (2 * ·) := by
  induction d generalizing i with
  | zero => simp [ITree.perfect, ITree.leaves, Nat.mul_comm]
  | succ d ih =>
    rw [perfect_succ]
    simp only [ITree.leaves, ih]
    rw [← List.map_append]
    congr 1
    rw [show i * 2 ^ (d + 1) = 2 * i * 2 ^ d from by ring,
      show (2 * i + 1) * 2 ^ d = 2 * i * 2 ^ d + 2 ^ d from by ring, List.range'_append_1]
    congr 1
    ring

theorem inorder_perfect (d i : Nat) : (ITree.perfect d (i * 2 ^ (d + 1))).inorder =
    List.range' (i * 2 ^ (d + 1)) (2 ^ (d + 1) - 1) := by
  induction d generalizing i with
  | zero => simp [ITree.perfect, ITree.inorder]
  | succ d ih =>
    rw [perfect_succ]
    simp only [ITree.inorder, ih]
    have hp : 0 < 2 ^ (d + 1) := Nat.two_pow_pos _
    have e1 : i * 2 ^ (d + 1 + 1) = 2 * i * 2 ^ (d + 1) := by ring
    have e2 : idx (d + 1) i = 2 * i * 2 ^ (d + 1) + (2 ^ (d + 1) - 1) := by
      unfold idx; rw [e1]
    have e3 : (2 * i + 1) * 2 ^ (d + 1) = idx (d + 1) i + 1 := by
      rw [e2, Nat.add_mul]; omega
    rw [e3, ← List.range'_succ, e2, e1, List.range'_append_1]
    congr 1
    rw [Nat.pow_succ 2 (d + 1)]
    omega

/-! ### Common ancestors -/

theorem commonAncestorLoop_spec (K : Nat) (x y fuel k : Nat) (hk : k ≤ K)
    (hne : ∀ m, k ≤ m → m < K → x / 2 ^ m ≠ y / 2 ^ m) (heq : x / 2 ^ K = y / 2 ^ K) (hf : K < k + fuel) :
    commonAncestorLoop fuel (x / 2 ^ k) (y / 2 ^ k) k = (x / 2 ^ K, K) := by
  induction fuel generalizing k with
  | zero => omega
  | succ fuel ih =>
    unfold commonAncestorLoop
    by_cases h : k = K
    · subst h
      rw [if_pos heq]
    · rw [if_neg (hne k (Nat.le_refl _) (by omega)), ← div_half', ← div_half']
      exact ih (k + 1) (by omega) (fun m hm => hne m (by omega)) (by omega)

theorem div_pow_mono {x y a b : Nat} (hab : a ≤ b) (h : x / 2 ^ a = y / 2 ^ a) : x / 2 ^ b = y / 2 ^ b := by
  obtain ⟨c, rfl⟩ := Nat.exists_eq_add_of_le hab
  rw [Nat.pow_add, ← Nat.div_div_eq_div_mul, ← Nat.div_div_eq_div_mul, h]

theorem commonAncestor_idx {k i m j : Nat} (hx : idx k i < 2 ^ 32 - 1) (hy : idx m j < 2 ^ 32 - 1) :
    ∃ L, k ≤ L ∧ m ≤ L ∧ idx k i / 2 ^ (L + 1) = idx m j / 2 ^ (L + 1) ∧
      (∀ L', k ≤ L' → m ≤ L' → idx k i / 2 ^ (L' + 1) = idx m j / 2 ^ (L' + 1) → L ≤ L') ∧
      commonAncestor (idx k i) (idx m j) = idx L (idx k i / 2 ^ (L + 1)) := by
  have lvl : ∀ k i, idx k i < 2 ^ 32 - 1 → k ≤ 31 := by
    intro k i h
    by_contra hk
    have h2 : 2 ^ 32 ≤ 2 ^ k := Nat.pow_le_pow_right (by decide) (by omega)
    unfold idx at h
    omega
  have hk := lvl k i hx
  have hm := lvl m j hy
  unfold commonAncestor
  simp only [level_idx k i (by omega), level_idx m j (by omega), Nat.shiftRight_eq_div_pow]
  by_cases h1 : k + 1 ≤ m + 1 ∧ idx k i / 2 ^ (m + 1) = idx m j / 2 ^ (m + 1)
  · refine ⟨m, by omega, Nat.le_refl _, h1.2, fun L' _ h _ => h, ?_⟩
    rw [if_pos h1, h1.2, idx_div m j m (Nat.le_refl _)]
    simp
  · rw [if_neg h1]
    by_cases h2 : m + 1 ≤ k + 1 ∧ idx k i / 2 ^ (k + 1) = idx m j / 2 ^ (k + 1)
    · refine ⟨k, Nat.le_refl _, by omega, h2.2, fun L' h _ _ => h, ?_⟩
      rw [if_pos h2, idx_div k i k (Nat.le_refl _)]
      simp
    · rw [if_neg h2]
      have h32 : idx k i / 2 ^ 32 = idx m j / 2 ^ 32 := by
        rw [Nat.div_eq_of_lt (by omega), Nat.div_eq_of_lt (by omega)]
      have hex : ∃ K, idx k i / 2 ^ K = idx m j / 2 ^ K := ⟨32, h32⟩
      let K := Nat.find hex
      have hK : idx k i / 2 ^ K = idx m j / 2 ^ K := Nat.find_spec hex
      have hmin : ∀ q, q < K → idx k i / 2 ^ q ≠ idx m j / 2 ^ q := fun q hq => Nat.find_min hex hq
      have hK32 : K ≤ 32 := Nat.find_min' hex h32
      have hKk : k + 1 < K ∧ m + 1 < K := by
        by_contra hlt
        by_cases hmk : m ≤ k
        · exact h2 ⟨by omega, div_pow_mono (a := K) (by omega) hK⟩
        · exact h1 ⟨by omega, div_pow_mono (a := K) (by omega) hK⟩
      have hl := commonAncestorLoop_spec K (idx k i) (idx m j) 33 0 (by omega)
        (fun q _ hq => hmin q hq) hK (by omega)
      simp only [Nat.pow_zero, Nat.div_one] at hl
      rw [hl]
      refine ⟨K - 1, by omega, by omega, ?_, ?_, ?_⟩
      · rw [show K - 1 + 1 = K from by omega]; exact hK
      · intro L' _ _ he
        by_contra hlt
        exact hmin (L' + 1) (by omega) he
      · simp only
        rw [show K - 1 + 1 = K from by omega, shl32_one (by omega)]
        have hs : shl32 (idx k i / 2 ^ K) K = idx k i / 2 ^ K * 2 ^ K := by
          unfold shl32
          have := Nat.div_mul_le_self (idx k i) (2 ^ K)
          rw [Nat.mod_eq_of_lt (by omega)]
        rw [hs]
        have hpos : 0 < 2 ^ (K - 1) := Nat.two_pow_pos _
        have e : 2 ^ K = 2 ^ (K - 1) * 2 := by rw [← Nat.pow_succ]; congr 1; omega
        have hle : 2 ^ (K - 1) ≤ 2 ^ 31 := Nat.pow_le_pow_right (by decide) (by omega)
        have hd := Nat.div_mul_le_self (idx k i) (2 ^ K)
        have hdef : ∀ q, idx (K - 1) q = q * 2 ^ K + (2 ^ (K - 1) - 1) := by
          intro q
          unfold idx
          rw [show K - 1 + 1 = K from by omega]
        have hub : idx k i / 2 ^ K * 2 ^ K + 2 ^ (K - 1) - 1 < 2 ^ 32 := by
          have hq : idx (K - 1) (idx k i / 2 ^ K) / 2 ^ 32 = 0 := by
            have := idx_div (K - 1) (idx k i / 2 ^ K) 31 (by omega)
            rw [this, Nat.div_div_eq_div_mul, ← Nat.pow_add, show K + (31 - (K - 1)) = 32 from by omega]
            exact Nat.div_eq_of_lt (by omega)
          have := (Nat.div_eq_zero_iff_lt (by decide)).1 hq
          rw [hdef] at this
          omega
        rw [hdef]
        omega

end Mls
