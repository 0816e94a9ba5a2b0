import Verif.Spec.Ratchet
import Verif.Proofs.TreeMath
import Verif.Proofs.Res
import Verif.Model.Tree
/-
Trees of Verif/Spec/Ratchet.lean inside arrays.
-/
namespace Mls

open Spec (Ratchet ITree)

variable {P N : Type}

/-- The node (m, y) is below or at the node (k, j). -/
def Below (k j m y : Nat) : Prop := m ≤ k ∧ y / 2 ^ (k - m) = j

theorem Below.refl (k j : Nat) : Below k j k j := ⟨Nat.le_refl _, by simp⟩

theorem Below.left {k j m y : Nat} (h : Below k (2 * j) m y) : Below (k + 1) j m y := by
  obtain ⟨h1, h2⟩ := h
  refine ⟨by omega, ?_⟩
  rw [show k + 1 - m = k - m + 1 from by omega, div_half', h2]
  omega

theorem Below.right {k j m y : Nat} (h : Below k (2 * j + 1) m y) : Below (k + 1) j m y := by
  obtain ⟨h1, h2⟩ := h
  refine ⟨by omega, ?_⟩
  rw [show k + 1 - m = k - m + 1 from by omega, div_half', h2]
  omega

theorem Below.cases {k j m y : Nat} (h : Below (k + 1) j m y) :
    (m = k + 1 ∧ y = j) ∨ Below k (2 * j) m y ∨ Below k (2 * j + 1) m y := by
  obtain ⟨h1, h2⟩ := h
  rcases Nat.lt_or_ge k m with hm | hm
  · have : m = k + 1 := by omega
    subst this
    simp at h2
    exact .inl ⟨rfl, h2⟩
  · rw [show k + 1 - m = k - m + 1 from by omega, div_half'] at h2
    have : y / 2 ^ (k - m) = 2 * j ∨ y / 2 ^ (k - m) = 2 * j + 1 := by omega
    rcases this with h | h
    · exact .inr (.inl ⟨hm, h⟩)
    · exact .inr (.inr ⟨hm, h⟩)

/-- The array `t` holds the tree `s` at the node of level `k` and position `j`. -/
def At (ml : LeafNode → N) (mp : P → N) (t : List (Option N)) : {k : Nat} → Nat → Ratchet P k → Prop
  | _, j, .leaf n => t[idx 0 j]? = some (n.map ml)
  | k + 1, j, .node p l r => t[idx (k + 1) j]? = some (p.map mp) ∧ At ml mp t (2 * j) l ∧ At ml mp t (2 * j + 1) r

theorem At.unique {ml : LeafNode → N} {mp : P → N} {t t' : List (Option N)} {k j : Nat} {s : Ratchet P k}
    (h : At ml mp t j s) (h' : At ml mp t' j s) {m y : Nat} (hb : Below k j m y) :
    t[idx m y]? = t'[idx m y]? := by
  induction s generalizing j with
  | leaf n =>
    obtain ⟨h1, h2⟩ := hb
    obtain rfl : m = 0 := by omega
    simp at h2
    subst h2
    rw [At] at h h'
    rw [h, h']
  | node p l r ihl ihr =>
    rw [At] at h h'
    rcases hb.cases with ⟨rfl, rfl⟩ | hb | hb
    · rw [h.1, h'.1]
    · exact ihl h.2.1 h'.2.1 hb
    · exact ihr h.2.2 h'.2.2 hb

theorem At.congr {ml : LeafNode → N} {mp : P → N} {t t' : List (Option N)} {k j : Nat} {s : Ratchet P k}
    (h : At ml mp t j s) (he : ∀ m y, Below k j m y → t'[idx m y]? = t[idx m y]?) : At ml mp t' j s := by
  induction s generalizing j with
  | leaf n =>
    rw [At] at h ⊢
    rw [he 0 j (Below.refl 0 j), h]
  | node p l r ihl ihr =>
    rw [At] at h ⊢
    refine ⟨?_, ihl h.2.1 fun m y hb => he m y hb.left, ihr h.2.2 fun m y hb => he m y hb.right⟩
    rw [he _ _ (Below.refl _ _), h.1]

theorem flat_length (ml : LeafNode → N) (mp : P → N) {d : Nat} (s : Ratchet P d) :
    (s.flat ml mp).length = 2 ^ (d + 1) - 1 := by
  induction s with
  | leaf n => rfl
  | @node d p l r ihl ihr =>
    have : 0 < 2 ^ (d + 1) := Nat.two_pow_pos _
    simp only [Ratchet.flat, List.length_append, List.length_cons, ihl, ihr]
    rw [Nat.pow_succ 2 (d + 1)]
    omega

theorem at_append (ml : LeafNode → N) (mp : P → N) {k : Nat} (s : Ratchet P k) (j : Nat)
    (pre post : List (Option N)) (hp : pre.length = j * 2 ^ (k + 1)) :
    At ml mp (pre ++ s.flat ml mp ++ post) j s := by
  induction s generalizing j pre post with
  | leaf n =>
    simp only [At, Ratchet.flat]
    have : idx 0 j = pre.length := by rw [hp]; simp [idx]
    rw [this]
    simp
  | @node d p l r ihl ihr =>
    have h1 : 0 < 2 ^ (d + 1) := Nat.two_pow_pos _
    have h2 : j * 2 ^ (d + 1 + 1) = 2 * j * 2 ^ (d + 1) := by rw [Nat.pow_succ 2 (d + 1)]; ring
    have hl := flat_length ml mp l
    refine ⟨?_, ?_, ?_⟩
    · have : idx (d + 1) j = (pre ++ l.flat ml mp).length := by
        rw [List.length_append, hp, hl]; rfl
      rw [this]
      simp [Ratchet.flat]
    · have := ihl (2 * j) pre (p.map mp :: r.flat ml mp ++ post) (by rw [hp, h2])
      simpa [Ratchet.flat] using this
    · have := ihr (2 * j + 1) (pre ++ l.flat ml mp ++ [p.map mp]) post (by
        simp only [List.length_append, List.length_cons, List.length_nil, hp, hl, h2]
        rw [Nat.add_mul]; omega)
      simpa [Ratchet.flat] using this

theorem at_flat (ml : LeafNode → N) (mp : P → N) {d : Nat} (s : Ratchet P d) : At ml mp (s.flat ml mp) 0 s := by
  simpa using at_append ml mp s 0 [] [] (by simp)

/-- Every position of a complete array has coordinates. -/
theorem exists_below {d x : Nat} (hx : x < 2 ^ (d + 1) - 1) : ∃ m y, Below d 0 m y ∧ x = idx m y := by
  have h := (mem_perfect_range d 0 x).2 ⟨by omega, by omega⟩
  obtain ⟨k, j, hk, hj, rfl⟩ := (mem_perfect d 0 x).1 h
  exact ⟨k, j, ⟨hk, hj⟩, rfl⟩

theorem Below.lt {d m y : Nat} (h : Below d 0 m y) : idx m y < 2 ^ (d + 1) - 1 := by
  have h1 := (mem_perfect d 0 (idx m y)).2 ⟨m, y, h.1, h.2, rfl⟩
  have := ((mem_perfect_range d 0 _).1 h1).2
  omega

theorem eq_flat_of_at {ml : LeafNode → N} {mp : P → N} {d : Nat} {s : Ratchet P d} {t : List (Option N)}
    (h : At ml mp t 0 s) (hl : t.length = 2 ^ (d + 1) - 1) : t = s.flat ml mp := by
  apply List.ext_getElem?
  intro x
  rcases Nat.lt_or_ge x (2 ^ (d + 1) - 1) with hx | hx
  · obtain ⟨m, y, hb, rfl⟩ := exists_below hx
    exact h.unique (at_flat ml mp s) hb
  · rw [List.getElem?_eq_none (by omega), List.getElem?_eq_none (by rw [flat_length]; omega)]

theorem flat_iff {ml : LeafNode → N} {mp : P → N} {d : Nat} {s : Ratchet P d} {t : List (Option N)} :
    t = s.flat ml mp ↔ At ml mp t 0 s ∧ t.length = 2 ^ (d + 1) - 1 :=
  ⟨by rintro rfl; exact ⟨at_flat _ _ _, flat_length _ _ _⟩, fun h => eq_flat_of_at h.1 h.2⟩

/-! ### Paths -/

theorem mem_upPath {m k j x : Nat} : x ∈ upPath m k j ↔ ∃ i, i < m ∧ x = idx (k + i + 1) (j / 2 ^ (i + 1)) := by
  induction m generalizing k j with
  | zero => simp [upPath]
  | succ m ih =>
    simp only [upPath, List.mem_cons, ih]
    constructor
    · rintro (rfl | ⟨i, hi, rfl⟩)
      · exact ⟨0, by omega, by simp⟩
      · exact ⟨i + 1, by omega, by rw [div_half (m := i + 1)]; congr 1; omega⟩
    · rintro ⟨i, hi, rfl⟩
      cases i with
      | zero => left; simp
      | succ i => right; exact ⟨i, by omega, by rw [div_half (m := i + 1)]; congr 1; omega⟩

/-- `t'` is `t` with the leaf `i` changed by `F` and its ancestors up to level `d` changed by `G`. -/
def PathMod (F G : Option N → Option N) (d i : Nat) (t t' : List (Option N)) : Prop :=
  ∀ m y, t'[idx m y]? = if m = 0 ∧ y = i then (t[idx m y]?).map F
    else if 0 < m ∧ m ≤ d ∧ y = i / 2 ^ m then (t[idx m y]?).map G else t[idx m y]?

theorem at_alongPath {ml : LeafNode → N} {mp : P → N} {f : Option LeafNode → Option LeafNode}
    {g : Option P → Option P} {F G : Option N → Option N} (hF : ∀ n, F (Option.map ml n) = (f n).map ml)
    (hG : ∀ p, G (Option.map mp p) = (g p).map mp) {d i : Nat} {t t' : List (Option N)}
    (hm : PathMod F G d i t t') {k j : Nat} {s : Ratchet P k} (hk : k ≤ d) (h : At ml mp t j s)
    (hi : i / 2 ^ k = j) : At ml mp t' j (s.alongPath f g (i - j * 2 ^ k)) := by
  induction s generalizing j with
  | leaf n =>
    simp only [Ratchet.alongPath, At] at h ⊢
    simp at hi
    subst hi
    rw [hm, if_pos ⟨rfl, rfl⟩, h, Option.map_some, hF]
  | @node k p l r ihl ihr =>
    have hp : 0 < 2 ^ k := Nat.two_pow_pos _
    have hdm := Nat.div_add_mod i (2 ^ (k + 1))
    have hml := Nat.mod_lt i (Nat.two_pow_pos (k + 1))
    rw [hi] at hdm
    have hpk : 2 ^ (k + 1) = 2 * 2 ^ k := by rw [Nat.pow_succ]; omega
    have hmul : 2 ^ (k + 1) * j = 2 * j * 2 ^ k := by rw [hpk]; ring
    have hmul' : j * 2 ^ (k + 1) = 2 * j * 2 ^ k := by rw [hpk]; ring
    have hmul2 : (2 * j + 1) * 2 ^ k = 2 * j * 2 ^ k + 2 ^ k := by ring
    rw [At] at h
    have hroot : t'[idx (k + 1) j]? = some ((g p).map mp) := by
      rw [hm, if_neg (by omega), if_pos ⟨by omega, hk, hi.symm⟩, h.1, Option.map_some, hG]
    have hoff : ∀ {b m y : Nat}, i / 2 ^ k ≠ b → Below k b m y → t'[idx m y]? = t[idx m y]? := by
      intro b m y hb hby
      rw [hm, if_neg, if_neg]
      · rintro ⟨_, _, rfl⟩
        apply hb
        rw [← hby.2, Nat.div_div_eq_div_mul, ← Nat.pow_add]
        congr 2
        have := hby.1
        omega
      · rintro ⟨rfl, rfl⟩
        exact hb hby.2
    simp only [Ratchet.alongPath]
    split
    · next hlt =>
      have hik : i / 2 ^ k = 2 * j := by
        apply Nat.div_eq_of_lt_le
        · omega
        · rw [Nat.succ_mul]; omega
      have := ihl (by omega) h.2.1 hik
      rw [hmul'] at hlt ⊢
      exact ⟨hroot, this, h.2.2.congr fun m y hb => hoff (by omega) hb⟩
    · next hge =>
      have hik : i / 2 ^ k = 2 * j + 1 := by
        apply Nat.div_eq_of_lt_le
        · omega
        · rw [Nat.succ_mul]; omega
      have := ihr (by omega) h.2.2 hik
      have he : i - j * 2 ^ (k + 1) - 2 ^ k = i - (2 * j + 1) * 2 ^ k := by omega
      rw [he]
      exact ⟨hroot, h.2.1.congr fun m y hb => hoff (by omega) hb, this⟩

/-- Changing a path of the array is changing the path of the tree. -/
theorem flat_alongPath {ml : LeafNode → N} {mp : P → N} {f : Option LeafNode → Option LeafNode}
    {g : Option P → Option P} {F G : Option N → Option N} (hF : ∀ n, F (Option.map ml n) = (f n).map ml)
    (hG : ∀ p, G (Option.map mp p) = (g p).map mp) {d i : Nat} {t' : List (Option N)} {s : Ratchet P d}
    (hm : PathMod F G d i (s.flat ml mp) t') (hl : t'.length = 2 ^ (d + 1) - 1) (hi : i < 2 ^ d) :
    t' = (s.alongPath f g i).flat ml mp := by
  have := at_alongPath hF hG hm (Nat.le_refl d) (at_flat ml mp s) (Nat.div_eq_of_lt hi)
  simp only [Nat.zero_mul, Nat.sub_zero] at this
  exact eq_flat_of_at this hl

end Mls
