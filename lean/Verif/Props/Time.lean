import Verif.Model.Time
/-
C40: the lifetime of a leaf node.
-/
namespace Mls

theorem wrap64_of {x : Int} (h1 : -(2 ^ 63) ≤ x) (h2 : x < 2 ^ 63) : wrap64 x = x := by
  unfold wrap64; omega

theorem wrap64_range (x : Int) : -(2 ^ 63) ≤ wrap64 x ∧ wrap64 x < 2 ^ 63 := by
  unfold wrap64; omega

theorem wrap64_wrap64_add (x y : Int) : wrap64 (wrap64 x + y) = wrap64 (x + y) := by
  unfold wrap64; omega

/-- The instant of a 64-bit number of seconds: exact below 2^63 - 62135596800, wrapped above. -/
theorem lifetimeInstant_eq (x : UInt64) :
    lifetimeInstant x =
      ⟨if (x.toNat : Int) < 2 ^ 63 - 62135596800 then x.toNat + 62135596800
       else x.toNat + 62135596800 - 2 ^ 64, 0⟩ := by
  unfold lifetimeInstant GoTime.unix
  rw [wrap64_wrap64_add]
  have := x.toNat_lt
  simp only [GoTime.mk.injEq, and_true]
  unfold wrap64 unixToInternal
  split <;> omega

theorem addSec_eq {e d : Int} (he1 : -(2 ^ 63) ≤ e) (he2 : e < 2 ^ 63) (hd0 : 0 < d) (hd : d < 2 ^ 62) :
    addSec e d = if e + d < 2 ^ 63 then e + d else 2 ^ 63 - 1 := by
  unfold addSec
  simp only
  by_cases h : e + d < 2 ^ 63
  · have hw : wrap64 (e + d) = e + d := wrap64_of (by omega) h
    rw [hw, if_pos h, if_pos]
    have h1 : e + d > e := by omega
    simp [h1, hd0]
  · have hw : wrap64 (e + d) = e + d - 2 ^ 64 := by unfold wrap64; omega
    rw [hw, if_neg h, if_neg]
    · rw [if_pos hd0]
    · have h1 : ¬ (e + d - 2 ^ 64 > e) := by omega
      rw [decide_eq_false h1, decide_eq_true hd0]
      exact Bool.false_ne_true

/-- The difference of two whole seconds is at most 90 days and positive exactly when Go says so. -/
theorem sub_accept {a b : Int} (ha1 : -(2 ^ 63) ≤ a) (ha2 : a < 2 ^ 63) (hb1 : -(2 ^ 63) ≤ b) (hb2 : b < 2 ^ 63) :
    (0 < GoTime.sub ⟨a, 0⟩ ⟨b, 0⟩ ∧ GoTime.sub ⟨a, 0⟩ ⟨b, 0⟩ ≤ maxLeafNodeLifetime) ↔
      (0 < a - b ∧ a - b ≤ 7776000) := by
  have hmax : maxLeafNodeLifetime = 7776000000000000 := rfl
  rw [hmax]
  constructor
  · rintro ⟨h0, h1⟩
    unfold GoTime.sub at h0 h1
    simp only at h0 h1
    generalize hd : wrap64 (wrap64 (wrap64 (a - b) * 1000000000) + (((0 : Nat) : Int) - ((0 : Nat) : Int))) = d at h0 h1
    by_cases he : GoTime.add ⟨b, 0⟩ d = ⟨a, 0⟩
    · rw [if_pos he] at h0 h1
      unfold GoTime.add at he
      simp only at he
      have ht : d.tdiv 1000000000 = d / 1000000000 := Int.tdiv_eq_ediv_of_nonneg (by omega)
      have hm : d.tmod 1000000000 = d % 1000000000 := Int.tmod_eq_emod_of_nonneg (by omega)
      rw [ht, hm] at he
      rw [if_neg (by omega), if_neg (by omega)] at he
      simp only [GoTime.mk.injEq] at he
      obtain ⟨he1, he2⟩ := he
      have hpos : 0 < d / 1000000000 := by omega
      rw [addSec_eq hb1 hb2 hpos (by omega)] at he1
      have hab : a ≠ b := by
        rintro rfl
        rw [Int.sub_self] at hd
        have : d = 0 := hd.symm.trans (by decide)
        omega
      split at he1 <;> omega
    · rw [if_neg he] at h0 h1
      split at h0
      · omega
      · next h => rw [if_neg h] at h1; omega
  · rintro ⟨h0, h1⟩
    have hd : wrap64 (wrap64 (wrap64 (a - b) * 1000000000) + (((0 : Nat) : Int) - ((0 : Nat) : Int))) = (a - b) * 1000000000 := by
      rw [wrap64_of (x := a - b) (by omega) (by omega), wrap64_of (x := (a - b) * 1000000000) (by omega) (by omega)]
      exact (wrap64_of (by omega) (by omega)).trans (by omega)
    have hs : GoTime.sub ⟨a, 0⟩ ⟨b, 0⟩ = (a - b) * 1000000000 := by
      unfold GoTime.sub
      simp only
      rw [hd, if_pos]
      unfold GoTime.add
      simp only
      have ht : ((a - b) * 1000000000).tdiv 1000000000 = a - b := by
        rw [Int.tdiv_eq_ediv_of_nonneg (by omega)]; omega
      have hm : ((a - b) * 1000000000).tmod 1000000000 = 0 := by
        rw [Int.tmod_eq_emod_of_nonneg (by omega)]; omega
      rw [ht, hm, if_neg (by omega), if_neg (by omega), addSec_eq hb1 hb2 h0 (by omega), if_pos (by omega)]
      simp
      omega
    rw [hs]
    omega

/-- Nanoseconds since 1970 of an instant. -/
def Spec.unixNano (t : GoTime) : Int := (t.sec - 62135596800) * 1000000000 + t.nsec

/-- C40: at every instant from 90 days after 1970 on (and 90 days before the end of Go's time, some
292 billion years ahead), a lifetime is accepted exactly when the instant is strictly inside it and
it spans at most 90 days, for all 2^128 pairs of bounds. -/
theorem C40_lifetime (lt : Lifetime) (t : GoTime) (hn : t.nsec < 1000000000)
    (h1 : 7776000 * 1000000000 ≤ Spec.unixNano t) (h2 : t.sec + 7776000 < 2 ^ 63) :
    lt.verify t = true ↔
      lt.notBefore.toNat * 1000000000 < Spec.unixNano t ∧
      Spec.unixNano t < lt.notAfter.toNat * 1000000000 ∧
      (lt.notAfter.toNat : Int) - lt.notBefore.toNat ≤ 7776000 := by
  have ha := lt.notAfter.toNat_lt
  have hb := lt.notBefore.toNat_lt
  unfold Lifetime.verify Spec.unixNano at *
  simp only
  rw [lifetimeInstant_eq, lifetimeInstant_eq]
  generalize hA : (if (lt.notAfter.toNat : Int) < 2 ^ 63 - 62135596800 then (lt.notAfter.toNat : Int) + 62135596800
       else lt.notAfter.toNat + 62135596800 - 2 ^ 64) = A
  generalize hB : (if (lt.notBefore.toNat : Int) < 2 ^ 63 - 62135596800 then (lt.notBefore.toNat : Int) + 62135596800
       else lt.notBefore.toNat + 62135596800 - 2 ^ 64) = B
  have hA' : -(2 ^ 63) ≤ A ∧ A < 2 ^ 63 := by split at hA <;> omega
  have hB' : -(2 ^ 63) ≤ B ∧ B < 2 ^ 63 := by split at hB <;> omega
  have key := sub_accept hA'.1 hA'.2 hB'.1 hB'.2
  have e : (if GoTime.sub ⟨A, 0⟩ ⟨B, 0⟩ ≤ 0 ∨ GoTime.sub ⟨A, 0⟩ ⟨B, 0⟩ > maxLeafNodeLifetime then false
      else t.after ⟨B, 0⟩ && GoTime.after ⟨A, 0⟩ t) = true ↔
      ((0 < A - B ∧ A - B ≤ 7776000) ∧ t.after ⟨B, 0⟩ = true ∧ GoTime.after ⟨A, 0⟩ t = true) := by
    rw [← key]
    split
    · next h => constructor
                · intro h'; cases h'
                · intro h'; omega
    · next h => rw [Bool.and_eq_true]
                constructor
                · intro h'; exact ⟨by omega, h'⟩
                · intro h'; exact h'.2
  rw [e]
  simp only [GoTime.after, Bool.or_eq_true, decide_eq_true_eq, Bool.and_eq_true, beq_iff_eq]
  split at hA <;> split at hB <;> omega

/-- A lifetime of 30 days at a time in 2026. -/
example : (⟨1790000000, 1792592000⟩ : Lifetime).verify ⟨62135596800 + 1791000000, 5⟩ = true := by decide
example : 7776000 * 1000000000 ≤ Spec.unixNano ⟨62135596800 + 1791000000, 5⟩ := by decide

/-- The lower bound on the clock is needed: just after 1970 the lifetime 2^64-1 .. 1 (one whose
first bound is one second before 1970 when read as a signed number) is accepted. -/
theorem C40_clock_needed : (⟨18446744073709551615, 100⟩ : Lifetime).verify ⟨62135596800 + 5, 0⟩ = true := by decide

end Mls
