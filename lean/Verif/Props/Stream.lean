import Verif.Conformance.Prims
import Verif.Spec.Nonces
import Mathlib.Tactic.Ring
import Mathlib.Algebra.BigOperators.Group.List.Basic
/-
The AEADs used on the test vectors are stream ciphers with a tag, as C81_leak assumes.
-/
namespace Mls.Conformance

theorem flatMap_range_get (k : Nat) (hk : 0 < k) (f : Nat → Nat → UInt8) : ∀ (m j : Nat), j < m * k →
    ((List.range m).flatMap fun i => (List.range k).map (f i))[j]? = some (f (j / k) (j % k)) := by
  intro m
  induction m with
  | zero => intro j h; omega
  | succ m ih =>
    intro j h
    have hlen : ((List.range m).flatMap fun i => (List.range k).map (f i)).length = m * k := by
      rw [List.length_flatMap]
      simp only [List.length_map, List.length_range, List.map_const', List.sum_replicate]
      rfl
    rw [List.range_succ, List.flatMap_append]
    by_cases hj : j < m * k
    · rw [List.getElem?_append_left (by omega)]
      exact ih j hj
    · rw [List.getElem?_append_right (by omega), hlen]
      have hs : (m + 1) * k = m * k + k := by ring
      have hlt : j - m * k < k := by omega
      simp only [List.flatMap_cons, List.flatMap_nil, List.append_nil, List.getElem?_map, List.getElem?_range hlt, Option.map_some]
      have he : j = j - m * k + k * m := by rw [Nat.mul_comm k m]; omega
      have h1 : j / k = m := by
        rw [he, Nat.add_mul_div_left _ _ hk, Nat.div_eq_of_lt hlt, Nat.zero_add]
      have h2 : j % k = j - m * k := by
        conv => lhs; rw [he]
        rw [Nat.add_mul_mod_self_left, Nat.mod_eq_of_lt hlt]
      rw [h1, h2]

theorem keyStream_get {k : Nat} (hk : 0 < k) (block : Nat → Array UInt8) {n j : Nat} (hj : j < n) :
    (keyStream k block n)[j]? = some ((block (j / k)).getD (j % k) 0) := by
  unfold keyStream
  rw [List.getElem?_take_of_lt hj]
  refine flatMap_range_get k hk (fun i j => (block i).getD j 0) _ _ ?_
  have := Nat.div_add_mod (n + k - 1) k
  have h2 := Nat.mod_lt (n + k - 1) hk
  rw [Nat.mul_comm] at this
  omega

theorem xor_stream {p s t : Bytes} {j : Nat} {b x : UInt8} (hb : p[j]? = some b) (hs : s[j]? = some x) :
    (xorBytes p s ++ t)[j]? = some (b ^^^ x) := by
  have : (xorBytes p s)[j]? = some (b ^^^ x) := by
    unfold xorBytes
    rw [List.getElem?_zipWith, hb, hs]
  have hl : j < (xorBytes p s).length := by
    by_contra hn
    rw [List.getElem?_eq_none (by omega)] at this
    cases this
  rw [List.getElem?_append_left hl, this]

/-- AES-GCM and ChaCha20-Poly1305 are stream ciphers with a tag. -/
theorem realPrims_stream : Spec.StreamCipher realPrims := by
  refine ⟨fun a k n j => match a with
    | .chacha20poly1305 => ((chachaBlock k n (j / 64 + 1)).toArray).getD (j % 64) 0
    | _ => (aesBlock (aesExpand k) (n ++ natToBE (2 + j / 16) 4).toArray).getD (j % 16) 0, ?_⟩
  intro a k n p aad c h j b hj
  have hl : j < p.length := by
    by_contra hn
    rw [List.getElem?_eq_none (by omega)] at hj
    cases hj
  change aeadSealReal a k n p aad = some c at h
  unfold aeadSealReal at h
  split at h
  · cases h
  · simp only [Option.some.injEq] at h
    subst h
    refine xor_stream hj ?_
    cases a
    all_goals first
      | exact keyStream_get (k := 16) (by omega) _ hl
      | exact keyStream_get (k := 64) (by omega) _ hl

end Mls.Conformance
