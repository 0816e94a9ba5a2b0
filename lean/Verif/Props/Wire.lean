import Verif.Proofs.Codec4
/-
C01 - C03: variable-length integers and opaque vectors.
-/
namespace Mls

/-- C01: every length below 2^30 is encoded, and decoded to itself leaving exactly what follows. -/
theorem C01_roundtrip (n : UInt32) (hn : n.toNat < 2 ^ 30) (rest : Bytes) :
    ∃ bs, writeVarint n = .ok bs ∧ readVarint.run (bs ++ rest) = (.ok n, rest) := by
  obtain ⟨bs, h⟩ := varint_some_of_lt (n := n.toNat) (by simpa using hn)
  exact ⟨bs, (writeVarint_ok_iff n bs).2 h, readVarint_spec n bs rest h⟩

example : ∃ bs, writeVarint 16384 = .ok bs ∧ readVarint.run (bs ++ [7, 8]) = (.ok 16384, [7, 8]) :=
  C01_roundtrip 16384 (by decide) [7, 8]

/-- C01: lengths of 2^30 or more are refused with an error. -/
theorem C01_refused (n : UInt32) (hn : 2 ^ 30 ≤ n.toNat) : writeVarint n = .err := by
  rw [writeVarint_eq_spec, varint_none_of_ge (by simpa using hn)]

/-- C01: the bytes written are those of RFC 9420 section 2.1.2. -/
theorem C01_rfc (n : UInt32) (bs : Bytes) :
    writeVarint n = .ok bs ↔ Spec.varint n.toNat = some bs := writeVarint_ok_iff n bs

/-- C02: the decoder accepts exactly the RFC form of the value it returns. -/
theorem C02_canonical (s rest : Bytes) (n : UInt32) :
    readVarint.run s = (.ok n, rest) ↔ ∃ bs, Spec.varint n.toNat = some bs ∧ s = bs ++ rest := by
  constructor
  · exact readVarint_canon_spec s rest n
  · rintro ⟨bs, h, rfl⟩
    exact readVarint_spec n bs rest h

/-- C02: no two representations of the same length. -/
theorem C02_unique (s₁ s₂ rest : Bytes) (n : UInt32) (h₁ : readVarint.run s₁ = (.ok n, rest))
    (h₂ : readVarint.run s₂ = (.ok n, rest)) : s₁ = s₂ := by
  obtain ⟨b₁, e₁, rfl⟩ := readVarint_canon_spec _ _ _ h₁
  obtain ⟨b₂, e₂, rfl⟩ := readVarint_canon_spec _ _ _ h₂
  rw [e₁] at e₂
  cases e₂; rfl

example (s : Bytes) (h : readVarint.run s = (.ok 63, [7])) : s = [63, 7] :=
  C02_unique s [63, 7] [7] 63 h (by decide)

/-- C02: a first byte starting with the bits 11 is refused, whatever follows. -/
theorem C02_prefix3 (b : UInt8) (hb : 192 ≤ b.toNat) (s : Bytes) :
    (readVarint.run (b :: s)).1 = .err := by
  rcases h : readVarint.run (b :: s) with ⟨r, s'⟩
  have hs := readVarint_safe (b :: s)
  rw [h] at hs
  cases r with
  | ok n =>
    obtain ⟨b', bs, he, h'⟩ := (readVarint_ok_iff _ _ _).1 h
    cases he
    omega
  | err => rfl
  | panic => exact absurd rfl hs.1
  | hang => exact absurd rfl hs.2

example : (readVarint.run [192, 0, 0, 0, 1, 5]).1 = .err := C02_prefix3 192 (by decide) _

/-- C03: an opaque vector below 2^30 bytes round-trips. -/
theorem C03_roundtrip (b : Bytes) (hb : b.length < 2 ^ 30) (rest : Bytes) :
    ∃ bs, writeOpaqueVec b = .ok bs ∧ readOpaqueVec.run (bs ++ rest) = (.ok b, rest) := by
  obtain ⟨bs, h⟩ := varint_some_of_lt (n := b.length) (by simpa using hb)
  have he : writeOpaqueVec b = .ok (bs ++ b) := by
    rw [writeOpaqueVec_eq_spec]; simp [Spec.opaqueVec, h]
  exact ⟨bs ++ b, he, opaque_rt _ _ _ he trivial⟩

example : ∃ bs, writeOpaqueVec (List.replicate 70000 1) = .ok bs ∧
    readOpaqueVec.run (bs ++ [9]) = (.ok (List.replicate 70000 1), [9]) :=
  C03_roundtrip _ (by rw [List.length_replicate]; decide) _

/-- C03: a longer one is refused by the encoder (no truncation of its length). -/
theorem C03_refused (b : Bytes) (hb : 2 ^ 30 ≤ b.length) : writeOpaqueVec b = .err := by
  rw [writeOpaqueVec_eq_spec]
  simp [Spec.opaqueVec, varint_none_of_ge (n := b.length) (by simpa using hb)]

example : writeOpaqueVec (List.replicate (2 ^ 30) 0) = .err := C03_refused _ (Nat.le_of_eq List.length_replicate.symm)

/-- C03: whatever the decoder accepts is the RFC encoding of the value returned,
followed by the bytes left. -/
theorem C03_canonical (s rest b : Bytes) :
    readOpaqueVec.run s = (.ok b, rest) ↔ ∃ bs, Spec.opaqueVec b = some bs ∧ s = bs ++ rest := by
  constructor
  · intro h
    obtain ⟨bs, e, rfl⟩ := opaque_canon _ _ _ h trivial
    rw [writeOpaqueVec_eq_spec] at e
    cases hsp : Spec.opaqueVec b with
    | none => rw [hsp] at e; cases e
    | some x => rw [hsp] at e; cases e; exact ⟨_, rfl, rfl⟩
  · rintro ⟨bs, h, rfl⟩
    refine opaque_rt b bs rest ?_ trivial
    rw [writeOpaqueVec_eq_spec, h]

/-! Concrete cases. -/

example : writeVarint 16384 = .ok [0x80, 0, 0x40, 0] ∧
    readVarint.run [0x80, 0, 0x40, 0, 7] = (.ok 16384, [7]) := by decide
example : (63 : UInt32).toNat < 2 ^ 30 ∧ writeVarint 63 = .ok [63] := by decide
example : 2 ^ 30 ≤ (1073741824 : UInt32).toNat ∧ writeVarint 1073741824 = .err := by decide
/-- The value 1 in two bytes is refused. -/
example : (readVarint.run [0x40, 1]).1 = .err := by decide
example : readOpaqueVec.run [2, 5, 6, 9] = (.ok [5, 6], [9]) := by decide

end Mls
