import Verif.Props.Serial
import Verif.Props.Signing
import Verif.Props.Bytes
import Verif.Props.KeyPackages
import Verif.Proofs.Schedule
import Verif.Proofs.Rfc
import Verif.Spec.ToyGroup
/-
C99 and C100: what GenerateRef returns (RFC 9420 sections 5.2 and 10): a reference stands for one key package, it is
the same wherever the key package travels, and a welcome lists it exactly if the key package was invited; and when
GenerateRef returns anything at all.
-/

namespace Mls

variable {pr : Prims}

/-- RFC 9420 section 5.2: the input of the hash that makes a KeyPackageRef of an encoded key package. -/
def Spec.refInput (encoded : Bytes) : Bytes := Spec.vec (Spec.ascii "MLS 1.0 KeyPackage Reference") ++ Spec.vec encoded

/-- The encodings of two key packages have one hash, though they differ. -/
def Spec.PackageCollision (pr : Prims) (k1 k2 : KeyPackage) : Prop :=
  ∃ d1 d2 b1 b2, cipherSuiteDescriptions k1.cipherSuite = some d1 ∧ cipherSuiteDescriptions k2.cipherSuite = some d2 ∧ d1.hash = d2.hash ∧
    (Spec.Rfc.keyPackage k1).bytes = some b1 ∧ (Spec.Rfc.keyPackage k2).bytes = some b2 ∧ Spec.refInput b1 ≠ Spec.refInput b2 ∧
    pr.hash d1.hash (Spec.refInput b1) = pr.hash d1.hash (Spec.refInput b2)

theorem refLabel_eq : lblKeyPackageRef = Spec.ascii "MLS 1.0 KeyPackage Reference" := by decide +kernel

/-- **C99**, what it is: GenerateRef returns the RefHash of RFC 9420 of the encoded key package, with the hash function of the key
package's own suite; it returns one exactly if the suite is known and the encoding is shorter than 2^30 bytes. -/
theorem C99_what (k : KeyPackage) (r : Bytes) :
    k.generateRef pr = .ok r ↔ ∃ d b, cipherSuiteDescriptions k.cipherSuite = some d ∧
      (Spec.Rfc.keyPackage k).bytes = some b ∧ b.length < 2 ^ 30 ∧ r = pr.hash d.hash (Spec.refInput b) := by
  simp only [package_some]
  unfold KeyPackage.generateRef refHash encRefHashInput
  simp only [Res.bind_ok_iff, Res.pure_eq, Res.ok.injEq, Enc.append_ok_iff, suite_ok_iff]
  have hl : writeOpaqueVec lblKeyPackageRef = .ok (Spec.vec (Spec.ascii "MLS 1.0 KeyPackage Reference")) := by
    rw [refLabel_eq]; exact writeOpaqueVec_vec (by decide +kernel)
  constructor
  · rintro ⟨b, hb, x, ⟨y, z, hy, hz, rfl⟩, d, hd, rfl⟩
    have hlt := writeOpaqueVec_bound hz
    rw [hl] at hy
    rw [writeOpaqueVec_vec hlt] at hz
    cases hy; cases hz
    exact ⟨d, b, hd, hb, hlt, rfl⟩
  · rintro ⟨d, b, hd, hb, hlt, rfl⟩
    exact ⟨b, hb, _, ⟨_, _, hl, writeOpaqueVec_vec hlt, rfl⟩, d, hd, rfl⟩

theorem refInput_inj {b1 b2 : Bytes} (h1 : b1.length < 2 ^ 30) (h2 : b2.length < 2 ^ 30) (h : Spec.refInput b1 = Spec.refInput b2) : b1 = b2 := by
  have e : ∀ b : Bytes, b.length < 2 ^ 30 → encRefHashInput lblKeyPackageRef b = .ok (Spec.refInput b) := by
    intro b hb
    unfold encRefHashInput
    rw [Enc.append_ok_iff]
    exact ⟨_, _, by rw [refLabel_eq]; exact writeOpaqueVec_vec (by decide +kernel), writeOpaqueVec_vec hb, rfl⟩
  exact (C13_refHash _ _ _ _ _ (e b1 h1) (h ▸ e b2 h2)).2

theorem size_inj {a b : HashAlg} (h : a.size = b.size) : a = b := by
  cases a <;> cases b <;> first | rfl | exact absurd h (by decide)

theorem keyPackage_enc_inj {k1 k2 : KeyPackage} {b : Bytes} (v1 : k1.version = 1) (v2 : k2.version = 1) (h1 : k1.enc = .ok b)
    (h2 : k2.enc = .ok b) : k1 = k2 := by
  have e1 := keyPackage_rt _ _ [] h1 v1
  have e2 := keyPackage_rt _ _ [] h2 v2
  rw [e1] at e2
  cases e2; rfl

/-- **C99**, one key package: key packages of one reference are the same in every field, whatever their suites, unless the hash function
has a collision on their encodings. -/
theorem C99_one (hc : pr.Correct) {k1 k2 : KeyPackage} (v1 : k1.version = 1) (v2 : k2.version = 1) {r : Bytes}
    (h1 : k1.generateRef pr = .ok r) (h2 : k2.generateRef pr = .ok r) : k1 = k2 ∨ Spec.PackageCollision pr k1 k2 := by
  rw [C99_what] at h1 h2
  obtain ⟨d1, b1, hd1, hb1, l1, rfl⟩ := h1
  obtain ⟨d2, b2, hd2, hb2, l2, he⟩ := h2
  have hs : d1.hash = d2.hash := by
    apply size_inj
    rw [← hc.hash_length d1.hash (Spec.refInput b1), he, hc.hash_length]
  by_cases hi : Spec.refInput b1 = Spec.refInput b2
  · have := refInput_inj l1 l2 hi
    subst this
    exact .inl (keyPackage_enc_inj v1 v2 (package_some.1 hb1) (package_some.1 hb2))
  · exact .inr ⟨d1, d2, b1, b2, hd1, hd2, hs, hb1, hb2, hi, by rw [he, hs]⟩

/-- **C99**, everywhere: who reads the bytes of a key package computes the reference its owner computes. -/
theorem C99_travels {k k' : KeyPackage} (hv : k.version = 1) {raw : Bytes} (hb : k.bytes = .ok raw) (hu : unmarshalKeyPackage raw = .ok k') :
    k'.generateRef pr = k.generateRef pr := by
  rw [C04_roundtrip k raw hv hb] at hu
  cases hu; rfl

/-- **C99**, in a welcome: NewMembers contains the reference of a key package exactly if it is one of those the welcome was made for,
unless the hash function has a collision on it and one of those. -/
theorem C99_welcome (hc : pr.Correct) {st st' : GroupState} {ks : List KeyPackage} {r : WelcomeRand} {w : Welcome} {msg : Bytes}
    (h : createWelcome pr st ks r = (.ok (w, msg), st')) (hks : ∀ k ∈ ks, k.version = 1) {k : KeyPackage} (hv : k.version = 1) {ref : Bytes}
    (hr : k.generateRef pr = .ok ref) :
    (k ∈ ks → ref ∈ w.newMembers) ∧ (ref ∈ w.newMembers → k ∈ ks ∨ ∃ k' ∈ ks, Spec.PackageCollision pr k' k) := by
  have hl := C57_listed pr st st' ks r w msg h
  have hm : ∀ x : Res Bytes, x ∈ ks.map (KeyPackage.generateRef pr) ↔ x ∈ w.newMembers.map Res.ok := fun x => by rw [hl]
  constructor
  · intro hk
    have := (hm (.ok ref)).1 (List.mem_map.2 ⟨k, hk, hr⟩)
    obtain ⟨x, hx, he⟩ := List.mem_map.1 this
    cases he; exact hx
  · intro hx
    have := (hm (.ok ref)).2 (List.mem_map.2 ⟨ref, hx, rfl⟩)
    obtain ⟨k', hk', he⟩ := List.mem_map.1 this
    rcases C99_one hc (hks k' hk') hv he hr with rfl | hcol
    · exact .inl hk'
    · exact .inr ⟨k', hk', hcol⟩

/-! ### C100 -/

theorem unmarshal_enc {raw : Bytes} {k : KeyPackage} (h : unmarshalKeyPackage raw = .ok k) : ∃ b, k.enc = .ok b := by
  obtain ⟨raw', hb⟩ := C95_keyPackage raw k h
  rw [keyPackage_bytes_iff] at hb
  unfold MlsMessage.enc at hb
  simp only [Enc.append_ok_iff] at hb
  obtain ⟨_, b, _, h, _⟩ := hb
  exact ⟨b, h⟩

/-- **C100**, what does hold: for a key package that was read, GenerateRef returns a reference or an error if the library knows its suite, a
reference if its encoding is also shorter than 2^30 bytes, and it panics in every other case: the full statement fails on
all key packages of unknown suites (up to the encoding of 2^30 bytes, for which an error comes before). -/
theorem C100_partial {raw : Bytes} {k : KeyPackage} (h : unmarshalKeyPackage raw = .ok k) :
    ∃ b, (Spec.Rfc.keyPackage k).bytes = some b ∧
      ((∃ r, k.generateRef pr = .ok r) ↔ b.length < 2 ^ 30 ∧ (cipherSuiteDescriptions k.cipherSuite).isSome = true) ∧
      (k.generateRef pr = .panic ↔ b.length < 2 ^ 30 ∧ cipherSuiteDescriptions k.cipherSuite = none) ∧
      (k.generateRef pr = .err ↔ 2 ^ 30 ≤ b.length) := by
  obtain ⟨b, hb⟩ := unmarshal_enc h
  refine ⟨b, package_some.2 hb, ?_⟩
  by_cases hlt : b.length < 2 ^ 30
  · have hin : encRefHashInput lblKeyPackageRef b = .ok (Spec.refInput b) := by
      unfold encRefHashInput
      rw [Enc.append_ok_iff]
      exact ⟨_, _, by rw [refLabel_eq]; exact writeOpaqueVec_vec (by decide +kernel), writeOpaqueVec_vec hlt, rfl⟩
    cases hd : cipherSuiteDescriptions k.cipherSuite with
    | none =>
      have : k.generateRef pr = .panic := by
        unfold KeyPackage.generateRef refHash
        rw [hb, Res.ok_bind, hin, Res.ok_bind, suite, hd]; rfl
      rw [this]
      exact ⟨⟨fun ⟨_, h⟩ => (by cases h), fun ⟨_, h⟩ => (by cases h)⟩, ⟨fun _ => ⟨hlt, rfl⟩, fun _ => rfl⟩,
        ⟨fun h => (by cases h), fun h => by omega⟩⟩
    | some d =>
      have : k.generateRef pr = .ok (pr.hash d.hash (Spec.refInput b)) := (C99_what k _).2 ⟨d, b, hd, package_some.2 hb, hlt, rfl⟩
      rw [this]
      exact ⟨⟨fun _ => ⟨hlt, rfl⟩, fun _ => ⟨_, rfl⟩⟩, ⟨fun h => (by cases h), fun ⟨_, h⟩ => (by cases h)⟩,
        ⟨fun h => (by cases h), fun h => by omega⟩⟩
  · have hn : writeOpaqueVec b = .err := by
      rcases hw : writeOpaqueVec b with x | _ | _ | _
      · exact absurd (writeOpaqueVec_bound hw) hlt
      · rfl
      all_goals
        exfalso
        have := writeOpaqueVec_fine b
        rw [hw] at this
        simp [Res.Fine] at this
    have : k.generateRef pr = .err := by
      unfold KeyPackage.generateRef refHash encRefHashInput
      rw [hb, Res.ok_bind, refLabel_eq, writeOpaqueVec_vec (by decide +kernel), hn]
      rfl
    rw [this]
    exact ⟨⟨fun ⟨_, h⟩ => (by cases h), fun ⟨h, _⟩ => absurd h hlt⟩, ⟨fun h => (by cases h), fun ⟨h, _⟩ => absurd h hlt⟩,
      ⟨fun _ => by omega, fun _ => rfl⟩⟩

/-- **C100** fails: bytes that UnmarshalKeyPackage accepts and on whose key package GenerateRef panics. -/
theorem C100_refuted : ∃ raw k, unmarshalKeyPackage raw = .ok k ∧ ∀ pr, k.generateRef pr = .panic := by
  have key : ({ (toyMember 2).pub with cipherSuite := 9 } : KeyPackage).bytes.holds (fun raw => (unmarshalKeyPackage raw).holds fun k =>
      decide (k.cipherSuite = 9) && (k.enc : Res Bytes).holds fun b => decide (b.length < 2 ^ 30)) = true := by decide +kernel
  obtain ⟨raw, _, key⟩ := Res.holds_ok key
  obtain ⟨k, hk, key⟩ := Res.holds_ok key
  rw [Bool.and_eq_true, decide_eq_true_eq] at key
  obtain ⟨b, hb, hl⟩ := Res.holds_ok key.2
  refine ⟨raw, k, hk, fun pr => ?_⟩
  obtain ⟨b', hb', _, hp, _⟩ := C100_partial (pr := pr) hk
  rw [package_some.2 hb] at hb'
  cases hb'
  exact hp.2 ⟨of_decide_eq_true hl, by rw [key.1]; rfl⟩

/-- Two key packages have different references, their bytes give the same ones, and a welcome for one of them lists that one. -/
example : toyTwo.holds (fun (a, _) => (((toyMember 2).pub.generateRef toyPrims).holds fun r2 => ((toyMember 3).pub.generateRef toyPrims).holds fun r3 =>
    decide (r2 ≠ r3) && ((toyMember 2).pub.bytes.holds fun raw => (unmarshalKeyPackage raw).holds fun k =>
      decide (k.generateRef toyPrims = .ok r2) && decide (k.version = 1)) &&
    (createWelcome toyPrims a [(toyMember 2).pub] default).1.holds fun (w, _) => decide (r2 ∈ w.newMembers) && decide (r3 ∉ w.newMembers))) = true := by
  decide +kernel

end Mls
