import Verif.Props.Stream
import Verif.Props.Private
/-
The hash functions, key derivation functions and AEADs used on the test vectors are as Prims.Correct says.
-/
namespace Mls.Conformance

/-! ### Loops -/

theorem forIn_list_inv {α β : Type} (P : β → Prop) (f : α → β → Id (ForInStep β)) (hf : ∀ a b, P b → P (f a b).run.value) :
    ∀ (l : List α) (b : β), P b → P (forIn (m := Id) l b f).run := by
  intro l
  induction l with
  | nil => intro b hb; exact hb
  | cons a l ih =>
    intro b hb
    rw [List.forIn_cons]
    have := hf a b hb
    show P (match f a b with | .done b => b | .yield b => forIn (m := Id) l b f)
    cases hx : f a b with
    | done b' => rw [hx] at this; exact this
    | yield b' => rw [hx] at this; exact ih b' this

theorem forIn_range_inv {β : Type} (P : β → Prop) (r : Std.Legacy.Range) (f : Nat → β → Id (ForInStep β)) (b : β) (hb : P b)
    (hf : ∀ a b, P b → P (f a b).run.value) : P (forIn (m := Id) r b f).run := by
  rw [Std.Legacy.Range.forIn_eq_forIn_range']
  exact forIn_list_inv P f hf _ b hb

theorem forIn_range_size {T : Type} (n : Nat) (r : Std.Legacy.Range) (f : Nat → Array T → Id (ForInStep (Array T))) (b : Array T) (hb : b.size = n)
    (hf : ∀ a b, b.size = n → (f a b).run.value.size = n) : (forIn (m := Id) r b f).run.size = n :=
  forIn_range_inv (fun b => b.size = n) r f b hb hf

theorem forIn_list_count {α β : Type} (P : Nat → β → Prop) (f : α → β → Id (ForInStep β)) (hf : ∀ k a b, P k b → ∃ b', f a b = ForInStep.yield b' ∧ P (k + 1) b') :
    ∀ (l : List α) (k : Nat) (b : β), P k b → P (k + l.length) (forIn (m := Id) l b f).run := by
  intro l
  induction l with
  | nil => intro k b hb; exact hb
  | cons a l ih =>
    intro k b hb
    rw [List.forIn_cons]
    obtain ⟨b', h1, h2⟩ := hf k a b hb
    show P _ (match f a b with | .done b => b | .yield b => forIn (m := Id) l b f)
    rw [h1, List.length_cons, show k + (l.length + 1) = (k + 1) + l.length by omega]
    exact ih (k + 1) b' h2

theorem forIn_range_count {β : Type} (P : Nat → β → Prop) (m : Nat) (f : Nat → β → Id (ForInStep β)) (b : β) (hb : P 0 b)
    (hf : ∀ k a b, P k b → ∃ b', f a b = ForInStep.yield b' ∧ P (k + 1) b') : P m (forIn (m := Id) [0:m] b f).run := by
  rw [Std.Legacy.Range.forIn_eq_forIn_range']
  have := forIn_list_count P f hf (List.range' 0 [0:m].size 1) 0 b hb
  rw [List.length_range', Nat.zero_add] at this
  simpa using this

/-! ### Hashes -/

theorem natToBE_length (n len : Nat) : (natToBE n len).length = len := by simp [natToBE]
theorem natToLE_length (n len : Nat) : (natToLE n len).length = len := by simp [natToLE, natToBE_length]

theorem flatMap_length_const {α : Type} (k : Nat) (f : α → Bytes) (hf : ∀ a, (f a).length = k) (l : List α) :
    (l.flatMap f).length = l.length * k := by
  induction l with
  | nil => simp
  | cons a l ih => rw [List.flatMap_cons, List.length_append, hf, ih, List.length_cons]; ring

theorem sha256H_size : sha256H.size = 8 := by decide +kernel
theorem sha512H_size : sha512H.size = 8 := by decide +kernel
theorem sha384H_size : sha384H.size = 8 := by decide +kernel

theorem sha256_length (m : Bytes) : (sha256 m).length = 32 := by
  unfold sha256
  simp only [Id.run_bind, Id.run_pure]
  rw [flatMap_length_const 4 _ (fun _ => natToBE_length _ _), Array.length_toList]
  rw [forIn_range_size 8 _ _ _ sha256H_size]
  intro blk h hh
  simp only [Id.run_bind, Id.run_pure, ForInStep.value]
  rw [Array.size_zipWith, hh, forIn_range_size 8 _ _ _ hh]
  · rfl
  · intro t v _
    rfl

theorem sha512With_length {init : Array UInt64} (hi : init.size = 8) (m : Bytes) : (sha512With init m).length = 64 := by
  unfold sha512With
  simp only [Id.run_bind, Id.run_pure]
  rw [flatMap_length_const 8 _ (fun _ => natToBE_length _ _), Array.length_toList]
  rw [forIn_range_size 8 _ _ _ hi]
  intro blk h hh
  simp only [Id.run_bind, Id.run_pure, ForInStep.value]
  rw [Array.size_zipWith, hh, forIn_range_size 8 _ _ _ hh]
  · rfl
  · intro t v _
    rfl

theorem hashOf_length (a : HashAlg) (m : Bytes) : (hashOf a m).length = a.size := by
  cases a with
  | sha256 => exact sha256_length m
  | sha384 =>
    show ((sha512With sha384H m).take 48).length = 48
    rw [List.length_take, sha512With_length sha384H_size]
    rfl
  | sha512 => exact sha512With_length sha512H_size m

theorem hmac_length (a : HashAlg) (k m : Bytes) : (hmac a k m).length = a.size := hashOf_length _ _

theorem hkdfExpand_length (a : HashAlg) (k i : Bytes) (n : Nat) : (hkdfExpand a k i n).length = n := by
  unfold hkdfExpand
  simp only [Id.run_bind, Id.run_pure]
  have hs : 0 < a.size := by cases a <;> decide
  have key := forIn_range_count (fun j (x : Bytes × Bytes) => x.2.length = j * a.size) ((n + a.size - 1) / a.size)
    (fun i' x => pure (ForInStep.yield (hmac a k (x.1 ++ i ++ [UInt8.ofNat (i' + 1)]), x.2 ++ hmac a k (x.1 ++ i ++ [UInt8.ofNat (i' + 1)]))))
    ([], []) (by simp) (by
      intro j i' x hx
      refine ⟨_, rfl, ?_⟩
      rw [List.length_append, hx, hmac_length]
      ring)
  rw [List.length_take]
  refine Nat.min_eq_left ?_
  refine Nat.le_trans ?_ (Nat.le_of_eq key.symm)
  have := Nat.div_add_mod (n + a.size - 1) a.size
  have h2 := Nat.mod_lt (n + a.size - 1) hs
  rw [Nat.mul_comm] at this
  omega

/-! ### AEADs -/

theorem keyStream_length {k : Nat} (hk : 0 < k) (block : Nat → Array UInt8) (n : Nat) : (keyStream k block n).length = n := by
  unfold keyStream
  rw [List.length_take, flatMap_length_const k _ (fun _ => by simp), List.length_range, Nat.min_eq_left]
  have := Nat.div_add_mod (n + k - 1) k
  have h2 := Nat.mod_lt (n + k - 1) hk
  rw [Nat.mul_comm] at this
  omega

theorem aeadStream_length (a : Aead) (k n : Bytes) (len : Nat) : (aeadStream a k n len).length = len := by
  cases a
  all_goals first
    | exact keyStream_length (k := 16) (by omega) _ len
    | exact keyStream_length (k := 64) (by omega) _ len

theorem xorBytes_length {a b : Bytes} (h : a.length = b.length) : (xorBytes a b).length = a.length := by
  unfold xorBytes
  rw [List.length_zipWith, h, Nat.min_self]

theorem xorBytes_twice : ∀ {a b : Bytes}, a.length = b.length → xorBytes (xorBytes a b) b = a := by
  intro a
  induction a with
  | nil => intro b _; rfl
  | cons x a ih =>
    intro b h
    cases b with
    | nil => cases h
    | cons y b =>
      have h1 : xorBytes (xorBytes a b) b = a := ih (by simpa using h)
      have h2 : x ^^^ y ^^^ y = x := by
        apply UInt8.toBitVec_inj.1
        simp only [UInt8.toBitVec_xor]
        rw [BitVec.xor_assoc, BitVec.xor_self, BitVec.xor_zero]
      show (x ^^^ y ^^^ y) :: xorBytes (xorBytes a b) b = x :: a
      rw [h1, h2]

theorem ghash_length (h m : Array UInt8) : (ghash h m).length = 16 := by
  unfold ghash
  simp only [Id.run_bind, Id.run_pure]
  rw [List.length_append, natToBE_length, natToBE_length]

theorem aeadTag_length (a : Aead) (k n ct aad : Bytes) : (aeadTag a k n ct aad).length = 16 := by
  have hg : ∀ w : Array (Array UInt8), (gcmTag w n ct aad).length = 16 := by
    intro w
    unfold gcmTag
    have h1 : (aesCtr w n 1 16).length = 16 := keyStream_length (k := 16) (by omega) _ 16
    dsimp only
    rw [xorBytes_length (by rw [ghash_length, h1]), ghash_length]
  cases a with
  | aes128gcm => exact hg _
  | aes256gcm => exact hg _
  | chacha20poly1305 => exact natToLE_length _ _

theorem aeadReal_open {a : Aead} {k n p d c : Bytes} (h : aeadSealReal a k n p d = some c) : aeadOpenReal a k n c d = some p := by
  unfold aeadSealReal at h
  split at h
  · cases h
  · rename_i hk
    simp only [Option.some.injEq] at h
    have hct : (xorBytes p (aeadStream a k n p.length)).length = p.length := xorBytes_length (aeadStream_length ..).symm
    have hcl : c.length - 16 = (xorBytes p (aeadStream a k n p.length)).length := by
      rw [← h, List.length_append, aeadTag_length, Nat.add_sub_cancel]
    have hcl2 : 16 ≤ c.length := by
      rw [← h, List.length_append, aeadTag_length]
      omega
    unfold aeadOpenReal
    rw [if_neg (by rintro (h | h | h) <;> first | exact hk (.inl h) | exact hk (.inr h) | omega)]
    dsimp only
    rw [hcl]
    rw [← h, List.drop_left, List.take_left, if_pos rfl, hct, xorBytes_twice (aeadStream_length ..).symm]

theorem aeadReal_length {a : Aead} {k n p d c : Bytes} (h : aeadSealReal a k n p d = some c) : c.length = p.length + 16 := by
  unfold aeadSealReal at h
  split at h
  · cases h
  · simp only [Option.some.injEq] at h
    rw [← h, List.length_append, aeadTag_length, xorBytes_length (aeadStream_length ..).symm]

/-! ### Signatures -/

theorem nist_readable {c : Nist} {h : HashAlg} {k m sig : Bytes} {b : Bool} (hv : c.verify h k m sig = some b) (m' sig' : Bytes) :
    c.verify h k m' sig' ≠ none := by
  unfold Nist.verify at hv ⊢
  cases hd : c.dec k with
  | none => rw [hd] at hv; cases hv
  | some Q =>
    dsimp only
    split
    · simp
    · split
      · simp
      · split <;> simp

/-! ### HPKE -/

theorem nistCandidate_length (k : Kem) (c : Nist) (mask : UInt8) (prk : Bytes) :
    ∀ fuel i, nistCandidate k c mask prk fuel i = [] ∨ (nistCandidate k c mask prk fuel i).length = c.size := by
  intro fuel
  induction fuel with
  | zero => intro i; exact .inl rfl
  | succ fuel ih =>
    intro i
    unfold nistCandidate
    have hl : (labeledExpand (kemHash k) (kemSuite k) prk "candidate" [UInt8.ofNat i] c.size).length = c.size :=
      hkdfExpand_length _ _ _ _
    cases hx : labeledExpand (kemHash k) (kemSuite k) prk "candidate" [UInt8.ofNat i] c.size with
    | nil =>
      dsimp only
      split
      · exact ih _
      · exact .inl rfl
    | cons x r =>
      rw [hx] at hl
      dsimp only
      split
      · exact ih _
      · right; simpa using hl

/-- A derived private key has the length of its KEM, unless its public key is the point at infinity, which no
Diffie-Hellman accepts. -/
theorem kemDerive_length {k : Kem} {ikm sk x : Bytes} (h : kemDH k sk (kemDerive k ikm).1 = some x) :
    (kemDerive k ikm).2.length = kemPrivSize k := by
  have nist : ∀ (c : Nist) (b : Bytes), (b = [] ∨ b.length = c.size) → c.enc (c.mul 0 c.base) = [0] →
      c.dh sk (c.enc (c.mul (natOfBE b) c.base)) = some x → b.length = c.size := by
    intro c b hb h0 hdh
    rcases hb with rfl | hb
    · exfalso
      rw [show natOfBE [] = 0 from rfl, h0] at hdh
      unfold Nist.dh at hdh
      have : c.dec [0] = none := by
        unfold Nist.dec
        rw [if_pos (by right; decide)]
      rw [this] at hdh
      cases hdh
    · exact hb
  cases k with
  | x25519 => exact hkdfExpand_length _ _ _ _
  | x448 => exact hkdfExpand_length _ _ _ _
  | p256 => exact nist p256 _ (nistCandidate_length ..) (by decide +kernel) h
  | p384 => exact nist p384 _ (nistCandidate_length ..) (by decide +kernel) h
  | p521 => exact nist p521 _ (nistCandidate_length ..) (by decide +kernel) h

/-- HPKE opens what it seals if Diffie-Hellman agrees. -/
theorem realHpke_open (hdh : ∀ k a b, kemDH k (kemDerive k a).2 (kemDerive k b).1 = kemDH k (kemDerive k b).2 (kemDerive k a).1)
    {s : SuiteDesc} {ikm info p rand kemOut ct : Bytes} (h : hpkeSealReal s (kemDerive s.kem ikm).1 info p rand = some (kemOut, ct)) :
    hpkeOpenReal s (kemDerive s.kem ikm).2 info kemOut ct = some p := by
  unfold hpkeSealReal at h
  simp only [bind, Option.bind_eq_some_iff] at h
  obtain ⟨dh, h1, c, h2, h3⟩ := h
  simp only [pure, Option.some.injEq, Prod.mk.injEq] at h3
  obtain ⟨rfl, rfl⟩ := h3
  have hl := kemDerive_length h1
  unfold hpkeOpenReal
  rw [if_neg (by rw [hl]; exact fun h => h rfl)]
  rw [hdh] at h1
  simp only [bind, Option.bind_eq_some_iff]
  refine ⟨dh, h1, ?_⟩
  exact aeadReal_open h2

theorem nist_enc_length (c : Nist) (P : Pt) : (c.enc P).length ≤ 2 * c.size + 1 := by
  unfold Nist.enc
  split
  · simp only [List.length_cons, List.length_append, natToBE_length]; omega
  · simp

theorem nist_dh_length {c : Nist} {sk pk x : Bytes} (h : c.dh sk pk = some x) : pk.length = 2 * c.size + 1 := by
  unfold Nist.dh at h
  simp only [bind, Option.bind_eq_some_iff] at h
  obtain ⟨Q, hQ, _⟩ := h
  unfold Nist.dec at hQ
  split at hQ
  · cases hQ
  · next hn => push Not at hn; exact hn.1

/-- What HPKE adds to a message: a public key and 16 bytes. -/
theorem realHpke_length {d : SuiteDesc} {pk info pt r kem ct : Bytes} (h : realPrims.hpkeSeal d pk info pt r = some (kem, ct)) :
    kem.length ≤ pk.length ∧ ct.length ≤ pt.length + 16 := by
  change hpkeSealReal d pk info pt r = some (kem, ct) at h
  unfold hpkeSealReal at h
  simp only [bind, Option.bind_eq_some_iff] at h
  obtain ⟨dh, h1, c, h2, h3⟩ := h
  simp only [pure, Option.some.injEq, Prod.mk.injEq] at h3
  obtain ⟨rfl, rfl⟩ := h3
  refine ⟨?_, (aeadReal_length h2).le⟩
  generalize d.kem = k at h1
  cases k with
  | x25519 =>
    have : pk.length = 32 := by
      by_contra hn
      simp only [kemDH, ne_eq, hn, not_false_eq_true, if_true, reduceCtorEq] at h1
    rw [this]
    exact (natToLE_length _ _).le
  | x448 =>
    have : pk.length = 56 := by
      by_contra hn
      simp only [kemDH, ne_eq, hn, not_false_eq_true, if_true, reduceCtorEq] at h1
    rw [this]
    exact (natToLE_length _ _).le
  | p256 => exact (nist_enc_length p256 _).trans (nist_dh_length h1).ge
  | p384 => exact (nist_enc_length p384 _).trans (nist_dh_length h1).ge
  | p521 => exact (nist_enc_length p521 _).trans (nist_dh_length h1).ge

/-- The real primitives meet Prims.Correct if Diffie-Hellman agrees on derived keys and what is signed verifies: the lengths, the
AEADs, HPKE and the reading of signature keys are proved. -/
theorem realPrims_correct
    (hdh : ∀ k a b, kemDH k (kemDerive k a).2 (kemDerive k b).1 = kemDH k (kemDerive k b).2 (kemDerive k a).1)
    (hsig : ∀ s r m rand sig, realPrims.sign s (realPrims.sigKeyPair s r).2 m rand = some sig →
      realPrims.verify s (realPrims.sigKeyPair s r).1 m sig = some true) : realPrims.Correct where
  hash_length := hashOf_length
  mac_length := hmac_length
  extract_length a s t := hmac_length _ _ _
  expand_length a k i n _ := hkdfExpand_length a k i n
  aead_seal a k n p d h1 h2 _ := by
    show ∃ c, aeadSealReal a k n p d = some c
    unfold aeadSealReal
    rw [if_neg (by rintro (h | h) <;> contradiction)]
    exact ⟨_, rfl⟩
  aead_open a k n p d c h := aeadReal_open h
  hpke_open_gen s r info p rand kemOut ct h := realHpke_open hdh h
  hpke_open_derive s seed info p rand kemOut ct h := realHpke_open hdh h
  sign_verify := hsig
  verify_readable s k m sig h m' sig' := by
    cases s with
    | ed25519 => exact fun h => nomatch h
    | ed448 => exact fun h => nomatch h
    | ecdsaP256 => exact nist_readable h m' sig'
    | ecdsaP384 => exact nist_readable h m' sig'
    | ecdsaP521 => exact nist_readable h m' sig'

end Mls.Conformance
