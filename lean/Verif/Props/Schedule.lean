import Verif.Proofs.Schedule
import Verif.Model.Framing
import Verif.Spec.Toy
/-
C35 - C38 and C41: secret tree, ratchets, nonces, PSK secret, cipher suites.
-/
namespace Mls

/-! ### C41 -/

/-- C41: the table is that of RFC 9420 section 17.1. -/
theorem C41_table (cs : UInt16) (d : SuiteDesc) : suite cs = .ok d ↔ (cs.toNat, d) ∈ Spec.suites := by
  rw [suite_ok_iff]
  have h : ∀ k : UInt16, (cs == k) = true ↔ cs.toNat = k.toNat := by
    intro k; rw [beq_iff_eq, UInt16.toNat_inj]
  unfold cipherSuiteDescriptions Spec.suites
  simp only [h, List.mem_cons, Prod.mk.injEq, List.not_mem_nil, or_false]
  generalize cs.toNat = n
  by_cases h1 : n = 1
  · subst h1; simp [eq_comm]
  by_cases h2 : n = 2
  · subst h2; simp [eq_comm]
  by_cases h3 : n = 3
  · subst h3; simp [eq_comm]
  by_cases h4 : n = 4
  · subst h4; simp [eq_comm]
  by_cases h5 : n = 5
  · subst h5; simp [eq_comm]
  by_cases h6 : n = 6
  · subst h6; simp [eq_comm]
  by_cases h7 : n = 7
  · subst h7; simp [eq_comm]
  simp [h1, h2, h3, h4, h5, h6, h7]

theorem C41_known (cs : UInt16) : (∃ d, suite cs = .ok d) ↔ 1 ≤ cs.toNat ∧ cs.toNat ≤ 7 := by
  constructor
  · rintro ⟨d, h⟩
    rw [C41_table] at h
    simp only [Spec.suites, List.mem_cons, Prod.mk.injEq, List.not_mem_nil, or_false] at h
    omega
  · rintro ⟨h1, h2⟩
    have : cs.toNat = 1 ∨ cs.toNat = 2 ∨ cs.toNat = 3 ∨ cs.toNat = 4 ∨ cs.toNat = 5 ∨ cs.toNat = 6 ∨ cs.toNat = 7 := by
      omega
    simp only [C41_table, Spec.suites]
    rcases this with h | h | h | h | h | h | h <;> rw [h] <;> exact ⟨_, by simp; rfl⟩

/-- C41: `Supported` answers for every number, and says yes exactly for 1, 2, 3 and 7. -/
theorem C41_supported (cs : UInt16) :
    ∃ b, supported cs = .ok b ∧ (b = true ↔ cs.toNat = 1 ∨ cs.toNat = 2 ∨ cs.toNat = 3 ∨ cs.toNat = 7) := by
  rcases suite_ok_or_panic cs with h | ⟨d, h⟩
  · refine ⟨false, ?_, ?_⟩
    · unfold supported
      unfold suite Res.deref at h
      split at h
      · cases h
      · next hn => rw [hn]
    · simp only [Bool.false_eq_true, false_iff]
      intro hc
      obtain ⟨d, hd⟩ := (C41_known cs).2 (by omega)
      rw [h] at hd; cases hd
  · have h' := suite_ok_iff.1 h
    have ht := (C41_table cs d).1 h
    unfold supported
    rw [h']
    simp only [h, Res.ok_bind]
    simp only [Spec.suites, List.mem_cons, Prod.mk.injEq, List.not_mem_nil, or_false] at ht
    rcases ht with ⟨h1, rfl⟩ | ⟨h1, rfl⟩ | ⟨h1, rfl⟩ | ⟨h1, rfl⟩ | ⟨h1, rfl⟩ | ⟨h1, rfl⟩ | ⟨h1, rfl⟩ <;> rw [h1] <;>
      first
      | exact ⟨true, rfl, by simp⟩
      | exact ⟨false, rfl, by simp⟩

/-- C41: a supported suite has a hash, an HPKE suite and a signature scheme. -/
theorem C41_supported_known (cs : UInt16) (h : supported cs = .ok true) : ∃ d, suite cs = .ok d := by
  obtain ⟨b, hb, hi⟩ := C41_supported cs
  rw [h] at hb
  cases hb
  exact (C41_known cs).2 (by have := hi.1 rfl; omega)

/-- C41: MACs, key generation and secret derivation panic exactly on the suites outside the table. -/
theorem C41_panic_mac (pr : Prims) (cs : UInt16) (k m : Bytes) :
    signMAC pr cs k m = .panic ↔ ¬ (1 ≤ cs.toNat ∧ cs.toNat ≤ 7) := by
  rw [← C41_known]
  unfold signMAC
  rcases suite_ok_or_panic cs with h | ⟨d, h⟩ <;> rw [h] <;> simp

theorem C41_panic_keygen (pr : Prims) (cs : UInt16) (r : Bytes) :
    generateEncryptionKeyPair pr cs r = .panic ↔ ¬ (1 ≤ cs.toNat ∧ cs.toNat ≤ 7) := by
  rw [← C41_known]
  unfold generateEncryptionKeyPair
  rcases suite_ok_or_panic cs with h | ⟨d, h⟩ <;> rw [h] <;> simp

theorem C41_panic_derive (pr : Prims) (cs : UInt16) (s : Bytes) :
    deriveSecret pr cs s lblInit = .panic ↔ ¬ (1 ≤ cs.toNat ∧ cs.toNat ≤ 7) := by
  rw [← C41_known]
  rcases suite_ok_or_panic cs with h | ⟨d, h⟩
  · unfold deriveSecret; rw [h]; simp
  · have : lblPrefix ++ lblInit = Spec.ascii ("MLS 1.0 " ++ "init") := by decide
    rw [deriveSecret_eq h _ this (by decide), h]; simp

theorem encSignContent_fine (l c : Bytes) : Res.Fine (encSignContent l c) :=
  enc_append_fine (writeOpaqueVec_fine _) (writeOpaqueVec_fine _)

/-- The signature key can be read: verifying under it returns, whatever the message and the signature. Only ECDSA has
keys that cannot be: bytes that are no point of the curve. -/
def Spec.Readable (pr : Prims) (cs : UInt16) (key : Bytes) : Prop :=
  ∀ d, Mls.suite cs = .ok d → d.sig.ecdsa = true → ∀ m sig, pr.verify d.sig key m sig ≠ none

/-- C41: in the suites with Ed25519 and Ed448 every key can be read. -/
theorem C41_edwards (pr : Prims) (cs : UInt16) (h : cs.toNat ≠ 2 ∧ cs.toNat ≠ 5 ∧ cs.toNat ≠ 7) (key : Bytes) :
    Spec.Readable pr cs key := by
  intro d hd he
  have hk : ∀ k : UInt16, (cs == k) = true ↔ cs.toNat = k.toNat := by
    intro k; rw [beq_iff_eq, UInt16.toNat_inj]
  rw [suite_ok_iff] at hd
  unfold cipherSuiteDescriptions at hd
  simp only [hk] at hd
  have e2 : cs.toNat ≠ (2 : UInt16).toNat := h.1
  have e5 : cs.toNat ≠ (5 : UInt16).toNat := h.2.1
  have e7 : cs.toNat ≠ (7 : UInt16).toNat := h.2.2
  rw [if_neg e2, if_neg e5, if_neg e7] at hd
  repeat' split at hd
  all_goals cases hd
  all_goals cases he

/-- C41: signing panics on no suite of the table, and verifying only with a key that cannot be read. -/
theorem C41_sign_fine (pr : Prims) (cs : UInt16) (h : 1 ≤ cs.toNat ∧ cs.toNat ≤ 7) (k l c r : Bytes) :
    (signWithLabel pr cs k l c r).Fine := by
  obtain ⟨d, hd⟩ := (C41_known cs).2 h
  unfold signWithLabel
  refine (encSignContent_fine l c).bind fun x _ => ?_
  rw [hd]
  exact fine_orErr _

theorem C41_verify_fine (pr : Prims) (cs : UInt16) (h : 1 ≤ cs.toNat ∧ cs.toNat ≤ 7) (k l c s : Bytes)
    (hk : Spec.Readable pr cs k) : (verifyWithLabel pr cs k l c s).Fine := by
  obtain ⟨d, hd⟩ := (C41_known cs).2 h
  have hf := encSignContent_fine l c
  unfold verifyWithLabel
  rcases Res.fine_iff.1 hf with h | ⟨x, h⟩ <;> rw [h]
  · exact Res.fine_ok _
  · simp only [hd, Res.ok_bind]
    unfold sigVerify
    split
    · next he =>
      have := hk d hd he x s
      cases hv : pr.verify d.sig k x s with
      | none => exact absurd hv this
      | some b => exact Res.fine_ok _
    · exact Res.fine_ok _

/-- C41: with a key that cannot be read, verifying panics in the suites 2, 5 and 7. -/
theorem C41_unreadable (pr : Prims) (cs : UInt16) (d : SuiteDesc) (hd : suite cs = .ok d) (he : d.sig.ecdsa = true) (k l c s x : Bytes)
    (hx : encSignContent l c = .ok x) (hk : pr.verify d.sig k x s = none) : verifyWithLabel pr cs k l c s = .panic := by
  unfold verifyWithLabel sigVerify
  rw [hx]
  simp only [hd, Res.ok_bind, he, if_true, hk]
  rfl

/-- Suites 2, 5 and 7 are the ones with ECDSA, and there are primitives with keys that cannot be read. -/
example : (∀ cs ∈ [2, 5, 7], ∃ d, suite cs = .ok d ∧ d.sig.ecdsa = true ∧ ∀ m s, toyPrims.verify d.sig [] m s = none) ∧
    verifyWithLabel toyPrims 2 [] [1] [2] [3] = .panic := by
  refine ⟨fun cs h => ?_, by decide +kernel⟩
  simp only [List.mem_cons, List.not_mem_nil, or_false] at h
  rcases h with rfl | rfl | rfl
  · exact ⟨_, rfl, rfl, fun _ _ => rfl⟩
  · exact ⟨_, rfl, rfl, fun _ _ => rfl⟩
  · exact ⟨_, rfl, rfl, fun _ _ => rfl⟩

/-- C41: what the test of `Supported` is for: with a supported suite, deriving a key pair from a
derived secret never panics; with the suites 4, 5 and 6 of the table it always does. -/
theorem C41_derive_key_pair (pr : Prims) (hc : pr.Correct) (cs : UInt16) (h : 1 ≤ cs.toNat ∧ cs.toNat ≤ 7)
    (s : Bytes) (label : Bytes) (hl : label.length < 2 ^ 20) :
    ∃ x, deriveSecret pr cs s label = .ok x ∧
      (deriveEncryptionKeyPair pr cs x = .panic ↔ supported cs = .ok false) := by
  obtain ⟨d, hd⟩ := (C41_known cs).2 h
  have hsz := (suite_sizes hd).1
  have hp : (lblPrefix ++ label).length < 2 ^ 30 := by simp [lblPrefix]; omega
  have he : ∃ y, encKdfLabel label [] d.nh = .ok y := by
    unfold encKdfLabel
    rw [writeOpaqueVec_vec hp, writeOpaqueVec_vec (b := []) (by decide)]
    exact ⟨_, rfl⟩
  obtain ⟨y, hy⟩ := he
  refine ⟨pr.expand d.kdf s y d.nh.toNat, ?_, ?_⟩
  · unfold deriveSecret expandWithLabel
    rw [hd]
    simp only [Res.ok_bind, hy]
    rw [if_neg (by omega)]
    rfl
  · unfold deriveEncryptionKeyPair
    rw [hd]
    simp only [Res.ok_bind]
    rw [hc.expand_length _ _ _ _ (by rw [hsz]; exact expandable_secret _), hsz]
    unfold supported
    rw [suite_ok_iff.1 hd]
    simp only [hd, Res.ok_bind]
    by_cases hk : d.kdf.size = d.kem.seedSize
    · rw [if_neg (by omega), if_neg (by omega)]; simp
    · rw [if_pos (by omega), if_pos (by omega)]; simp

example : supported 7 = .ok true ∧ supported 4 = .ok false ∧ supported 0 = .ok false := by decide

/-! ### C35 -/

/-- C35: the secret tree of a group with 2^d leaves: derivation succeeds, the tree has one secret
per node of the complete tree, and each is the RFC's secret of its path from the root. -/
theorem C35_secret_tree (pr : Prims) (cs : UInt16) (sd : SuiteDesc) (hs : suite cs = .ok sd) (d : Nat)
    (hd : d ≤ 31) (encryptionSecret : Bytes) :
    ∃ tree, deriveSecretTree pr cs (2 ^ d) encryptionSecret = .ok tree ∧
      tree.length = 2 ^ (d + 1) - 1 ∧
      ∀ path x, (Spec.ITree.perfect d 0).walk path = some x →
        secretTreeGet tree x = .ok (Spec.nodeSecret pr sd encryptionSecret path) := by
  have hw := width_pow hd
  have hpow : 2 ^ (d + 1) ≤ 2 ^ 32 := Nat.pow_le_pow_right (by decide) (by omega)
  have hpos : 0 < 2 ^ d := Nat.two_pow_pos _
  have hr := idx_range d 0
  obtain ⟨tree, h1, h2, h3, _⟩ := deriveChildren_spec (pr := pr) hs d 0 34
    ((List.replicate (2 ^ (d + 1) - 1) none).set (idx d 0) (some encryptionSecret)) encryptionSecret
    (by omega) (by omega) (by simp) (by simp; omega)
    (by rw [List.getElem?_set_self]; simp; omega)
  refine ⟨tree, ?_, by simp [h2], ?_⟩
  · unfold deriveSecretTree
    rw [hw, root_idx hd, Res.setIdx_of_lt _ (by simp; omega)]
    exact h1
  · intro path x hx
    exact secretTreeGet_of (h3 path x (by simpa using hx))

theorem walk_perfect {t : Spec.ITree} {x : Nat} (h : Spec.ITree.Mem x t) : ∃ p, t.walk p = some x := by
  induction h with
  | leaf x => exact ⟨[], rfl⟩
  | here l x r => exact ⟨[], rfl⟩
  | inl x r _ ih => obtain ⟨p, hp⟩ := ih; exact ⟨false :: p, hp⟩
  | inr l x _ ih => obtain ⟨p, hp⟩ := ih; exact ⟨true :: p, hp⟩

/-- C35: so reading the secret of any leaf of the group never panics. -/
theorem C35_leaf_secret (pr : Prims) (cs : UInt16) (sd : SuiteDesc) (hs : suite cs = .ok sd) (d : Nat)
    (hd : d ≤ 31) (encryptionSecret : Bytes) (li : Nat) (hl : li < 2 ^ d) :
    ∃ tree path, deriveSecretTree pr cs (2 ^ d) encryptionSecret = .ok tree ∧
      (Spec.ITree.perfect d 0).walk path = some (nodeOfLeaf li) ∧
      secretTreeGet tree (nodeOfLeaf li) = .ok (Spec.nodeSecret pr sd encryptionSecret path) := by
  obtain ⟨tree, h1, _, h3⟩ := C35_secret_tree pr cs sd hs d hd encryptionSecret
  have hpow : 2 ^ d ≤ 2 ^ 31 := Nat.pow_le_pow_right (by decide) (by omega)
  have hn : nodeOfLeaf li = 2 * li := Nat.mod_eq_of_lt (by omega)
  have hm : Spec.ITree.Mem (nodeOfLeaf li) (Spec.ITree.perfect d 0) := by
    have := (mem_perfect_range d 0 (nodeOfLeaf li)).2 (by rw [hn, Nat.pow_succ]; omega)
    simpa using this
  obtain ⟨p, hp⟩ := walk_perfect hm
  exact ⟨tree, p, h1, hp, h3 p _ hp⟩

/-- A tree of 4 leaves: leaf 2 is reached by right, left. -/
example : (Spec.ITree.perfect 2 0).walk [true, false] = some (nodeOfLeaf 2) ∧
    (∃ sd, suite 1 = .ok sd) := ⟨by decide, _, rfl⟩

/-! ### C36 -/

/-- C36: fast-forwarding from the root of a ratchet to any generation ends, and gives the RFC's
secret of that generation. -/
theorem C36_fast_forward (pr : Prims) (cs : UInt16) (d : SuiteDesc) (hs : suite cs = .ok d) (root : Bytes)
    (g : UInt32) :
    fastForward pr cs g (2 ^ 32) { secret := root, generation := 0 } =
      .ok { secret := Spec.ratchet pr d root g.toNat, generation := g } := by
  have hg := g.toNat_lt
  exact fastForward_eq (pr := pr) hs root g g.toNat 0 (2 ^ 32) (by omega) (by omega)

/-- C36: it takes exactly `g` derivations: `g` steps of fuel suffice and fewer do not. -/
theorem C36_steps (pr : Prims) (cs : UInt16) (d : SuiteDesc) (hs : suite cs = .ok d) (root : Bytes)
    (g : UInt32) (fuel : Nat) :
    fastForward pr cs g fuel { secret := root, generation := 0 } ≠ .hang ↔ g.toNat ≤ fuel := by
  constructor
  · intro h
    by_cases hf : g.toNat ≤ fuel
    · exact hf
    · exfalso
      apply h
      have key : ∀ (fuel k : Nat) (s : Bytes), k + fuel < g.toNat →
          fastForward pr cs g fuel ⟨s, UInt32.ofNat k⟩ = .hang := by
        intro fuel
        induction fuel with
        | zero =>
          intro k s hk
          have hlt := g.toNat_lt
          have hne : UInt32.ofNat k ≠ g := by
            intro h; rw [← h] at hk; simp at hk; omega
          simp [fastForward, hne]
        | succ fuel ih =>
          intro k s hk
          have hlt := g.toNat_lt
          have hne : UInt32.ofNat k ≠ g := by
            intro h; rw [← h] at hk; simp at hk; omega
          rw [fastForward, if_neg hne, deriveNext_eq hs]
          simp only [Res.ok_bind]
          rw [show UInt32.ofNat k + 1 = UInt32.ofNat (k + 1) from by apply UInt32.toNat_inj.1; simp]
          exact ih (k + 1) _ (by omega)
      exact key fuel 0 root (by omega)
  · intro h
    have := fastForward_eq (pr := pr) hs root g g.toNat 0 fuel (by omega) h
    rw [show (UInt32.ofNat 0) = 0 from rfl] at this
    intro h'
    rw [show ({ secret := root, generation := 0 } : RatchetSecret) = ⟨Spec.ratchet pr d root 0, 0⟩ from rfl, this] at h'
    cases h'

/-- C36: key and nonce of generation `g` are those of the RFC, hence the same on both sides. -/
theorem C36_key_nonce (pr : Prims) (cs : UInt16) (d : SuiteDesc) (hs : suite cs = .ok d) (root : Bytes)
    (g : UInt32) :
    ∃ s, fastForward pr cs g (2 ^ 32) { secret := root, generation := 0 } = .ok s ∧
      s.deriveKey pr cs =
        .ok (Spec.deriveTreeSecret pr d (Spec.ratchet pr d root g.toNat) "key" g.toNat d.aead.keySize) ∧
      s.deriveNonce pr cs =
        .ok (Spec.deriveTreeSecret pr d (Spec.ratchet pr d root g.toNat) "nonce" g.toNat d.aead.nonceSize) := by
  refine ⟨_, C36_fast_forward pr cs d hs root g, ?_, ?_⟩
  · unfold RatchetSecret.deriveKey
    rw [hs]
    simp only [Res.ok_bind]
    have h1 : (UInt16.ofNat d.aead.keySize).toNat = d.aead.keySize := by cases d.aead <;> rfl
    have h2 : d.aead.keySize ≤ 255 * d.kdf.size := by cases d.aead <;> cases d.kdf <;> decide
    rw [deriveTreeSecret_eq hs _ lblKey_name (by decide) _ _ (by omega), h1]
  · unfold RatchetSecret.deriveNonce
    rw [hs]
    simp only [Res.ok_bind]
    have h1 : (UInt16.ofNat d.aead.nonceSize).toNat = d.aead.nonceSize := by cases d.aead <;> rfl
    have h2 : d.aead.nonceSize ≤ 255 * d.kdf.size := by cases d.aead <;> cases d.kdf <;> decide
    rw [deriveTreeSecret_eq hs _ lblNonce_name (by decide) _ _ (by omega), h1]

example : (fastForward toyPrims 1 2 (2 ^ 32) ⟨[5], 0⟩).bind (fun s => .ok s.generation) = .ok 2 := by
  decide +kernel

/-! ### C37 -/

theorem xorGuard_inj {nonce x : Bytes} {g g' : Bytes4} (h : xorGuard nonce g = .ok x)
    (h' : xorGuard nonce g' = .ok x) : g = g' := by
  unfold xorGuard at h h'
  split at h
  · simp only [Res.ok.injEq] at h h'
    rw [← h] at h'
    simp only [List.cons.injEq, and_true] at h'
    obtain ⟨h0, h1, h2, h3⟩ := h'
    have hx : ∀ {n a b : UInt8}, n ^^^ a = n ^^^ b → a = b := by
      intro n a b h
      have := congrArg (fun z => n ^^^ z) h
      simpa [← UInt8.xor_assoc] using this
    cases g; cases g'
    simp only at h0 h1 h2 h3
    rw [hx h0, hx h1, hx h2, hx h3]
  · cases h

/-- C37: under one ratchet secret the key does not depend on the guard, and two nonces are equal
exactly when the guards are. -/
theorem C37_nonces (pr : Prims) (cs : UInt16) (s : RatchetSecret) (g g' : Bytes4) (k k' n n' : Bytes)
    (h : derivePrivateMessageKeyAndNonce pr cs s g = .ok (k, n))
    (h' : derivePrivateMessageKeyAndNonce pr cs s g' = .ok (k', n')) :
    k = k' ∧ (n = n' ↔ g = g') := by
  unfold derivePrivateMessageKeyAndNonce at h h'
  simp only [Res.bind_ok_iff] at h h'
  obtain ⟨a, ha, b, hb, c, hc, he⟩ := h
  obtain ⟨a', ha', b', hb', c', hc', he'⟩ := h'
  cases he; cases he'
  rw [ha] at ha'; cases ha'
  rw [hb] at hb'; cases hb'
  refine ⟨rfl, ?_, ?_⟩
  · rintro rfl; exact xorGuard_inj hc hc'
  · rintro rfl; rw [hc] at hc'; cases hc'; rfl

/-- C37: with primitives of the right output lengths the derivation succeeds for every guard, with
a nonce of the AEAD's size. -/
theorem C37_defined (pr : Prims) (hc : pr.Correct) (cs : UInt16) (d : SuiteDesc) (hs : suite cs = .ok d)
    (s : RatchetSecret) (g : Bytes4) :
    ∃ k n, derivePrivateMessageKeyAndNonce pr cs s g = .ok (k, n) ∧ k.length = d.aead.keySize ∧
      n.length = d.aead.nonceSize := by
  have h1 : (UInt16.ofNat d.aead.keySize).toNat = d.aead.keySize := by cases d.aead <;> rfl
  have h2 : d.aead.keySize ≤ 255 * d.kdf.size := by cases d.aead <;> cases d.kdf <;> decide
  have h3 : (UInt16.ofNat d.aead.nonceSize).toNat = d.aead.nonceSize := by cases d.aead <;> rfl
  have h4 : d.aead.nonceSize ≤ 255 * d.kdf.size := by cases d.aead <;> cases d.kdf <;> decide
  have hn := nonceSize_eq d.aead
  unfold derivePrivateMessageKeyAndNonce RatchetSecret.deriveKey RatchetSecret.deriveNonce
  rw [hs]
  simp only [Res.ok_bind]
  rw [deriveTreeSecret_eq hs _ lblKey_name (by decide) _ _ (by omega), h1,
    deriveTreeSecret_eq hs _ lblNonce_name (by decide) _ _ (by omega), h3]
  simp only [Res.ok_bind]
  have hl : (Spec.deriveTreeSecret pr d s.secret "nonce" s.generation.toNat d.aead.nonceSize).length = 12 := by
    rw [← hn]; exact hc.expand_length _ _ _ _ (expandable_nonce _ _)
  rcases hx : Spec.deriveTreeSecret pr d s.secret "nonce" s.generation.toNat d.aead.nonceSize with
    _ | ⟨n0, _ | ⟨n1, _ | ⟨n2, _ | ⟨n3, rest⟩⟩⟩⟩ <;> rw [hx] at hl <;>
    first
    | (simp at hl; done)
    | (refine ⟨_, _, rfl, hc.expand_length _ _ _ _ (expandable_key _ _), ?_⟩
       simp only [List.length_cons] at hl ⊢
       omega)

example : toyPrims.Correct ∧ (∃ d, suite 1 = .ok d) := ⟨toyPrims_correct, _, rfl⟩

/-! ### C38 -/

/-- The encoded ids of a list of PSKs. -/
def encIds : List PreSharedKeyID → Option (List Bytes)
  | [] => some []
  | id :: ids =>
    match id.enc, encIds ids with
    | .ok b, some bs => some (b :: bs)
    | _, _ => none

/-- The PSK inputs of RFC 9420 section 8.4, from position `i`, of `count` PSKs in all. -/
def Spec.pskInputs (pr : Prims) (d : SuiteDesc) (count : Nat) : Nat → List (Bytes × Bytes) → List Bytes
  | _, [] => []
  | i, (id, psk) :: l => Spec.pskInput pr d id i count psk :: Spec.pskInputs pr d count (i + 1) l

theorem pskLoop_eq {pr : Prims} {cs : UInt16} {d : SuiteDesc} (hs : suite cs = .ok d) (count : Nat)
    (hcount : count < 65536) :
    ∀ (ids : List PreSharedKeyID) (psks : List Bytes) (raw : List Bytes) (i : Nat) (s : Bytes),
      ids.length = psks.length → encIds ids = some raw → i + ids.length = count →
      (∀ b ∈ raw, b.length + 4 < 2 ^ 30) →
      extractPSKSecretLoop pr cs d (UInt16.ofNat count) (List.replicate d.kdf.size 0) i ids psks s =
        .ok ((Spec.pskInputs pr d count i (raw.zip psks)).foldl (fun s i => pr.extract d.kdf s i) s) := by
  intro ids
  induction ids with
  | nil =>
    intro psks raw i s hl hr hi hb
    cases hr
    rfl
  | cons id ids ih =>
    intro psks raw i s hl hr hi hb
    cases psks with
    | nil => cases hl
    | cons psk psks =>
      simp only [List.length_cons] at hl hi
      unfold encIds at hr
      split at hr
      · next b bs hb1 hbs =>
        cases hr
        have hsz := (suite_sizes hs).1
        have hbl := hb b (by simp)
        have e1 : (UInt16.ofNat i).toNat = i := by simp; omega
        have e2 : (UInt16.ofNat count).toNat = count := by simp; omega
        have he : encPskLabel id (UInt16.ofNat i) (UInt16.ofNat count) =
            .ok (b ++ [UInt8.ofNat (i / 256), UInt8.ofNat (i % 256)] ++
              [UInt8.ofNat (count / 256), UInt8.ofNat (count % 256)]) := by
          unfold encPskLabel
          rw [hb1, addU16, addU16, e1, e2, beBytes2, beBytes2]
          rfl
        rw [extractPSKSecretLoop, he]
        simp only [Res.ok_bind]
        rw [expandWithLabel_eq hs _ _ lblDerivedPsk_name (by decide) (by simp; omega) _ (by omega)]
        simp only [Res.ok_bind, hsz]
        rw [ih psks bs (i + 1) _ (by omega) hbs (by omega) (fun b' h => hb b' (by simp [h]))]
        rfl
      · cases hr

/-- C38: with as many secrets as ids (fewer than 65536), the PSK secret is the RFC's chain over all
of them in order, each with its id, position and the count. -/
theorem C38_chain (pr : Prims) (cs : UInt16) (d : SuiteDesc) (hs : suite cs = .ok d)
    (ids : List PreSharedKeyID) (psks : List Bytes) (raw : List Bytes) (hl : ids.length = psks.length)
    (hn : ids.length < 65536) (hr : encIds ids = some raw) (hb : ∀ b ∈ raw, b.length + 4 < 2 ^ 30) :
    extractPSKSecret pr cs ids psks =
      .ok (Spec.pskSecret pr d (Spec.pskInputs pr d ids.length 0 (raw.zip psks))) := by
  unfold extractPSKSecret
  rw [if_neg (by omega), hs]
  simp only [Res.ok_bind]
  exact pskLoop_eq hs ids.length hn ids psks raw 0 _ hl hr (by omega) hb

/-- C38: without PSKs it is the all-zero string of the hash's length. -/
theorem C38_none (pr : Prims) (cs : UInt16) (d : SuiteDesc) (hs : suite cs = .ok d) :
    extractPSKSecret pr cs [] [] = .ok (List.replicate d.kdf.size 0) := by
  unfold extractPSKSecret
  rw [if_neg (by simp), hs]
  rfl

/-- C38: a different number of ids and secrets is an error. -/
theorem C38_mismatch (pr : Prims) (cs : UInt16) (ids : List PreSharedKeyID) (psks : List Bytes)
    (h : ids.length ≠ psks.length) : extractPSKSecret pr cs ids psks = .err := by
  unfold extractPSKSecret
  rw [if_pos h]

/-- C38: each PSK is bound: equal inputs come from equal ids, positions and counts, given the
label string fed to the key derivation. -/
theorem C38_bound (id id' : PreSharedKeyID) (i i' n n' : UInt16) (x : Bytes)
    (h : encPskLabel id i n = .ok x) (h' : encPskLabel id' i' n' = .ok x) :
    id = id' ∧ i = i' ∧ n = n' := by
  simp only [encPskLabel, Enc.append_assoc, Enc.append_ok_iff] at h h'
  obtain ⟨a, _, ha, ⟨b, c, hb, hc, rfl⟩, rfl⟩ := h
  obtain ⟨a', _, ha', ⟨b', c', hb', hc', rfl⟩, he⟩ := h'
  have u1 := pskID_rt _ _ (b ++ c) ha trivial
  have u2 := pskID_rt _ _ (b' ++ c') ha' trivial
  rw [he, u2] at u1
  simp only [Prod.mk.injEq, Res.ok.injEq] at u1
  obtain ⟨rfl, he⟩ := u1
  have u1 := rU16_rt _ _ c hb trivial
  have u2 := rU16_rt _ _ c' hb' trivial
  rw [← he, u2] at u1
  simp only [Prod.mk.injEq, Res.ok.injEq] at u1
  obtain ⟨rfl, he⟩ := u1
  subst he
  have u1 := rU16_rt _ _ [] hc trivial
  have u2 := rU16_rt _ _ [] hc' trivial
  rw [u2] at u1
  simp only [Prod.mk.injEq, Res.ok.injEq] at u1
  exact ⟨rfl, rfl, u1.1.symm⟩

/-- Two external PSKs. -/
example : encIds [⟨.external [1, 2], [9]⟩, ⟨.external [3], [8]⟩] = some [[1, 2, 1, 2, 1, 9], [1, 1, 3, 1, 8]] := by
  decide +kernel

end Mls
