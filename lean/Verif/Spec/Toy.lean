import Verif.Model.Crypto
/-
Toy primitives: a concrete instance of `Prims` that satisfies `Prims.Correct`, so that the
theorems with that hypothesis are not vacuous, and on which examples can be computed by the
kernel. Keys are equal to their private halves; nothing here is secure.
-/
namespace Mls

/-- A one-byte checksum. -/
def toySum (m : Bytes) : UInt8 := m.foldl (fun h b => (h ^^^ (h >>> 3)) * 31 + b) 7

/-- What is left of `c` after the prefix `p`. -/
def stripPrefix (p c : Bytes) : Option Bytes := if c.take p.length = p then some (c.drop p.length) else none

theorem stripPrefix_append (p c : Bytes) : stripPrefix p (p ++ c) = some c := by
  simp [stripPrefix]

theorem stripPrefix_some {p c x : Bytes} (h : stripPrefix p c = some x) : c = p ++ x := by
  unfold stripPrefix at h
  split at h
  · next hp => cases h; conv => lhs; rw [← List.take_append_drop p.length c, hp]
  · cases h

/-- Toy primitives. -/
def toyPrims : Prims where
  hash a m := List.replicate a.size (toySum m)
  mac a k m := List.replicate a.size (toySum (k ++ m))
  extract a s t := List.replicate a.size (toySum (s ++ t))
  expand _ k i n := List.replicate n (toySum (k ++ i))
  sign _ k m _ := some (k ++ m)
  verify s k m sig := if s.ecdsa && k.isEmpty then none else some (sig == k ++ m)
  sigKeyPair s r := if s.ecdsa && r.isEmpty then ([0], [0]) else (r, r)
  hpkeSeal _ pub info p _ := some (pub, info ++ p)
  hpkeOpen _ priv info kemOut ct := if kemOut = priv then stripPrefix info ct else none
  kemDeriveKeyPair _ seed := (seed, seed)
  kemKeyPair _ r := (r, r)
  aeadSeal a k n p d := if k.length = a.keySize then some (k ++ n ++ d ++ p) else none
  aeadOpen a k n c d := if k.length = a.keySize then stripPrefix (k ++ n ++ d) c else none

theorem toyPrims_correct : toyPrims.Correct where
  hash_length a m := by simp [toyPrims]
  mac_length a k m := by simp [toyPrims]
  extract_length a s t := by simp [toyPrims]
  expand_length a k i n _ := by simp [toyPrims]
  aead_seal a k n p d h _ _ := by simp [toyPrims, h]
  aead_open a k n p d c h := by
    simp only [toyPrims] at h ⊢
    split at h
    · next hk => cases h; rw [if_pos hk]; exact stripPrefix_append _ _
    · cases h
  hpke_open_gen s r info p rand kemOut ct h := by
    simp only [toyPrims, Option.some.injEq, Prod.mk.injEq] at h ⊢
    obtain ⟨rfl, rfl⟩ := h
    simp [stripPrefix_append]
  hpke_open_derive s r info p rand kemOut ct h := by
    simp only [toyPrims, Option.some.injEq, Prod.mk.injEq] at h ⊢
    obtain ⟨rfl, rfl⟩ := h
    simp [stripPrefix_append]
  sign_verify s r m rand sig h := by
    simp only [toyPrims, Option.some.injEq] at h ⊢
    subst h
    cases he : s.ecdsa <;> cases r <;> simp
  verify_readable s k m sig h m' sig' := by
    simp only [toyPrims] at h ⊢
    split at h
    · cases h
    · next hk => rw [if_neg hk]; simp

end Mls
