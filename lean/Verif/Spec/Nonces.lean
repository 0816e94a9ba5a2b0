import Verif.Spec.Private
/-
Keys and nonces of the private messages of an epoch.
-/
namespace Mls.Spec

/-- The AEAD adds a key stream to the plaintext, as AES-GCM and ChaCha20-Poly1305 do: byte `j` of the
ciphertext is byte `j` of the plaintext plus a byte that depends on key, nonce and `j` only. -/
def StreamCipher (pr : Prims) : Prop :=
  ∃ stream : Aead → Bytes → Bytes → Nat → UInt8, ∀ a k n p aad c, pr.aeadSeal a k n p aad = some c →
    ∀ j b, p[j]? = some b → c[j]? = some (b ^^^ stream a k n j)

/-- The number of bytes of the length in front of `n` bytes (RFC 9420 section 2.1.2). -/
def lengthSize (n : Nat) : Nat := if n < 2 ^ 6 then 1 else if n < 2 ^ 14 then 2 else 4

variable (pr : Prims) (d : SuiteDesc)

/-- The inputs (secret, info, length) of the key derivations that lead from the encryption secret of the epoch to the keys of
the private messages of a group of 2^depth leaves (RFC 9420 section 9). -/
inductive MessageInput (epochSecret : Bytes) (depth : Nat) : Bytes × Bytes × Nat → Prop where
  | node (path : List Bool) (right : Bool) : path.length < depth →
    MessageInput epochSecret depth (nodeSecret pr d (deriveSecret pr d epochSecret "encryption") path,
      kdfLabel d.kdf.size "tree" (ascii (if right then "right" else "left")), d.kdf.size)
  | ratchet (li : Nat) (ct : ContentType) : li < 2 ^ depth →
    MessageInput epochSecret depth (nodeSecret pr d (deriveSecret pr d epochSecret "encryption") (leafPath depth li),
      kdfLabel d.kdf.size (ratchetName ct) [], d.kdf.size)
  | next (li : Nat) (ct : ContentType) (gen : Nat) : li < 2 ^ depth → gen < 2 ^ 32 →
    MessageInput epochSecret depth (messageSecret pr d epochSecret depth li ct gen,
      kdfLabel d.kdf.size "secret" (be4 gen), d.kdf.size)
  | key (li : Nat) (ct : ContentType) (gen : Nat) : li < 2 ^ depth → gen < 2 ^ 32 →
    MessageInput epochSecret depth (messageSecret pr d epochSecret depth li ct gen,
      kdfLabel d.aead.keySize "key" (be4 gen), d.aead.keySize)

/-- Two different ones of these inputs give the same output. -/
def MessageCollision (epochSecret : Bytes) (depth : Nat) : Prop :=
  ∃ x y : Bytes × Bytes × Nat, MessageInput pr d epochSecret depth x ∧ MessageInput pr d epochSecret depth y ∧ x ≠ y ∧
    x.2.2 = y.2.2 ∧ pr.expand d.kdf x.1 x.2.1 x.2.2 = pr.expand d.kdf y.1 y.2.1 y.2.2

end Mls.Spec
