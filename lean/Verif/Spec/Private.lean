import Verif.Spec.Schedule
import Verif.Model.Types
/-
Independent specification of the protection of private messages (RFC 9420 sections 6.3 and 9)
over the uninterpreted primitives.
-/
namespace Mls.Spec

/-- The turns from the root of a tree of 2^depth leaves to a leaf: right when the leaf is in the
right half. -/
def leafPath : Nat → Nat → List Bool
  | 0, _ => []
  | k + 1, li => decide (2 ^ k ≤ li) :: leafPath k (if 2 ^ k ≤ li then li - 2 ^ k else li)

/-- RFC 9420 section 6: the number of a content type. -/
def contentTypeNumber : ContentType → UInt8
  | .application => 1
  | .proposal => 2
  | .commit => 3

/-- RFC 9420 section 9: application data has its own ratchet, proposals and commits share one. -/
def ratchetName : ContentType → String
  | .application => "application"
  | .proposal => "handshake"
  | .commit => "handshake"

/-- A uint32, most significant byte first. -/
def be4 (n : Nat) : Bytes :=
  [UInt8.ofNat (n / 16777216), UInt8.ofNat (n / 65536 % 256), UInt8.ofNat (n / 256 % 256), UInt8.ofNat (n % 256)]

/-- A uint64, most significant byte first. -/
def be8 (n : Nat) : Bytes := be4 (n / 4294967296) ++ be4 (n % 4294967296)

/-- The bytes of a nonce, the first ones masked by the reuse guard (RFC 9420 section 6.3.1). -/
def mask (nonce guard : Bytes) : Bytes := List.zipWith (· ^^^ ·) nonce guard ++ nonce.drop guard.length

variable (pr : Prims) (d : SuiteDesc)

/-- RFC 9420 section 9.1: the secret of generation `gen` of a leaf's ratchet, in a tree of 2^depth leaves. -/
def messageSecret (epochSecret : Bytes) (depth li : Nat) (ct : ContentType) (gen : Nat) : Bytes :=
  ratchet pr d
    (expandWithLabel pr d (nodeSecret pr d (deriveSecret pr d epochSecret "encryption") (leafPath depth li))
      (ratchetName ct) [] d.kdf.size) gen

/-- RFC 9420 section 9.1: the key of a private message. -/
def messageKey (epochSecret : Bytes) (depth li : Nat) (ct : ContentType) (gen : Nat) : Bytes :=
  deriveTreeSecret pr d (messageSecret pr d epochSecret depth li ct gen) "key" gen d.aead.keySize

/-- RFC 9420 sections 6.3.1 and 9.1: the nonce of a private message. -/
def messageNonce (epochSecret : Bytes) (depth li : Nat) (ct : ContentType) (gen : Nat) (guard : Bytes) : Bytes :=
  mask (deriveTreeSecret pr d (messageSecret pr d epochSecret depth li ct gen) "nonce" gen d.aead.nonceSize) guard

/-- RFC 9420 section 6.3.2: the key protecting the sender data. -/
def senderDataKey (epochSecret ciphertext : Bytes) : Bytes :=
  expandWithLabel pr d (deriveSecret pr d epochSecret "sender data") "key" (ciphertext.take d.kdf.size) d.aead.keySize

/-- RFC 9420 section 6.3.2: the nonce protecting the sender data. -/
def senderDataNonce (epochSecret ciphertext : Bytes) : Bytes :=
  expandWithLabel pr d (deriveSecret pr d epochSecret "sender data") "nonce" (ciphertext.take d.kdf.size)
    d.aead.nonceSize

/-- RFC 9420 section 6.3.2: struct SenderData. -/
def senderData (li gen : Nat) (guard : Bytes) : Bytes := be4 li ++ be4 gen ++ guard

/-- RFC 9420 section 6.3.2: struct SenderDataAAD. -/
def senderDataAAD (groupID : Bytes) (epoch : Nat) (ct : ContentType) : Bytes :=
  vec groupID ++ be8 epoch ++ [contentTypeNumber ct]

/-- RFC 9420 section 6.3.1: struct PrivateContentAAD. -/
def contentAAD (groupID : Bytes) (epoch : Nat) (ct : ContentType) (authenticatedData : Bytes) : Bytes :=
  vec groupID ++ be8 epoch ++ [contentTypeNumber ct] ++ vec authenticatedData

end Mls.Spec
