import Verif.Model.Crypto
import Verif.Spec.Wire
/-
Independent specification of the derivations of RFC 9420 (sections 5.1, 8 and 9) over the
uninterpreted primitives, with labels written as strings.
-/
namespace Mls.Spec

/-- The ASCII bytes of a string. -/
def ascii (s : String) : Bytes := s.toList.map fun c => UInt8.ofNat c.toNat

/-- A vector that is short enough to be encoded. -/
def vec (b : Bytes) : Bytes := (opaqueVec b).getD []

/-- RFC 9420 section 8: struct KDFLabel. -/
def kdfLabel (length : Nat) (label : String) (context : Bytes) : Bytes :=
  [UInt8.ofNat (length / 256), UInt8.ofNat (length % 256)] ++ vec (ascii ("MLS 1.0 " ++ label)) ++ vec context

variable (pr : Prims) (d : SuiteDesc)

/-- RFC 9420 section 8: ExpandWithLabel. -/
def expandWithLabel (secret : Bytes) (label : String) (context : Bytes) (length : Nat) : Bytes :=
  pr.expand d.kdf secret (kdfLabel length label context) length

/-- RFC 9420 section 8: DeriveSecret. -/
def deriveSecret (secret : Bytes) (label : String) : Bytes :=
  expandWithLabel pr d secret label [] d.kdf.size

/-- RFC 9420 section 9.1: DeriveTreeSecret, the generation being a uint32. -/
def deriveTreeSecret (secret : Bytes) (label : String) (generation length : Nat) : Bytes :=
  expandWithLabel pr d secret label
    [UInt8.ofNat (generation / 16777216), UInt8.ofNat (generation / 65536 % 256),
     UInt8.ofNat (generation / 256 % 256), UInt8.ofNat (generation % 256)] length

/-- RFC 9420 section 9.1: the ratchet secret of a generation. -/
def ratchet (root : Bytes) : Nat → Bytes
  | 0 => root
  | g + 1 => deriveTreeSecret pr d (ratchet root g) "secret" g d.kdf.size

/-- RFC 9420 section 9: the secret of the node reached from the root by a path of left (`false`)
and right (`true`) turns. -/
def nodeSecret (encryptionSecret : Bytes) : List Bool → Bytes
  | path => path.foldl (fun s b => expandWithLabel pr d s "tree" (ascii (if b then "right" else "left")) d.kdf.size)
      encryptionSecret

/-- RFC 9420 section 8.4: the PSK secret; `pskInputs` are the inputs in order. -/
def pskSecret (pskInputs : List Bytes) : Bytes :=
  pskInputs.foldl (fun s i => pr.extract d.kdf s i) (List.replicate d.kdf.size 0)

/-- RFC 9420 section 8.4: the input of the PSK at position `i` of `count`, `id` being its encoded
PreSharedKeyID. -/
def pskInput (id : Bytes) (i count : Nat) (psk : Bytes) : Bytes :=
  expandWithLabel pr d (pr.extract d.kdf psk (List.replicate d.kdf.size 0)) "derived psk"
    (id ++ [UInt8.ofNat (i / 256), UInt8.ofNat (i % 256)] ++
      [UInt8.ofNat (count / 256), UInt8.ofNat (count % 256)]) d.kdf.size

/-- The cipher suites of RFC 9420 section 17.1. -/
def suites : List (Nat × SuiteDesc) := [
  (1, ⟨.sha256, .x25519, .sha256, .aes128gcm, .ed25519⟩),
  (2, ⟨.sha256, .p256, .sha256, .aes128gcm, .ecdsaP256⟩),
  (3, ⟨.sha256, .x25519, .sha256, .chacha20poly1305, .ed25519⟩),
  (4, ⟨.sha512, .x448, .sha512, .aes256gcm, .ed448⟩),
  (5, ⟨.sha512, .p521, .sha512, .aes256gcm, .ecdsaP521⟩),
  (6, ⟨.sha512, .x448, .sha512, .chacha20poly1305, .ed448⟩),
  (7, ⟨.sha384, .p384, .sha384, .aes256gcm, .ecdsaP384⟩)]

end Mls.Spec
