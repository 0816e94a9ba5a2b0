import Verif.Model.Codec
import Verif.Model.Labels
/-
Model of ciphersuite.go. The primitives themselves (hash, HMAC, HKDF, signatures, HPKE,
AEAD) are the parameter `Prims`: total functions on byte strings, with `none` for an error
returned by the library. The table of cipher suites, the sizes, the labels and the byte
strings handed to the primitives are modelled exactly. Randomness is an explicit argument.
-/
namespace Mls

/-- The hash functions of the table; also the HKDF variants (ciphersuite.go:104-140). -/
inductive HashAlg where
  | sha256
  | sha384
  | sha512
  deriving DecidableEq, Repr, Inhabited

/-- `crypto.Hash.Size()`, and `hpke.KDF.ExtractSize()` for the HKDF over that hash. -/
def HashAlg.size : HashAlg → Nat
  | .sha256 => 32
  | .sha384 => 48
  | .sha512 => 64

/-- The KEMs of the table (ciphersuite.go:104-140). -/
inductive Kem where
  | x25519
  | p256
  | p384
  | p521
  | x448
  deriving DecidableEq, Repr, Inhabited

/-- `kem.Scheme().SeedSize()` of circl for each KEM. -/
def Kem.seedSize : Kem → Nat
  | .x25519 => 32
  | .p256 => 32
  | .p384 => 48
  | .p521 => 66
  | .x448 => 56

/-- The AEADs of the table (ciphersuite.go:104-140). -/
inductive Aead where
  | aes128gcm
  | aes256gcm
  | chacha20poly1305
  deriving DecidableEq, Repr, Inhabited

/-- `hpke.AEAD.KeySize()`. -/
def Aead.keySize : Aead → Nat
  | .aes128gcm => 16
  | .aes256gcm => 32
  | .chacha20poly1305 => 32

/-- `hpke.AEAD.NonceSize()`. -/
def Aead.nonceSize : Aead → Nat
  | .aes128gcm => 12
  | .aes256gcm => 12
  | .chacha20poly1305 => 12

/-- The signature schemes of the table (ciphersuite.go:314-404). -/
inductive SigScheme where
  | ed25519
  | ed448
  | ecdsaP256
  | ecdsaP384
  | ecdsaP521
  deriving DecidableEq, Repr, Inhabited

/-- The schemes implemented by ecdsaSignatureScheme (ciphersuite.go:345-379). -/
def SigScheme.ecdsa : SigScheme → Bool
  | .ed25519 => false
  | .ed448 => false
  | .ecdsaP256 => true
  | .ecdsaP384 => true
  | .ecdsaP521 => true

/-- cipherSuiteDescription (ciphersuite.go:98-102), the HPKE suite being (kem, kdf, aead). -/
structure SuiteDesc where
  hash : HashAlg
  kem : Kem
  kdf : HashAlg
  aead : Aead
  sig : SigScheme
  deriving DecidableEq, Repr, Inhabited

/-- cipherSuiteDescriptions (ciphersuite.go:104-140). -/
def cipherSuiteDescriptions (cs : UInt16) : Option SuiteDesc :=
  if cs == 1 then some ⟨.sha256, .x25519, .sha256, .aes128gcm, .ed25519⟩
  else if cs == 2 then some ⟨.sha256, .p256, .sha256, .aes128gcm, .ecdsaP256⟩
  else if cs == 3 then some ⟨.sha256, .x25519, .sha256, .chacha20poly1305, .ed25519⟩
  else if cs == 4 then some ⟨.sha512, .x448, .sha512, .aes256gcm, .ed448⟩
  else if cs == 5 then some ⟨.sha512, .p521, .sha512, .aes256gcm, .ecdsaP521⟩
  else if cs == 6 then some ⟨.sha512, .x448, .sha512, .chacha20poly1305, .ed448⟩
  else if cs == 7 then some ⟨.sha384, .p384, .sha384, .aes256gcm, .ecdsaP384⟩
  else none

/-- CipherSuite.hash / hpke / signatureScheme (ciphersuite.go:74-96): panic outside the table. -/
def suite (cs : UInt16) : Res SuiteDesc := Res.deref (cipherSuiteDescriptions cs)

/-- CipherSuite.Supported (ciphersuite.go:59-72). -/
def supported (cs : UInt16) : Res Bool :=
  match cipherSuiteDescriptions cs with
  | none => .ok false
  | some _ => do
    let d ← suite cs
    if d.kem.seedSize ≠ d.kdf.size then return false else return true

/-- The cryptographic library. -/
structure Prims where
  /-- `hash.New(); Write; Sum` -/
  hash : HashAlg → Bytes → Bytes
  /-- HMAC: key, message -/
  mac : HashAlg → Bytes → Bytes → Bytes
  /-- `kdf.Extract(secret, salt)` -/
  extract : HashAlg → Bytes → Bytes → Bytes
  /-- `kdf.Expand(prk, info, length)` -/
  expand : HashAlg → Bytes → Bytes → Nat → Bytes
  /-- `Sign(signKey, message)` with the randomness it draws -/
  sign : SigScheme → Bytes → Bytes → Bytes → Option Bytes
  /-- `Verify(publicKey, message, sig)`; `none` when it panics -/
  verify : SigScheme → Bytes → Bytes → Bytes → Option Bool
  /-- `GenerateKeyPair()` of a signature scheme: public, private -/
  sigKeyPair : SigScheme → Bytes → Bytes × Bytes
  /-- HPKE base mode single shot: kem, kdf, aead, public key, info, plaintext, randomness ↦
  (kem output, ciphertext) -/
  hpkeSeal : SuiteDesc → Bytes → Bytes → Bytes → Bytes → Option (Bytes × Bytes)
  /-- HPKE base mode single shot: private key, info, kem output, ciphertext -/
  hpkeOpen : SuiteDesc → Bytes → Bytes → Bytes → Bytes → Option Bytes
  /-- `kem.Scheme().DeriveKeyPair(seed)` for a seed of the right size: public, private -/
  kemDeriveKeyPair : Kem → Bytes → Bytes × Bytes
  /-- `kem.Scheme().GenerateKeyPair()`: public, private -/
  kemKeyPair : Kem → Bytes → Bytes × Bytes
  /-- `aead.New(key)` then `Seal(nonce, plaintext, aad)`; `none` when New refuses the key -/
  aeadSeal : Aead → Bytes → Bytes → Bytes → Bytes → Option Bytes
  /-- `aead.New(key)` then `Open(nonce, ciphertext, aad)` -/
  aeadOpen : Aead → Bytes → Bytes → Bytes → Bytes → Option Bytes

/-- An error returned by the library. -/
def orErr {α : Type} : Option α → Res α
  | some a => .ok a
  | none => .err

variable (pr : Prims)

/-- CipherSuite.signMAC (ciphersuite.go:142-147). -/
def signMAC (cs : UInt16) (key message : Bytes) : Res Bytes := do
  let d ← suite cs
  return pr.mac d.hash key message

/-- CipherSuite.verifyMAC (ciphersuite.go:149-151). -/
def verifyMAC (cs : UInt16) (key message tag : Bytes) : Res Bool := do
  let t ← signMAC pr cs key message
  return tag == t

/-- The builder of refHash (ciphersuite.go:154-157). -/
def encRefHashInput (label value : Bytes) : Enc := writeOpaqueVec label ++ writeOpaqueVec value

/-- CipherSuite.refHash (ciphersuite.go:153-165). -/
def refHash (cs : UInt16) (label value : Bytes) : Res Bytes := do
  let input ← (encRefHashInput label value : Res Bytes)
  let d ← suite cs
  return pr.hash d.hash input

/-- The builder of expandWithLabel (ciphersuite.go:168-174). -/
def encKdfLabel (label context : Bytes) (length : UInt16) : Enc :=
  addU16 length ++ writeOpaqueVec (lblPrefix ++ label) ++ writeOpaqueVec context

/-- CipherSuite.expandWithLabel (ciphersuite.go:167-181). circl's Expand panics when the
length exceeds 255 times the hash size. -/
def expandWithLabel (cs : UInt16) (secret label context : Bytes) (length : UInt16) : Res Bytes := do
  let kdfLabel ← (encKdfLabel label context length : Res Bytes)
  let d ← suite cs
  if length.toNat > 255 * d.kdf.size then .panic
  else return pr.expand d.kdf secret kdfLabel length.toNat

/-- `uint16(kdf.ExtractSize())`. -/
def SuiteDesc.nh (d : SuiteDesc) : UInt16 := UInt16.ofNat d.kdf.size

/-- CipherSuite.deriveSecret (ciphersuite.go:183-186). -/
def deriveSecret (cs : UInt16) (secret label : Bytes) : Res Bytes := do
  let d ← suite cs
  expandWithLabel pr cs secret label [] d.nh

/-- marshalSignContent (ciphersuite.go:296-303). -/
def encSignContent (label content : Bytes) : Enc :=
  writeOpaqueVec (lblPrefix ++ label) ++ writeOpaqueVec content

/-- marshalEncryptContext (ciphersuite.go:305-312). -/
def encEncryptContext (label context : Bytes) : Enc :=
  writeOpaqueVec (lblPrefix ++ label) ++ writeOpaqueVec context

/-- CipherSuite.signWithLabel (ciphersuite.go:188-195). -/
def signWithLabel (cs : UInt16) (signKey label content rand : Bytes) : Res Bytes := do
  let signContent ← (encSignContent label content : Res Bytes)
  let d ← suite cs
  orErr (pr.sign d.sig signKey signContent rand)

/-- The Verify methods of the signature schemes (ciphersuite.go:330-335, 366-370, 391-396). Those of Ed25519 and
Ed448 check the length of the key and return. The one of ECDSA does not check what elliptic.Unmarshal
returned: for bytes that are no point of the curve the coordinates are nil, and ecdsa.VerifyASN1
dereferences them. -/
def sigVerify (s : SigScheme) (publicKey message sig : Bytes) : Res Bool :=
  if s.ecdsa then Res.deref (pr.verify s publicKey message sig)
  else return pr.verify s publicKey message sig == some true

/-- CipherSuite.verifyWithLabel (ciphersuite.go:197-204). -/
def verifyWithLabel (cs : UInt16) (verifKey label content signValue : Bytes) : Res Bool :=
  match encSignContent label content with
  | .ok signContent => do
    let d ← suite cs
    sigVerify pr d.sig verifKey signContent signValue
  | .err => .ok false
  | .panic => .panic
  | .hang => .hang

/-- CipherSuite.encryptWithLabel (ciphersuite.go:206-231). -/
def encryptWithLabel (cs : UInt16) (publicKey label context plaintext rand : Bytes) :
    Res HpkeCiphertext := do
  let encryptContext ← (encEncryptContext label context : Res Bytes)
  let d ← suite cs
  let (kemOutput, ciphertext) ← orErr (pr.hpkeSeal d publicKey encryptContext plaintext rand)
  return { kemOutput, ciphertext }

/-- CipherSuite.decryptWithLabel (ciphersuite.go:233-257). -/
def decryptWithLabel (cs : UInt16) (privateKey label context : Bytes) (c : HpkeCiphertext) :
    Res Bytes := do
  let encryptContext ← (encEncryptContext label context : Res Bytes)
  let d ← suite cs
  orErr (pr.hpkeOpen d privateKey encryptContext c.kemOutput c.ciphertext)

/-- CipherSuite.generateEncryptionKeyPair (ciphersuite.go:259-277): public, private. -/
def generateEncryptionKeyPair (cs : UInt16) (rand : Bytes) : Res (Bytes × Bytes) := do
  let d ← suite cs
  return pr.kemKeyPair d.kem rand

/-- CipherSuite.deriveEncryptionKeyPair (ciphersuite.go:279-294): public, private. circl's
DeriveKeyPair panics on a seed of the wrong size. -/
def deriveEncryptionKeyPair (cs : UInt16) (seed : Bytes) : Res (Bytes × Bytes) := do
  let d ← suite cs
  if seed.length ≠ d.kem.seedSize then .panic
  else return pr.kemDeriveKeyPair d.kem seed

/-- `aead.New(key)`, `Seal(nil, nonce, plaintext, aad)` (framing.go:795-801 and others). -/
def aeadSeal (cs : UInt16) (key nonce plaintext aad : Bytes) : Res Bytes := do
  let d ← suite cs
  orErr (pr.aeadSeal d.aead key nonce plaintext aad)

/-- `aead.New(key)`, `Open(nil, nonce, ciphertext, aad)` (framing.go:617-626 and others). -/
def aeadOpen (cs : UInt16) (key nonce ciphertext aad : Bytes) : Res Bytes := do
  let d ← suite cs
  orErr (pr.aeadOpen d.aead key nonce ciphertext aad)

/-- What the theorems about successful communication assume of the library: outputs have the
length asked for, decryption undoes encryption under matching keys, signatures made with a
generated key verify under its public key, and a key under which something verifies can be read. -/
structure Prims.Correct : Prop where
  hash_length : ∀ a m, (pr.hash a m).length = a.size
  mac_length : ∀ a k m, (pr.mac a k m).length = a.size
  extract_length : ∀ a s t, (pr.extract a s t).length = a.size
  expand_length : ∀ a k i n, n ≤ 255 * a.size → (pr.expand a k i n).length = n
  aead_seal : ∀ a k n p d, k.length = a.keySize → n.length = 12 → p.length ≤ 2 ^ 36 - 32 → ∃ c, pr.aeadSeal a k n p d = some c
  aead_open : ∀ a k n p d c, pr.aeadSeal a k n p d = some c → pr.aeadOpen a k n c d = some p
  hpke_open_gen : ∀ s r info p rand kemOut ct,
    pr.hpkeSeal s (pr.kemKeyPair s.kem r).1 info p rand = some (kemOut, ct) →
    pr.hpkeOpen s (pr.kemKeyPair s.kem r).2 info kemOut ct = some p
  hpke_open_derive : ∀ s seed info p rand kemOut ct,
    pr.hpkeSeal s (pr.kemDeriveKeyPair s.kem seed).1 info p rand = some (kemOut, ct) →
    pr.hpkeOpen s (pr.kemDeriveKeyPair s.kem seed).2 info kemOut ct = some p
  sign_verify : ∀ s r m rand sig, pr.sign s (pr.sigKeyPair s r).2 m rand = some sig →
    pr.verify s (pr.sigKeyPair s r).1 m sig = some true
  verify_readable : ∀ s k m sig, pr.verify s k m sig = some true → ∀ m' sig', pr.verify s k m' sig' ≠ none

/-- The lengths that the library asks for are within the limit. -/
theorem expandable_secret (a : HashAlg) : a.size ≤ 255 * a.size := by omega
theorem expandable_key (a : HashAlg) (e : Aead) : e.keySize ≤ 255 * a.size := by cases a <;> cases e <;> decide
theorem expandable_nonce (a : HashAlg) (e : Aead) : e.nonceSize ≤ 255 * a.size := by cases a <;> cases e <;> decide

end Mls
