import Verif.Conformance.Aead
import Verif.Conformance.Curves
/-
The primitives of the cipher suites, with HPKE (RFC 9180), for running the model on the test vectors of the repository.
No theorem about the library depends on this file.
-/
namespace Mls.Conformance

def kemId : Kem → Nat
  | .p256 => 0x10
  | .p384 => 0x11
  | .p521 => 0x12
  | .x25519 => 0x20
  | .x448 => 0x21

def kemHash : Kem → HashAlg
  | .p256 => .sha256
  | .p384 => .sha384
  | .p521 => .sha512
  | .x25519 => .sha256
  | .x448 => .sha512

def kdfId : HashAlg → Nat
  | .sha256 => 1
  | .sha384 => 2
  | .sha512 => 3

def aeadId : Aead → Nat
  | .aes128gcm => 1
  | .aes256gcm => 2
  | .chacha20poly1305 => 3

def str (s : String) : Bytes := s.toUTF8.toList

def labeledExtract (h : HashAlg) (suiteId salt : Bytes) (label : String) (ikm : Bytes) : Bytes :=
  hkdfExtract h (str "HPKE-v1" ++ suiteId ++ str label ++ ikm) salt

def labeledExpand (h : HashAlg) (suiteId prk : Bytes) (label : String) (info : Bytes) (n : Nat) : Bytes :=
  hkdfExpand h prk (natToBE n 2 ++ str "HPKE-v1" ++ suiteId ++ str label ++ info) n

def kemSuite (k : Kem) : Bytes := str "KEM" ++ natToBE (kemId k) 2

def kemPublic : Kem → Bytes → Bytes
  | .x25519, sk => x25519 sk (natToLE 9 32)
  | .x448, sk => x448 sk (natToLE 5 56)
  | .p256, sk => p256.enc (p256.mul (natOfBE sk) p256.base)
  | .p384, sk => p384.enc (p384.mul (natOfBE sk) p384.base)
  | .p521, sk => p521.enc (p521.mul (natOfBE sk) p521.base)

def kemPrivSize : Kem → Nat
  | .x25519 => 32
  | .x448 => 56
  | .p256 => 32
  | .p384 => 48
  | .p521 => 66

/-- Diffie-Hellman: private and public key. -/
def kemDH : Kem → Bytes → Bytes → Option Bytes
  | .x25519, sk, pk => if pk.length ≠ 32 then none else let s := x25519 sk pk; if s.all (· == 0) then none else some s
  | .x448, sk, pk => if pk.length ≠ 56 then none else let s := x448 sk pk; if s.all (· == 0) then none else some s
  | .p256, sk, pk => p256.dh sk pk
  | .p384, sk, pk => p384.dh sk pk
  | .p521, sk, pk => p521.dh sk pk

def nistCandidate (k : Kem) (c : Nist) (mask : UInt8) (prk : Bytes) : Nat → Nat → Bytes
  | 0, _ => []
  | fuel + 1, i =>
    let b := labeledExpand (kemHash k) (kemSuite k) prk "candidate" [UInt8.ofNat i] c.size
    let b := match b with
      | x :: r => (x &&& mask) :: r
      | [] => []
    let n := natOfBE b
    if n == 0 || n ≥ c.n then nistCandidate k c mask prk fuel (i + 1) else b

def kemDerive (k : Kem) (ikm : Bytes) : Bytes × Bytes :=
  let prk := labeledExtract (kemHash k) (kemSuite k) [] "dkp_prk" ikm
  let sk := match k with
    | .x25519 => labeledExpand (kemHash k) (kemSuite k) prk "sk" [] 32
    | .x448 => labeledExpand (kemHash k) (kemSuite k) prk "sk" [] 56
    | .p256 => nistCandidate k p256 0xff prk 256 0
    | .p384 => nistCandidate k p384 0xff prk 256 0
    | .p521 => nistCandidate k p521 0x01 prk 256 0
  (kemPublic k sk, sk)

def kemShared (k : Kem) (dh ctx : Bytes) : Bytes :=
  let prk := labeledExtract (kemHash k) (kemSuite k) [] "eae_prk" dh
  labeledExpand (kemHash k) (kemSuite k) prk "shared_secret" ctx (kemHash k).size

/-- The key and nonce of the first message in base mode. -/
def hpkeKeys (d : SuiteDesc) (shared info : Bytes) : Bytes × Bytes :=
  let id := str "HPKE" ++ natToBE (kemId d.kem) 2 ++ natToBE (kdfId d.kdf) 2 ++ natToBE (aeadId d.aead) 2
  let ctx := [0] ++ labeledExtract d.kdf id [] "psk_id_hash" [] ++ labeledExtract d.kdf id [] "info_hash" info
  let secret := labeledExtract d.kdf id shared "secret" []
  (labeledExpand d.kdf id secret "key" ctx d.aead.keySize, labeledExpand d.kdf id secret "base_nonce" ctx 12)

def hpkeSealReal (d : SuiteDesc) (pub info p rand : Bytes) : Option (Bytes × Bytes) := do
  let (enc, sk) := kemDerive d.kem (hashOf .sha512 rand)
  let dh ← kemDH d.kem sk pub
  let (key, nonce) := hpkeKeys d (kemShared d.kem dh (enc ++ pub)) info
  let ct ← aeadSealReal d.aead key nonce p []
  return (enc, ct)

def hpkeOpenReal (d : SuiteDesc) (priv info enc ct : Bytes) : Option Bytes := do
  if priv.length ≠ kemPrivSize d.kem then none
  let dh ← kemDH d.kem priv enc
  let (key, nonce) := hpkeKeys d (kemShared d.kem dh (enc ++ kemPublic d.kem priv)) info
  aeadOpenReal d.aead key nonce ct []

def minimal (b : Bytes) : Bytes := b.dropWhile (· == 0)

def nistKeyPair (c : Nist) (rand : Bytes) : Bytes × Bytes :=
  let d := natOfBE (hashOf .sha512 rand ++ hashOf .sha512 (0 :: rand)) % (c.n - 1) + 1
  (c.enc (c.mul d c.base), minimal (natToBE d c.size))

/-- The primitives of all seven suites. -/
def realPrims : Prims where
  hash := hashOf
  mac := hmac
  extract := hkdfExtract
  expand := hkdfExpand
  sign
    | .ed25519, k, m, _ => ed25519Sign k m
    | .ed448, k, m, _ => ed448Sign k m
    | .ecdsaP256, k, m, r => p256.sign .sha256 k m r
    | .ecdsaP384, k, m, r => p384.sign .sha384 k m r
    | .ecdsaP521, k, m, r => p521.sign .sha512 k m r
  verify
    | .ed25519, k, m, s => some (ed25519Verify k m s)
    | .ed448, k, m, s => some (ed448Verify k m s)
    | .ecdsaP256, k, m, s => p256.verify .sha256 k m s
    | .ecdsaP384, k, m, s => p384.verify .sha384 k m s
    | .ecdsaP521, k, m, s => p521.verify .sha512 k m s
  sigKeyPair
    | .ed25519, r => let s := hashOf .sha256 r; ((ed25519Public s).1, s)
    | .ed448, r => let s := shake256 r 57; ((ed448Public s).1, s)
    | .ecdsaP256, r => nistKeyPair p256 r
    | .ecdsaP384, r => nistKeyPair p384 r
    | .ecdsaP521, r => nistKeyPair p521 r
  hpkeSeal := hpkeSealReal
  hpkeOpen := hpkeOpenReal
  kemDeriveKeyPair := kemDerive
  kemKeyPair k r := kemDerive k (hashOf .sha512 r)
  aeadSeal := aeadSealReal
  aeadOpen := aeadOpenReal

end Mls.Conformance
