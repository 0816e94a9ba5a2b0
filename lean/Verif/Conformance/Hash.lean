import Verif.Model.Crypto
/-
Hash functions for running the model on the test vectors of the repository: SHA-2 (FIPS 180-4), SHAKE256 (FIPS 202),
HMAC (RFC 2104) and HKDF (RFC 5869). No theorem about the library depends on this file.
-/
namespace Mls.Conformance

/-- The largest `r` below 2^bits with `r ^ k ≤ n`. -/
def iroot (k n bits : Nat) : Nat :=
  (List.range bits).foldr (fun b r => let r' := r + 2 ^ b; if r' ^ k ≤ n then r' else r) 0

/-- The first `n` primes. -/
def primes (n : Nat) : List Nat :=
  ((List.range 420).filter fun p => 2 ≤ p && (List.range p).all fun d => d < 2 || p % d ≠ 0).take n

/-- The first `w` bits of the fraction of the `k`-th root of `p`. -/
def rootFraction (k w p : Nat) : Nat := iroot k (p * 2 ^ (k * w)) (w + 8) % 2 ^ w

def sha256K : Array UInt32 := ((primes 64).map fun p => UInt32.ofNat (rootFraction 3 32 p)).toArray
def sha512K : Array UInt64 := ((primes 80).map fun p => UInt64.ofNat (rootFraction 3 64 p)).toArray
def sha256H : Array UInt32 := ((primes 8).map fun p => UInt32.ofNat (rootFraction 2 32 p)).toArray
def sha512H : Array UInt64 := ((primes 8).map fun p => UInt64.ofNat (rootFraction 2 64 p)).toArray
def sha384H : Array UInt64 := (((primes 16).drop 8).map fun p => UInt64.ofNat (rootFraction 2 64 p)).toArray

def rotr32 (x : UInt32) (n : UInt32) : UInt32 := (x >>> n) ||| (x <<< (32 - n))
def rotr64 (x : UInt64) (n : UInt64) : UInt64 := (x >>> n) ||| (x <<< (64 - n))
def rotl32 (x : UInt32) (n : UInt32) : UInt32 := (x <<< n) ||| (x >>> (32 - n))
def rotl64 (x : UInt64) (n : UInt64) : UInt64 := if n == 0 then x else (x <<< n) ||| (x >>> (64 - n))

/-- Big-endian bytes of a number. -/
def natToBE (n len : Nat) : Bytes := (List.range len).reverse.map fun i => UInt8.ofNat (n / 256 ^ i)

/-- The number with these bytes, big-endian. -/
def natOfBE (b : Bytes) : Nat := b.foldl (fun n x => n * 256 + x.toNat) 0

def natToLE (n len : Nat) : Bytes := (natToBE n len).reverse
def natOfLE (b : Bytes) : Nat := natOfBE b.reverse

/-- The message padded to blocks of `block` bytes, with the length in `lenSize` bytes. -/
def shaPad (m : Bytes) (block lenSize : Nat) : Array UInt8 :=
  let used := (m.length + 1 + lenSize) % block
  let zeros := if used == 0 then 0 else block - used
  (m ++ [0x80] ++ List.replicate zeros 0 ++ natToBE (8 * m.length) lenSize).toArray

def sha256 (m : Bytes) : Bytes := Id.run do
  let a := shaPad m 64 8
  let mut h := sha256H
  for blk in [0:a.size / 64] do
    let mut w : Array UInt32 := Array.mkEmpty 64
    for t in [0:16] do
      let o := blk * 64 + 4 * t
      w := w.push ((a[o]!.toUInt32 <<< 24) ||| (a[o+1]!.toUInt32 <<< 16) ||| (a[o+2]!.toUInt32 <<< 8) ||| a[o+3]!.toUInt32)
    for t in [16:64] do
      let x := w[t-15]!
      let y := w[t-2]!
      let s0 := rotr32 x 7 ^^^ rotr32 x 18 ^^^ (x >>> 3)
      let s1 := rotr32 y 17 ^^^ rotr32 y 19 ^^^ (y >>> 10)
      w := w.push (w[t-16]! + s0 + w[t-7]! + s1)
    let mut v := h
    for t in [0:64] do
      let e := v[4]!
      let a0 := v[0]!
      let s1 := rotr32 e 6 ^^^ rotr32 e 11 ^^^ rotr32 e 25
      let ch := (e &&& v[5]!) ^^^ (~~~e &&& v[6]!)
      let t1 := v[7]! + s1 + ch + sha256K[t]! + w[t]!
      let s0 := rotr32 a0 2 ^^^ rotr32 a0 13 ^^^ rotr32 a0 22
      let maj := (a0 &&& v[1]!) ^^^ (a0 &&& v[2]!) ^^^ (v[1]! &&& v[2]!)
      v := #[t1 + s0 + maj, a0, v[1]!, v[2]!, v[3]! + t1, e, v[5]!, v[6]!]
    h := Array.zipWith (· + ·) h v
  return h.toList.flatMap fun x => natToBE x.toNat 4

def sha512With (init : Array UInt64) (m : Bytes) : Bytes := Id.run do
  let a := shaPad m 128 16
  let mut h := init
  for blk in [0:a.size / 128] do
    let mut w : Array UInt64 := Array.mkEmpty 80
    for t in [0:16] do
      let o := blk * 128 + 8 * t
      let mut x : UInt64 := 0
      for i in [0:8] do
        x := (x <<< 8) ||| a[o+i]!.toUInt64
      w := w.push x
    for t in [16:80] do
      let x := w[t-15]!
      let y := w[t-2]!
      let s0 := rotr64 x 1 ^^^ rotr64 x 8 ^^^ (x >>> 7)
      let s1 := rotr64 y 19 ^^^ rotr64 y 61 ^^^ (y >>> 6)
      w := w.push (w[t-16]! + s0 + w[t-7]! + s1)
    let mut v := h
    for t in [0:80] do
      let e := v[4]!
      let a0 := v[0]!
      let s1 := rotr64 e 14 ^^^ rotr64 e 18 ^^^ rotr64 e 41
      let ch := (e &&& v[5]!) ^^^ (~~~e &&& v[6]!)
      let t1 := v[7]! + s1 + ch + sha512K[t]! + w[t]!
      let s0 := rotr64 a0 28 ^^^ rotr64 a0 34 ^^^ rotr64 a0 39
      let maj := (a0 &&& v[1]!) ^^^ (a0 &&& v[2]!) ^^^ (v[1]! &&& v[2]!)
      v := #[t1 + s0 + maj, a0, v[1]!, v[2]!, v[3]! + t1, e, v[5]!, v[6]!]
    h := Array.zipWith (· + ·) h v
  return h.toList.flatMap fun x => natToBE x.toNat 8

def hashOf : HashAlg → Bytes → Bytes
  | .sha256, m => sha256 m
  | .sha384, m => (sha512With sha384H m).take 48
  | .sha512, m => sha512With sha512H m

def blockSize : HashAlg → Nat
  | .sha256 => 64
  | .sha384 => 128
  | .sha512 => 128

def hmac (h : HashAlg) (key msg : Bytes) : Bytes :=
  let k := if key.length > blockSize h then hashOf h key else key
  let k := k ++ List.replicate (blockSize h - k.length) 0
  hashOf h (k.map (· ^^^ 0x5c) ++ hashOf h (k.map (· ^^^ 0x36) ++ msg))

def hkdfExtract (h : HashAlg) (secret salt : Bytes) : Bytes :=
  hmac h (if salt.isEmpty then List.replicate h.size 0 else salt) secret

def hkdfExpand (h : HashAlg) (prk info : Bytes) (n : Nat) : Bytes := Id.run do
  let mut t : Bytes := []
  let mut out : Bytes := []
  for i in [0:(n + h.size - 1) / h.size] do
    t := hmac h prk (t ++ info ++ [UInt8.ofNat (i + 1)])
    out := out ++ t
  return out.take n

/-! SHAKE256 -/

/-- The round constants, from the linear feedback shift register of the standard. -/
def keccakRC : Array UInt64 := Id.run do
  let mut r : Nat := 1
  let mut out : Array UInt64 := #[]
  for _ in [0:24] do
    let mut c : Nat := 0
    for j in [0:7] do
      if r % 2 == 1 then c := c + 2 ^ (2 ^ j - 1)
      r := r * 2
      if r ≥ 256 then r := (r ^^^ 0x171)
    out := out.push (UInt64.ofNat c)
  return out

/-- The rotation of lane `x + 5 y`. -/
def keccakRot : Array UInt64 := Id.run do
  let mut a : Array UInt64 := Array.replicate 25 0
  let mut x := 1
  let mut y := 0
  for t in [0:24] do
    a := a.set! (x + 5 * y) (UInt64.ofNat ((t + 1) * (t + 2) / 2 % 64))
    let z := (2 * x + 3 * y) % 5
    x := y
    y := z
  return a

def keccakF (s : Array UInt64) : Array UInt64 := Id.run do
  let mut a := s
  for rnd in [0:24] do
    let mut c : Array UInt64 := #[]
    for x in [0:5] do
      c := c.push (a[x]! ^^^ a[x+5]! ^^^ a[x+10]! ^^^ a[x+15]! ^^^ a[x+20]!)
    for x in [0:5] do
      let d := c[(x+4)%5]! ^^^ rotl64 c[(x+1)%5]! 1
      for y in [0:5] do
        a := a.set! (x + 5*y) (a[x + 5*y]! ^^^ d)
    let mut b : Array UInt64 := Array.replicate 25 0
    for x in [0:5] do
      for y in [0:5] do
        b := b.set! (y + 5 * ((2*x + 3*y) % 5)) (rotl64 a[x + 5*y]! keccakRot[x + 5*y]!)
    for x in [0:5] do
      for y in [0:5] do
        a := a.set! (x + 5*y) (b[x + 5*y]! ^^^ (~~~b[(x+1)%5 + 5*y]! &&& b[(x+2)%5 + 5*y]!))
    a := a.set! 0 (a[0]! ^^^ keccakRC[rnd]!)
  return a

def shake256 (m : Bytes) (n : Nat) : Bytes := Id.run do
  let rate := 136
  let pad := rate - m.length % rate
  let p : Array UInt8 := (if pad == 1 then m ++ [0x9f] else m ++ [0x1f] ++ List.replicate (pad - 2) 0 ++ [0x80]).toArray
  let mut s : Array UInt64 := Array.replicate 25 0
  for blk in [0:p.size / rate] do
    for i in [0:17] do
      let mut x : UInt64 := 0
      for j in [0:8] do
        x := x ||| (p[blk * rate + 8*i + j]!.toUInt64 <<< (8 * j).toUInt64)
      s := s.set! i (s[i]! ^^^ x)
    s := keccakF s
  let mut out : Bytes := []
  for _ in [0:(n + rate - 1) / rate] do
    out := out ++ (s.toList.take 17).flatMap fun x => natToLE x.toNat 8
    s := keccakF s
  return out.take n

end Mls.Conformance
