import Verif.Conformance.Hash
/-
AEADs for running the model on the test vectors: AES-GCM (FIPS 197, SP 800-38D) and ChaCha20-Poly1305 (RFC 8439).
No theorem about the library depends on this file.
-/
namespace Mls.Conformance

/-! AES -/

/-- Multiplication in GF(2^8) modulo x^8 + x^4 + x^3 + x + 1. -/
def gmul (a b : UInt8) : UInt8 := Id.run do
  let mut p : UInt8 := 0
  let mut a := a
  let mut b := b
  for _ in [0:8] do
    if b &&& 1 == 1 then p := p ^^^ a
    a := (a <<< 1) ^^^ (if a &&& 0x80 == 0x80 then 0x1b else 0)
    b := b >>> 1
  return p

def rotl8 (x : UInt8) (n : UInt8) : UInt8 := (x <<< n) ||| (x >>> (8 - n))

def aesSbox : Array UInt8 := Id.run do
  let mut out : Array UInt8 := #[]
  for i in [0:256] do
    let x := UInt8.ofNat i
    -- x^254, the inverse of x, and 0 for 0
    let mut y : UInt8 := 1
    for _ in [0:254] do
      y := gmul y x
    out := out.push (y ^^^ rotl8 y 1 ^^^ rotl8 y 2 ^^^ rotl8 y 3 ^^^ rotl8 y 4 ^^^ 0x63)
  return out

def sub (x : UInt8) : UInt8 := aesSbox[x.toNat]!

/-- The round keys, as words of four bytes. -/
def aesExpand (key : Bytes) : Array (Array UInt8) := Id.run do
  let k := key.toArray
  let nk := k.size / 4
  let mut w : Array (Array UInt8) := #[]
  let mut rcon : UInt8 := 1
  for i in [0:nk] do
    w := w.push #[k[4*i]!, k[4*i+1]!, k[4*i+2]!, k[4*i+3]!]
  for i in [nk:4 * (nk + 7)] do
    let mut t := w[i-1]!
    if i % nk == 0 then
      t := #[sub t[1]! ^^^ rcon, sub t[2]!, sub t[3]!, sub t[0]!]
      rcon := gmul rcon 2
    else if nk > 6 && i % nk == 4 then
      t := t.map sub
    w := w.push (Array.zipWith (· ^^^ ·) w[i-nk]! t)
  return w

def xtime (a : UInt8) : UInt8 := (a <<< 1) ^^^ (if a &&& 0x80 == 0x80 then 0x1b else 0)

def aesBlock (w : Array (Array UInt8)) (blk : Array UInt8) : Array UInt8 := Id.run do
  let rounds := w.size / 4 - 1
  let addKey := fun (s : Array UInt8) (r : Nat) => Id.run do
    let mut s := s
    for c in [0:4] do
      for i in [0:4] do
        s := s.set! (4*c+i) (s[4*c+i]! ^^^ w[4*r+c]![i]!)
    return s
  let mut s := addKey blk 0
  for r in [1:rounds+1] do
    let b := s.map sub
    -- ShiftRows
    let mut t : Array UInt8 := Array.replicate 16 0
    for c in [0:4] do
      for i in [0:4] do
        t := t.set! (4*c+i) b[4*((c+i)%4)+i]!
    if r < rounds then
      let mut m : Array UInt8 := Array.replicate 16 0
      for c in [0:4] do
        for i in [0:4] do
          let a0 := t[4*c+i]!
          let a1 := t[4*c+(i+1)%4]!
          m := m.set! (4*c+i) (xtime a0 ^^^ xtime a1 ^^^ a1 ^^^ t[4*c+(i+2)%4]! ^^^ t[4*c+(i+3)%4]!)
      t := m
    s := addKey t r
  return s

/-- Multiplication in GF(2^128) as in GCM; blocks are pairs of words, most significant first. -/
def ghashMul (xh xl yh yl : UInt64) : UInt64 × UInt64 := Id.run do
  let mut zh : UInt64 := 0
  let mut zl : UInt64 := 0
  let mut vh := yh
  let mut vl := yl
  for i in [0:128] do
    let bit := if i < 64 then (xh >>> (63 - i).toUInt64) &&& 1 else (xl >>> (127 - i).toUInt64) &&& 1
    if bit == 1 then
      zh := zh ^^^ vh
      zl := zl ^^^ vl
    let lsb := vl &&& 1
    vl := (vl >>> 1) ||| (vh <<< 63)
    vh := vh >>> 1
    if lsb == 1 then vh := vh ^^^ 0xe100000000000000
  return (zh, zl)

def word64 (a : Array UInt8) (o : Nat) : UInt64 := Id.run do
  let mut x : UInt64 := 0
  for i in [0:8] do
    x := (x <<< 8) ||| (a[o+i]?.getD 0).toUInt64
  return x

def ghash (h : Array UInt8) (m : Array UInt8) : Bytes := Id.run do
  let hh := word64 h 0
  let hl := word64 h 8
  let mut yh : UInt64 := 0
  let mut yl : UInt64 := 0
  for i in [0:m.size / 16] do
    let r := ghashMul (yh ^^^ word64 m (16*i)) (yl ^^^ word64 m (16*i+8)) hh hl
    yh := r.1
    yl := r.2
  return natToBE yh.toNat 8 ++ natToBE yl.toNat 8

def pad16 (b : Bytes) : Bytes := b ++ List.replicate ((16 - b.length % 16) % 16) 0

/-- The first `n` bytes of blocks of `k` bytes; bytes missing from a block are zero. -/
def keyStream (k : Nat) (block : Nat → Array UInt8) (n : Nat) : Bytes :=
  ((List.range ((n + k - 1) / k)).flatMap fun i =>
    let b := block i
    (List.range k).map fun j => b.getD j 0).take n

def aesCtr (w : Array (Array UInt8)) (nonce : Bytes) (start : Nat) (n : Nat) : Bytes :=
  keyStream 16 (fun i => aesBlock w (nonce ++ natToBE (start + i) 4).toArray) n

def xorBytes (a b : Bytes) : Bytes := List.zipWith (· ^^^ ·) a b

def gcmTag (w : Array (Array UInt8)) (nonce ct aad : Bytes) : Bytes :=
  let h := aesBlock w (Array.replicate 16 0)
  let s := ghash h (pad16 aad ++ pad16 ct ++ natToBE (8 * aad.length) 8 ++ natToBE (8 * ct.length) 8).toArray
  xorBytes s (aesCtr w nonce 1 16)

/-! ChaCha20-Poly1305 -/

def quarter (s : Array UInt32) (a b c d : Nat) : Array UInt32 := Id.run do
  let mut xa := s[a]!
  let mut xb := s[b]!
  let mut xc := s[c]!
  let mut xd := s[d]!
  xa := xa + xb; xd := rotl32 (xd ^^^ xa) 16
  xc := xc + xd; xb := rotl32 (xb ^^^ xc) 12
  xa := xa + xb; xd := rotl32 (xd ^^^ xa) 8
  xc := xc + xd; xb := rotl32 (xb ^^^ xc) 7
  return (((s.set! a xa).set! b xb).set! c xc).set! d xd

def leWords (b : Bytes) : Array UInt32 := Id.run do
  let a := b.toArray
  let mut out : Array UInt32 := #[]
  for i in [0:a.size / 4] do
    out := out.push (a[4*i]!.toUInt32 ||| (a[4*i+1]!.toUInt32 <<< 8) ||| (a[4*i+2]!.toUInt32 <<< 16) ||| (a[4*i+3]!.toUInt32 <<< 24))
  return out

def chachaBlock (key nonce : Bytes) (counter : Nat) : Bytes := Id.run do
  let s0 := leWords ("expand 32-byte k".toUTF8.toList ++ key ++ natToLE counter 4 ++ nonce)
  let mut s := s0
  for _ in [0:10] do
    s := quarter s 0 4 8 12
    s := quarter s 1 5 9 13
    s := quarter s 2 6 10 14
    s := quarter s 3 7 11 15
    s := quarter s 0 5 10 15
    s := quarter s 1 6 11 12
    s := quarter s 2 7 8 13
    s := quarter s 3 4 9 14
  return (Array.zipWith (· + ·) s0 s).toList.flatMap fun x => natToLE x.toNat 4

def chacha (key nonce : Bytes) (n : Nat) : Bytes := keyStream 64 (fun i => (chachaBlock key nonce (i + 1)).toArray) n

def chunks (k : Nat) : Nat → Bytes → List Bytes
  | 0, _ => []
  | n + 1, b => if b.isEmpty then [] else b.take k :: chunks k n (b.drop k)

def poly1305 (key msg : Bytes) : Bytes :=
  let p := 2 ^ 130 - 5
  let r := natOfLE (key.take 16) &&& 0x0ffffffc0ffffffc0ffffffc0fffffff
  let s := natOfLE (key.drop 16)
  let a := (chunks 16 msg.length msg).foldl (fun a c => (a + natOfLE (c ++ [1])) * r % p) 0
  natToLE ((a + s) % 2 ^ 128) 16

def chachaTag (key nonce ct aad : Bytes) : Bytes :=
  poly1305 ((chachaBlock key nonce 0).take 32) (pad16 aad ++ pad16 ct ++ natToLE aad.length 8 ++ natToLE ct.length 8)

/-! AEADs -/

def aeadStream : Aead → Bytes → Bytes → Nat → Bytes
  | .chacha20poly1305, k, n, len => chacha k n len
  | _, k, n, len => aesCtr (aesExpand k) n 2 len

def aeadTag : Aead → Bytes → Bytes → Bytes → Bytes → Bytes
  | .chacha20poly1305, k, n, ct, aad => chachaTag k n ct aad
  | _, k, n, ct, aad => gcmTag (aesExpand k) n ct aad

def aeadSealReal (a : Aead) (k n p aad : Bytes) : Option Bytes :=
  if k.length ≠ a.keySize ∨ n.length ≠ 12 then none
  else
    let ct := xorBytes p (aeadStream a k n p.length)
    some (ct ++ aeadTag a k n ct aad)

def aeadOpenReal (a : Aead) (k n c aad : Bytes) : Option Bytes :=
  if k.length ≠ a.keySize ∨ n.length ≠ 12 ∨ c.length < 16 then none
  else
    let ct := c.take (c.length - 16)
    if c.drop (c.length - 16) = aeadTag a k n ct aad then some (xorBytes ct (aeadStream a k n ct.length)) else none

end Mls.Conformance
