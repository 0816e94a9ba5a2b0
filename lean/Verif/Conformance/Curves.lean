import Verif.Conformance.Hash
/-
Curves for running the model on the test vectors: X25519 and X448 (RFC 7748), Ed25519 and Ed448 (RFC 8032), the NIST curves
with ECDH and ECDSA (SP 800-186, FIPS 186-5). No theorem about the library depends on this file.
-/
namespace Mls.Conformance

def powMod (b e m : Nat) : Nat := Id.run do
  let mut r := 1 % m
  let mut b := b % m
  let mut e := e
  for _ in [0:e.log2 + 1] do
    if e % 2 == 1 then r := r * b % m
    b := b * b % m
    e := e / 2
  return r

/-- The inverse modulo a prime. -/
def invMod (a p : Nat) : Nat := powMod a (p - 2) p

def subMod (a b p : Nat) : Nat := (a + (p - b % p)) % p

/-! Montgomery curves -/

def ladder (p a24 bits k u : Nat) : Nat := Id.run do
  let mut x2 := 1
  let mut z2 := 0
  let mut x3 := u
  let mut z3 := 1
  for i in [0:bits] do
    let t := bits - 1 - i
    let b := (k >>> t) % 2
    if b == 1 then
      (x2, x3) := (x3, x2)
      (z2, z3) := (z3, z2)
    let a := (x2 + z2) % p
    let aa := a * a % p
    let b' := subMod x2 z2 p
    let bb := b' * b' % p
    let e := subMod aa bb p
    let c := (x3 + z3) % p
    let d := subMod x3 z3 p
    let da := d * a % p
    let cb := c * b' % p
    let s := (da + cb) % p
    x3 := s * s % p
    let s := subMod da cb p
    z3 := u * (s * s % p) % p
    x2 := aa * bb % p
    z2 := e * ((aa + a24 * e) % p) % p
    if b == 1 then
      (x2, x3) := (x3, x2)
      (z2, z3) := (z3, z2)
  return x2 * invMod z2 p % p

def p25519 : Nat := 2 ^ 255 - 19
def p448 : Nat := 2 ^ 448 - 2 ^ 224 - 1

def x25519 (k u : Bytes) : Bytes :=
  let k := natOfLE k
  let k := (k % 2 ^ 254 / 8 * 8) + 2 ^ 254
  natToLE (ladder p25519 121665 255 k (natOfLE u % 2 ^ 255 % p25519)) 32

def x448 (k u : Bytes) : Bytes :=
  let k := natOfLE k
  let k := (k % 2 ^ 447 / 4 * 4) + 2 ^ 447
  natToLE (ladder p448 39081 448 k (natOfLE u % p448)) 56

/-! Edwards curves a x² + y² = 1 + d x² y², in projective coordinates -/

structure Edwards where
  p : Nat
  a : Nat
  d : Nat
  order : Nat
  /-- bytes of an encoded point -/
  size : Nat

def ed25519Curve : Edwards :=
  { p := p25519, a := p25519 - 1, d := (p25519 - 121665 * invMod 121666 p25519 % p25519) % p25519,
    order := 2 ^ 252 + 27742317777372353535851937790883648493, size := 32 }

def ed448Curve : Edwards :=
  { p := p448, a := 1, d := p448 - 39081,
    order := 2 ^ 446 - 13818066809895115352007386748515426880336692474882178609894547503885, size := 57 }

abbrev Pt := Nat × Nat × Nat

def Edwards.add (c : Edwards) (P Q : Pt) : Pt :=
  let p := c.p
  let (x1, y1, z1) := P
  let (x2, y2, z2) := Q
  let a := z1 * z2 % p
  let b := a * a % p
  let cc := x1 * x2 % p
  let dd := y1 * y2 % p
  let e := c.d * cc % p * dd % p
  let f := subMod b e p
  let g := (b + e) % p
  let x3 := a * f % p * (subMod (subMod ((x1 + y1) * (x2 + y2) % p) cc p) dd p) % p
  let y3 := a * g % p * (subMod dd (c.a * cc % p) p) % p
  (x3, y3, f * g % p)

def Edwards.mul (c : Edwards) (k : Nat) (P : Pt) : Pt := Id.run do
  let mut r : Pt := (0, 1, 1)
  for i in [0:k.log2 + 1] do
    r := c.add r r
    if (k >>> (k.log2 - i)) % 2 == 1 then r := c.add r P
  return r

def Edwards.enc (c : Edwards) (P : Pt) : Bytes :=
  let zi := invMod P.2.2 c.p
  let x := P.1 * zi % c.p
  let y := P.2.1 * zi % c.p
  natToLE (y + (x % 2) * 2 ^ (8 * c.size - 1)) c.size

/-- A square root modulo a prime that is 3 mod 4 or 5 mod 8. -/
def sqrtMod (a p : Nat) : Option Nat :=
  if p % 4 == 3 then
    let r := powMod a ((p + 1) / 4) p
    if r * r % p == a % p then some r else none
  else
    let r := powMod a ((p + 3) / 8) p
    if r * r % p == a % p then some r
    else
      let r := r * powMod 2 ((p - 1) / 4) p % p
      if r * r % p == a % p then some r else none

def Edwards.dec (c : Edwards) (b : Bytes) : Option Pt :=
  if b.length ≠ c.size then none
  else
    let n := natOfLE b
    let sign := n / 2 ^ (8 * c.size - 1)
    let y := n % 2 ^ (8 * c.size - 1) % c.p
    -- x² = (y² - 1) / (d y² - a)
    let y2 := y * y % c.p
    let x2 := subMod y2 1 c.p * invMod (subMod (c.d * y2 % c.p) c.a c.p) c.p % c.p
    match sqrtMod x2 c.p with
    | none => none
    | some x => some (if x % 2 == sign then x else (c.p - x) % c.p, y, 1)

def ed25519Base : Pt := (ed25519Curve.dec (natToLE (4 * invMod 5 p25519 % p25519) 32)).getD (0, 1, 1)

def ed448Base : Pt :=
  (224580040295924300187604334099896036246789641632564134246125461686950415467406032909029192869357953282578032075146446173674602635247710,
   298819210078481492676017930443930673437544040154080242095928241372331506189835876003536878655418784733982303233503462500531545062832660, 1)

def ed25519Public (seed : Bytes) : Bytes × Nat × Bytes :=
  let h := hashOf .sha512 seed
  let s := natOfLE (h.take 32)
  let s := s % 2 ^ 254 / 8 * 8 + 2 ^ 254
  (ed25519Curve.enc (ed25519Curve.mul s ed25519Base), s, h.drop 32)

def ed25519Sign (seed msg : Bytes) : Option Bytes :=
  if seed.length ≠ 32 then none
  else
    let (pub, s, pre) := ed25519Public seed
    let l := ed25519Curve.order
    let r := natOfLE (hashOf .sha512 (pre ++ msg)) % l
    let R := ed25519Curve.enc (ed25519Curve.mul r ed25519Base)
    let k := natOfLE (hashOf .sha512 (R ++ pub ++ msg)) % l
    some (R ++ natToLE ((r + k * s) % l) 32)

def Edwards.verify (c : Edwards) (base : Pt) (h : Bytes → Bytes) (pub msg sig : Bytes) : Bool :=
  if sig.length ≠ 2 * c.size then false
  else
    let R := sig.take c.size
    let s := natOfLE (sig.drop c.size)
    if s ≥ c.order then false
    else match c.dec pub with
      | none => false
      | some (x, y, z) =>
        let k := natOfLE (h (R ++ pub ++ msg)) % c.order
        R == c.enc (c.add (c.mul s base) (c.mul k ((c.p - x) % c.p, y, z)))

def ed25519Verify (pub msg sig : Bytes) : Bool := ed25519Curve.verify ed25519Base (hashOf .sha512) pub msg sig

def dom4 : Bytes := "SigEd448".toUTF8.toList ++ [0, 0]

def ed448Public (seed : Bytes) : Bytes × Nat × Bytes :=
  let h := shake256 seed 114
  let s := natOfLE (h.take 56)
  let s := s % 2 ^ 447 / 4 * 4 + 2 ^ 447
  (ed448Curve.enc (ed448Curve.mul s ed448Base), s, h.drop 57)

def ed448Sign (seed msg : Bytes) : Option Bytes :=
  if seed.length ≠ 57 then none
  else
    let (pub, s, pre) := ed448Public seed
    let l := ed448Curve.order
    let r := natOfLE (shake256 (dom4 ++ pre ++ msg) 114) % l
    let R := ed448Curve.enc (ed448Curve.mul r ed448Base)
    let k := natOfLE (shake256 (dom4 ++ R ++ pub ++ msg) 114) % l
    some (R ++ natToLE ((r + k * s) % l) 57)

def ed448Verify (pub msg sig : Bytes) : Bool :=
  ed448Curve.verify ed448Base (fun m => shake256 (dom4 ++ m) 114) pub msg sig

/-! NIST curves y² = x³ - 3x + b, in Jacobian coordinates -/

structure Nist where
  p : Nat
  b : Nat
  gx : Nat
  gy : Nat
  n : Nat
  /-- bytes of a coordinate -/
  size : Nat

def p256 : Nist :=
  { p := 2^256 - 2^224 + 2^192 + 2^96 - 1
    b := 0x5ac635d8aa3a93e7b3ebbd55769886bc651d06b0cc53b0f63bce3c3e27d2604b
    gx := 0x6b17d1f2e12c4247f8bce6e563a440f277037d812deb33a0f4a13945d898c296
    gy := 0x4fe342e2fe1a7f9b8ee7eb4a7c0f9e162bce33576b315ececbb6406837bf51f5
    n := 0xffffffff00000000ffffffffffffffffbce6faada7179e84f3b9cac2fc632551
    size := 32 }

def p384 : Nist :=
  { p := 2^384 - 2^128 - 2^96 + 2^32 - 1
    b := 0xb3312fa7e23ee7e4988e056be3f82d19181d9c6efe8141120314088f5013875ac656398d8a2ed19d2a85c8edd3ec2aef
    gx := 0xaa87ca22be8b05378eb1c71ef320ad746e1d3b628ba79b9859f741e082542a385502f25dbf55296c3a545e3872760ab7
    gy := 0x3617de4a96262c6f5d9e98bf9292dc29f8f41dbd289a147ce9da3113b5f0b8c00a60b1ce1d7e819d7a431d7c90ea0e5f
    n := 0xffffffffffffffffffffffffffffffffffffffffffffffffc7634d81f4372ddf581a0db248b0a77aecec196accc52973
    size := 48 }

def p521 : Nist :=
  { p := 2^521 - 1
    b := 0x0051953eb9618e1c9a1f929a21a0b68540eea2da725b99b315f3b8b489918ef109e156193951ec7e937b1652c0bd3bb1bf073573df883d2c34f1ef451fd46b503f00
    gx := 0x00c6858e06b70404e9cd9e3ecb662395b4429c648139053fb521f828af606b4d3dbaa14b5e77efe75928fe1dc127a2ffa8de3348b3c1856a429bf97e7e31c2e5bd66
    gy := 0x011839296a789a3bc0045c8a5fb42c7d1bd998f54449579b446817afbd17273e662c97ee72995ef42640c550b9013fad0761353c7086a272c24088be94769fd16650
    n := 0x1fffffffffffffffffffffffffffffffffffffffffffffffffffffffffffffffffa51868783bf2f966b7fcc0148f709a5d03bb5c9b8899c47aebb6fb71e91386409
    size := 66 }

def Nist.double (c : Nist) (P : Pt) : Pt :=
  let p := c.p
  let (x, y, z) := P
  if z == 0 || y == 0 then (1, 1, 0)
  else
    let zz := z * z % p
    let m := 3 * (subMod x zz p) % p * ((x + zz) % p) % p
    let yy := y * y % p
    let s := 4 * x % p * yy % p
    let x3 := subMod (m * m % p) (2 * s % p) p
    let y3 := subMod (m * (subMod s x3 p) % p) (8 * (yy * yy % p) % p) p
    (x3, y3, 2 * y % p * z % p)

def Nist.add (c : Nist) (P Q : Pt) : Pt :=
  let p := c.p
  let (x1, y1, z1) := P
  let (x2, y2, z2) := Q
  if z1 == 0 then Q
  else if z2 == 0 then P
  else
    let z1z1 := z1 * z1 % p
    let z2z2 := z2 * z2 % p
    let u1 := x1 * z2z2 % p
    let u2 := x2 * z1z1 % p
    let s1 := y1 * z2 % p * z2z2 % p
    let s2 := y2 * z1 % p * z1z1 % p
    if u1 == u2 then
      if s1 == s2 then c.double P else (1, 1, 0)
    else
      let h := subMod u2 u1 p
      let r := subMod s2 s1 p
      let hh := h * h % p
      let hhh := h * hh % p
      let v := u1 * hh % p
      let x3 := subMod (subMod (r * r % p) hhh p) (2 * v % p) p
      let y3 := subMod (r * (subMod v x3 p) % p) (s1 * hhh % p) p
      (x3, y3, h * z1 % p * z2 % p)

def Nist.mul (c : Nist) (k : Nat) (P : Pt) : Pt := Id.run do
  let mut r : Pt := (1, 1, 0)
  for i in [0:k.log2 + 1] do
    r := c.double r
    if (k >>> (k.log2 - i)) % 2 == 1 then r := c.add r P
  return r

def Nist.base (c : Nist) : Pt := (c.gx, c.gy, 1)

/-- The affine coordinates; none for the point at infinity. -/
def Nist.affine (c : Nist) (P : Pt) : Option (Nat × Nat) :=
  if P.2.2 == 0 then none
  else
    let zi := invMod P.2.2 c.p
    let zz := zi * zi % c.p
    some (P.1 * zz % c.p, P.2.1 * zz % c.p * zi % c.p)

/-- The uncompressed encoding of a point. -/
def Nist.enc (c : Nist) (P : Pt) : Bytes :=
  match c.affine P with
  | some (x, y) => 4 :: (natToBE x c.size ++ natToBE y c.size)
  | none => [0]

def Nist.onCurve (c : Nist) (x y : Nat) : Bool :=
  y * y % c.p == (x * x % c.p * x + (c.p - 3) * x + c.b) % c.p

/-- elliptic.Unmarshal. -/
def Nist.dec (c : Nist) (b : Bytes) : Option Pt :=
  if b.length ≠ 2 * c.size + 1 ∨ b.head? ≠ some 4 then none
  else
    let x := natOfBE ((b.drop 1).take c.size)
    let y := natOfBE (b.drop (1 + c.size))
    if x < c.p && y < c.p && c.onCurve x y then some (x, y, 1) else none

/-- The hash as a number, as many bits as the order has. -/
def Nist.hashInt (c : Nist) (h : Bytes) : Nat :=
  let bits := c.n.log2 + 1
  if 8 * h.length > bits then natOfBE h >>> (8 * h.length - bits) else natOfBE h

def derInt (n : Nat) : Bytes :=
  let len := n.log2 / 8 + 1
  let b := natToBE n len
  let b := if b.head?.any (· ≥ 128) then 0 :: b else b
  2 :: UInt8.ofNat b.length :: b

def derSeq (b : Bytes) : Bytes :=
  if b.length < 128 then 0x30 :: UInt8.ofNat b.length :: b else 0x30 :: 0x81 :: UInt8.ofNat b.length :: b

def readDerInt : Bytes → Option (Nat × Bytes)
  | 2 :: l :: rest =>
    let n := l.toNat
    let b := rest.take n
    if n == 0 || n ≥ 128 || b.length < n then none
    else if b.head?.any (· ≥ 128) then none
    else if n > 1 && b.head? == some 0 && (b.drop 1).head?.any (· < 128) then none
    else some (natOfBE b, rest.drop n)
  | _ => none

def readDerSig (b : Bytes) : Option (Nat × Nat) := do
  let body ← match b with
    | 0x30 :: 0x81 :: l :: rest => if l ≥ 128 && rest.length == l.toNat then some rest else none
    | 0x30 :: l :: rest => if l < 128 && rest.length == l.toNat then some rest else none
    | _ => none
  let (r, rest) ← readDerInt body
  let (s, rest) ← readDerInt rest
  if rest.isEmpty then some (r, s) else none

def Nist.verify (c : Nist) (h : HashAlg) (pub msg sig : Bytes) : Option Bool :=
  match c.dec pub with
  | none => none
  | some Q =>
    match readDerSig sig with
    | none => some false
    | some (r, s) =>
      if r == 0 || s == 0 || r ≥ c.n || s ≥ c.n then some false
      else
        let e := c.hashInt (hashOf h msg)
        let w := invMod s c.n
        match c.affine (c.add (c.mul (e * w % c.n) c.base) (c.mul (r * w % c.n) Q)) with
        | none => some false
        | some (x, _) => some (x % c.n == r)

def Nist.sign (c : Nist) (h : HashAlg) (priv msg rand : Bytes) : Option Bytes :=
  let d := natOfBE priv
  let e := c.hashInt (hashOf h msg)
  let k := natOfBE (hashOf .sha512 (rand ++ priv ++ msg) ++ hashOf .sha512 (priv ++ rand ++ msg)) % (c.n - 1) + 1
  match c.affine (c.mul k c.base) with
  | none => none
  | some (x, _) =>
    let r := x % c.n
    let s := invMod k c.n * ((e + r * d) % c.n) % c.n
    if r == 0 || s == 0 then none else some (derSeq (derInt r ++ derInt s))

/-- The x coordinate of a multiple of a point. -/
def Nist.dh (c : Nist) (priv pub : Bytes) : Option Bytes := do
  let Q ← c.dec pub
  let (x, _) ← c.affine (c.mul (natOfBE priv) Q)
  return natToBE x c.size

end Mls.Conformance
