import Verif.Model.Basic
/-
Model of mls.go: variable-length integers, opaque vectors, vectors, optionals.
-/
namespace Mls

/-- The loop of readVarint: `k` more bytes shifted into `v` (mls.go:26-31).
`v` is a uint32; at most 30 bits are ever used, so the shift does not overflow. -/
def readVarintLoop : Nat → UInt32 → P UInt32
  | 0, v => return v
  | k + 1, v => do
    let b ← readU8
    readVarintLoop k ((v <<< 8) + b.toUInt32)

/-- readVarint (mls.go:13-39). `n/2` etc. are the Go int computations. -/
def readVarint : P UInt32 := do
  let b ← readU8
  let pre := b >>> 6
  if pre == 3 then P.fail
  else
    let n := 1 <<< pre.toNat
    let v ← readVarintLoop (n - 1) (b &&& 0x3F).toUInt32
    if pre.toNat ≥ 1 ∧ v.toNat < 1 <<< (8 * (n / 2) - 2) then P.fail
    else return v

/-- writeVarint (mls.go:41-52). `0x4000` is `0b01<<14`, `0x80000000` is `0b10<<30`. -/
def writeVarint (n : UInt32) : Enc :=
  if n.toNat < 1 <<< 6 then addU8 n.toUInt8
  else if n.toNat < 1 <<< 14 then addU16 ((0x4000 : UInt16) ||| n.toUInt16)
  else if n.toNat < 1 <<< 30 then addU32 ((0x80000000 : UInt32) ||| n)
  else .err

/-- readOpaqueVec (mls.go:54-67). `make([]byte, n)` then CopyBytes. -/
def readOpaqueVec : P Bytes := do
  let n ← readVarint
  readN n.toNat

/-- writeOpaqueVec (mls.go:69-76). -/
def writeOpaqueVec (value : Bytes) : Enc :=
  if value.length ≥ 1 <<< 32 then .err
  else writeVarint (UInt32.ofNat value.length) ++ addBytes value

/-- The loop of readVector over the delimited input `ss` (mls.go:88-92). An
element decoder that succeeds without consuming would loop forever: the fuel is
the number of bytes, so running out of it with input left means just that. -/
def readVectorLoop {α : Type} (f : P α) : Nat → Bytes → Res (List α)
  | _, [] => .ok []
  | 0, _ :: _ => .hang
  | fuel + 1, b :: bs =>
    match f.run (b :: bs) with
    | (.ok a, ss') => (readVectorLoop f fuel ss').bind fun as => .ok (a :: as)
    | (.err, _) => .err
    | (.panic, _) => .panic
    | (.hang, _) => .hang

/-- readVector (mls.go:78-94), returning the list of the decoded elements (the
Go callbacks append each element to a slice). -/
def readVector {α : Type} (f : P α) : P (List α) := do
  let n ← readVarint
  let vec ← readN n.toNat
  ⟨fun s => (readVectorLoop f vec.length vec, s)⟩

/-- writeVector (mls.go:96-111): elements are written to a child builder; an
error of the child becomes an error of the parent. -/
def writeVector {α : Type} (f : α → Enc) (l : List α) : Enc :=
  match Enc.concat (l.map f) with
  | .ok raw => writeOpaqueVec raw
  | .err => .err
  | .panic => .panic
  | .hang => .hang

/-- readOptional (mls.go:113-127). -/
def readOptional : P Bool := do
  let u8 ← readU8
  if u8 == 0 then return false
  else if u8 == 1 then return true
  else P.fail

/-- writeOptional (mls.go:129-135). -/
def writeOptional (present : Bool) : Enc := addU8 (if present then 1 else 0)

/-- unmarshal (mls.go:145-154): decode and refuse excess bytes. marshal (mls.go:156-160) is the value of an `Enc`. -/
def unmarshal {α : Type} (dec : P α) (raw : Bytes) : Res α :=
  match dec.run raw with
  | (.ok a, []) => .ok a
  | (.ok _, _ :: _) => .err
  | (.err, _) => .err
  | (.panic, _) => .panic
  | (.hang, _) => .hang

end Mls
