/-
Outcomes of Go calls, the parser state monad (cryptobyte.String) and the
builder (cryptobyte.Builder).
-/
namespace Mls

/-- A Go `[]byte` where nil and empty need not be told apart. -/
abbrev Bytes := List UInt8

/-- Outcome of a Go call: a value with a nil error, a non-nil error (text not
modelled), a panic, or a loop that never ends. -/
inductive Res (α : Type) where
  | ok (a : α)
  | err
  | panic
  | hang
  deriving DecidableEq, Repr, Inhabited

namespace Res

/-- Sequencing of Go statements that return early on error. -/
def bind {α β : Type} (x : Res α) (f : α → Res β) : Res β :=
  match x with
  | ok a => f a
  | err => err
  | panic => panic
  | hang => hang

instance : Monad Res where
  pure := ok
  bind := Res.bind

/-- `if !cond { return error }`. -/
def guardErr (b : Bool) : Res Unit := if b then ok () else err

/-- A Go slice read `s[i]`: panics when out of range. -/
def idx {α : Type} (l : List α) (i : Nat) : Res α :=
  match l[i]? with
  | some a => ok a
  | none => panic

/-- A Go pointer dereference: panics on nil. -/
def deref {α : Type} (o : Option α) : Res α :=
  match o with
  | some a => ok a
  | none => panic

/-- A Go slice write `s[i] = a`: panics when out of range. -/
def setIdx {α : Type} (l : List α) (i : Nat) (a : α) : Res (List α) :=
  if i < l.length then ok (l.set i a) else panic

end Res

/-- cryptobyte.String based decoder: outcome and remaining input. The remaining
input is also tracked on failure (`(*s).read` leaves `s` as it is when too short;
earlier reads have already advanced it). -/
structure P (α : Type) where
  run : Bytes → Res α × Bytes

namespace P

/-- Value returned without reading. -/
def pure {α : Type} (a : α) : P α := ⟨fun s => (.ok a, s)⟩

/-- Sequencing with early return on error. -/
def bind {α β : Type} (p : P α) (f : α → P β) : P β := ⟨fun s =>
  match p.run s with
  | (.ok a, s') => (f a).run s'
  | (.err, s') => (.err, s')
  | (.panic, s') => (.panic, s')
  | (.hang, s') => (.hang, s')⟩

instance : Monad P where
  pure := P.pure
  bind := P.bind

/-- `return someError`. -/
def fail {α : Type} : P α := ⟨fun s => (.err, s)⟩

/-- `panic("unreachable")`. -/
def panic {α : Type} : P α := ⟨fun s => (.panic, s)⟩

/-- Run `p`; if it reports failure the caller carries on (`none`) with the
input as far as `p` had advanced it. -/
def attempt {α : Type} (p : P α) : P (Option α) := ⟨fun s =>
  match p.run s with
  | (.ok a, s') => (.ok (some a), s')
  | (.err, s') => (.ok none, s')
  | (.panic, s') => (.panic, s')
  | (.hang, s') => (.hang, s')⟩

end P

/-- cryptobyte.Builder: the bytes written so far, or a sticky error; a panic
raised by any later writer still happens after a sticky error. -/
abbrev Enc := Res Bytes

namespace Enc

/-- Writing `b` after `a` on the same builder. -/
def append (a b : Enc) : Enc :=
  match a, b with
  | .ok x, .ok y => .ok (x ++ y)
  | .panic, _ => .panic
  | _, .panic => .panic
  | .hang, _ => .hang
  | _, .hang => .hang
  | _, _ => .err

instance : Append Enc := ⟨append⟩

/-- Nothing written. -/
def nil : Enc := .ok []

/-- Writing a sequence of encodings one after the other. -/
def concat : List Enc → Enc
  | [] => nil
  | e :: es => e ++ concat es

end Enc

/-- Big-endian encoding of `n` on `k` bytes (cryptobyte.Builder.AddUint8/16/32/64). -/
def beBytes : Nat → Nat → Bytes
  | 0, _ => []
  | k + 1, n => UInt8.ofNat (n / 256 ^ k) :: beBytes k n

/-- Big-endian value (cryptobyte.String.ReadUint8/16/32/64). -/
def beVal (bs : Bytes) : Nat := bs.foldl (fun acc b => acc * 256 + b.toNat) 0

/-- cryptobyte (*String).read(n): take `n` bytes, or fail without consuming. -/
def readN (n : Nat) : P Bytes := ⟨fun s =>
  if s.length < n then (.err, s) else (.ok (s.take n), s.drop n)⟩

/-- cryptobyte (*String).ReadUint8. -/
def readU8 : P UInt8 := do let b ← readN 1; return UInt8.ofNat (beVal b)
/-- cryptobyte (*String).ReadUint16. -/
def readU16 : P UInt16 := do let b ← readN 2; return UInt16.ofNat (beVal b)
/-- cryptobyte (*String).ReadUint32. -/
def readU32 : P UInt32 := do let b ← readN 4; return UInt32.ofNat (beVal b)
/-- cryptobyte (*String).ReadUint64. -/
def readU64 : P UInt64 := do let b ← readN 8; return UInt64.ofNat (beVal b)

/-- cryptobyte (*Builder).AddUint8. -/
def addU8 (v : UInt8) : Enc := .ok (beBytes 1 v.toNat)
/-- cryptobyte (*Builder).AddUint16. -/
def addU16 (v : UInt16) : Enc := .ok (beBytes 2 v.toNat)
/-- cryptobyte (*Builder).AddUint32. -/
def addU32 (v : UInt32) : Enc := .ok (beBytes 4 v.toNat)
/-- cryptobyte (*Builder).AddUint64. -/
def addU64 (v : UInt64) : Enc := .ok (beBytes 8 v.toNat)
/-- cryptobyte (*Builder).AddBytes. -/
def addBytes (b : Bytes) : Enc := .ok b

end Mls
