import Verif.Model.Basic
/-
Independent specification of the wire format (RFC 9420 section 2.1.2).
-/
namespace Mls.Spec

/-- RFC 9420 section 2.1.2: the two top bits of the first byte give the number of
bytes (1, 2 or 4), the rest is the value, most significant byte first; the shortest
form is mandatory. `none` when no form fits. -/
def varint (n : Nat) : Option Bytes :=
  if n < 64 then some [UInt8.ofNat n]
  else if n < 16384 then some [UInt8.ofNat (64 + n / 256), UInt8.ofNat (n % 256)]
  else if n < 1073741824 then
    some [UInt8.ofNat (128 + n / 16777216), UInt8.ofNat (n / 65536 % 256),
      UInt8.ofNat (n / 256 % 256), UInt8.ofNat (n % 256)]
  else none

/-- RFC 9420: an opaque vector is its length followed by its bytes. -/
def opaqueVec (b : Bytes) : Option Bytes := (varint b.length).map (· ++ b)

end Mls.Spec
