import Verif.Model.Types
/-
The part of Go's package time used by lifetime.verify and newLifetime (tree.go:181-225), for
instants without a monotonic reading, which is what a comparison between time.Now() and
time.Unix() uses. All arithmetic is on int64.
-/
namespace Mls

/-- Two's complement wrap of an integer to int64. -/
def wrap64 (x : Int) : Int := (x + 2 ^ 63) % 2 ^ 64 - 2 ^ 63

/-- time.Time: seconds since January 1 of year 1 (an int64) and nanoseconds. -/
structure GoTime where
  sec : Int
  nsec : Nat
  deriving DecidableEq, Repr, Inhabited

/-- time.unixToInternal. -/
def unixToInternal : Int := 62135596800

/-- time.Unix(sec, 0) for an int64 `sec`. -/
def GoTime.unix (sec : Int) : GoTime := ⟨wrap64 (sec + unixToInternal), 0⟩

/-- Time.Unix(). -/
def GoTime.toUnix (t : GoTime) : Int := wrap64 (t.sec - unixToInternal)

/-- Time.IsZero(). -/
def GoTime.isZero (t : GoTime) : Bool := t.sec == 0 && t.nsec == 0

/-- Time.After. -/
def GoTime.after (t u : GoTime) : Bool := t.sec > u.sec || (t.sec == u.sec && t.nsec > u.nsec)

/-- Time.Before. -/
def GoTime.before (t u : GoTime) : Bool := t.sec < u.sec || (t.sec == u.sec && t.nsec < u.nsec)

/-- Time.addSec: saturating. -/
def addSec (ext d : Int) : Int :=
  let sum := wrap64 (ext + d)
  if (decide (sum > ext)) = decide (d > 0) then sum
  else if d > 0 then 2 ^ 63 - 1
  else -(2 ^ 63 - 1)

/-- Time.Add; Go's `/` and `%` truncate towards zero. -/
def GoTime.add (t : GoTime) (d : Int) : GoTime :=
  let dsec := d.tdiv 1000000000
  let nsec := (t.nsec : Int) + d.tmod 1000000000
  if nsec ≥ 1000000000 then ⟨addSec t.sec (dsec + 1), (nsec - 1000000000).toNat⟩
  else if nsec < 0 then ⟨addSec t.sec (dsec - 1), (nsec + 1000000000).toNat⟩
  else ⟨addSec t.sec dsec, nsec.toNat⟩

/-- Time.Sub: the difference in nanoseconds, saturated when it does not fit an int64. -/
def GoTime.sub (t u : GoTime) : Int :=
  let d := wrap64 (wrap64 (wrap64 (t.sec - u.sec) * 1000000000) + ((t.nsec : Int) - u.nsec))
  if u.add d = t then d
  else if t.before u then -(2 ^ 63)
  else 2 ^ 63 - 1

/-- maxLeafNodeLifetime (tree.go:181), in nanoseconds. -/
def maxLeafNodeLifetime : Int := 3 * 30 * 24 * 3600 * 1000000000

/-- notBeforeTime / notAfterTime (tree.go:207-213): `time.Unix(int64(x), 0)`. -/
def lifetimeInstant (x : UInt64) : GoTime := GoTime.unix (wrap64 x.toNat)

/-- lifetime.verify (tree.go:217-225). -/
def Lifetime.verify (lt : Lifetime) (t : GoTime) : Bool :=
  let notBefore := lifetimeInstant lt.notBefore
  let notAfter := lifetimeInstant lt.notAfter
  let d := notAfter.sub notBefore
  if d ≤ 0 ∨ d > maxLeafNodeLifetime then false
  else t.after notBefore && notAfter.after t

/-- newLifetime (tree.go:187-192). -/
def newLifetime (notBefore notAfter : GoTime) : Lifetime :=
  { notBefore := UInt64.ofNat (notBefore.toUnix % 2 ^ 64).toNat,
    notAfter := UInt64.ofNat (notAfter.toUnix % 2 ^ 64).toNat }

end Mls
