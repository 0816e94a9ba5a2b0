import Verif.Model.Basic
/-
Model of tree_math.go. Node indices, leaf indices and numbers of leaves are uint32 in Go;
here they are naturals with the 32-bit wrap-around written out where it can happen. Go's
shifts by 32 or more give zero, which `shl32` and the division by a power of two reproduce.
-/
namespace Mls

/-- `x << k` on uint32. -/
def shl32 (x k : Nat) : Nat := (x * 2 ^ k) % 2 ^ 32

/-- numLeavesFromWidth (tree_math.go:26-31). -/
def numLeavesFromWidth (w : Nat) : Nat := if w = 0 then 0 else (w - 1) / 2 + 1

/-- numLeaves.width (tree_math.go:34-39). -/
def width (n : Nat) : Nat := if n = 0 then 0 else (2 * (n - 1) + 1) % 2 ^ 32

/-- The loop of log2 (tree_math.go:200-203): first `k` with `x>>k == 0`. The fuel
33 is enough since `x>>32 == 0` for every uint32. -/
def log2Loop (x : Nat) : Nat → Nat → Nat
  | 0, k => k
  | fuel + 1, k => if x >>> k > 0 then log2Loop x fuel (k + 1) else k

/-- log2 (tree_math.go:195-205). -/
def log2 (x : Nat) : Nat := if x = 0 then 0 else log2Loop x 33 0 - 1

/-- isPowerOf2 (tree_math.go:207-209). -/
def isPowerOf2 (x : Nat) : Bool := x != 0 && x &&& (x - 1) == 0

/-- numLeaves.root (tree_math.go:42-44). -/
def root (n : Nat) : Nat := shl32 1 (log2 (width n)) - 1

/-- The loop of level (tree_math.go:160-162): first `lvl` with bit `lvl` of `x` clear.
The fuel 33 is enough since bit 32 of a uint32 is clear. -/
def levelLoop (x : Nat) : Nat → Nat → Nat
  | 0, lvl => lvl
  | fuel + 1, lvl => if (x >>> lvl) % 2 = 1 then levelLoop x fuel (lvl + 1) else lvl

/-- nodeIndex.level (tree_math.go:155-164). -/
def level (x : Nat) : Nat := if x % 2 = 0 then 0 else levelLoop x 33 0

/-- The computation of numLeaves.parent after the test for the root (tree_math.go:51-53). -/
def parentRaw (x : Nat) : Nat :=
  let lvl := level x
  let b := (x >>> (lvl + 1)) % 2
  (x ||| shl32 1 lvl) ^^^ shl32 b (lvl + 1)

/-- numLeaves.parent (tree_math.go:47-55). -/
def parent (n x : Nat) : Option Nat := if x = root n then none else some (parentRaw x)

/-- nodeIndex.isLeaf (tree_math.go:110-112). -/
def isLeaf (x : Nat) : Bool := x % 2 == 0

/-- nodeIndex.leafIndex (tree_math.go:115-120). -/
def leafOfNode (x : Nat) : Option Nat := if isLeaf x then some (x / 2) else none

/-- leafIndex.nodeIndex (tree_math.go:190-192): `2*li` wraps at 2^32. -/
def nodeOfLeaf (li : Nat) : Nat := (2 * li) % 2 ^ 32

/-- nodeIndex.left (tree_math.go:123-130). -/
def left (x : Nat) : Option Nat :=
  let lvl := level x
  if lvl = 0 then none else some (x ^^^ shl32 1 (lvl - 1))

/-- nodeIndex.right (tree_math.go:133-140). -/
def right (x : Nat) : Option Nat :=
  let lvl := level x
  if lvl = 0 then none else some (x ^^^ shl32 3 (lvl - 1))

/-- nodeIndex.children (tree_math.go:144-151); the second result of right() is dropped, it
is zero when absent, which cannot happen when left() is present. -/
def children (x : Nat) : Option (Nat × Nat) :=
  match left x with
  | none => none
  | some l => some (l, (right x).getD 0)

/-- numLeaves.sibling (tree_math.go:58-68). -/
def sibling (n x : Nat) : Option Nat :=
  match parent n x with
  | none => none
  | some p => if x < p then right p else left p

/-- The loop of directPath (tree_math.go:73-80). Inside a tree at most 31 steps are made;
out of a tree the loop never ends: 64 steps without meeting the root mean `hang`, which
`directPath_hang` (Proofs/TreeMath.lean) justifies. -/
def directPathLoop (n : Nat) : Nat → Nat → Res (List Nat)
  | 0, _ => .hang
  | fuel + 1, x =>
    match parent n x with
    | none => .ok []
    | some p => (directPathLoop n fuel p).bind fun ps => .ok (p :: ps)

/-- numLeaves.directPath (tree_math.go:71-82). -/
def directPath (n x : Nat) : Res (List Nat) := directPathLoop n 64 x

/-- The loop of copath (tree_math.go:94-100). -/
def copathLoop (n : Nat) : List Nat → Res (List Nat)
  | [] => .ok []
  | y :: ys =>
    match sibling n y with
    | none => .panic
    | some s => (copathLoop n ys).bind fun cs => .ok (s :: cs)

/-- numLeaves.copath (tree_math.go:85-103). -/
def copath (n x : Nat) : Res (List Nat) :=
  (directPath n x).bind fun path =>
    if path.length = 0 then .ok []
    else copathLoop n ((x :: path).dropLast)

/-- The loop of commonAncestor (tree_math.go:178-183), giving the common prefix and its
distance `k`; `xn` and `yn` are both zero after 32 steps. -/
def commonAncestorLoop : Nat → Nat → Nat → Nat → Nat × Nat
  | 0, xn, _, k => (xn, k)
  | fuel + 1, xn, yn, k =>
    if xn = yn then (xn, k) else commonAncestorLoop fuel (xn / 2) (yn / 2) (k + 1)

/-- commonAncestor (tree_math.go:168-185). `k` is a Go int, so the shifts are exact; the
sum is computed on uint32. When `x = y` the first test succeeds, so `k ≥ 1` at the end. -/
def commonAncestor (x y : Nat) : Nat :=
  let lx := level x + 1
  let ly := level y + 1
  if lx ≤ ly ∧ x >>> ly = y >>> ly then y
  else if ly ≤ lx ∧ x >>> lx = y >>> lx then x
  else
    let (xn, k) := commonAncestorLoop 33 x y 0
    (shl32 xn k + shl32 1 (k - 1) + 2 ^ 32 - 1) % 2 ^ 32

end Mls
