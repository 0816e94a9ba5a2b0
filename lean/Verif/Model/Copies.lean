import Verif.Model.Group
/-
Copies of a group. `Group` (group.go:19-33) is a struct with hidden fields, so an application that wants to keep a
group as it was, or to go on from it twice, can only copy the struct (`b := *a`). The copy shares what the fields
point to: the parent nodes of the tree, which `ratchetTree.add` changes in place (tree.go:1047), and the array behind
`pendingProposals`, into which processProposal appends (group.go:410). All else that the fields point to is never
written once it is there: processCommit copies the array of the tree (group.go:453), makes a new one for the private keys
(group.go:456) and replaces the rest (group.go:549-556).

So several groups are modelled by one heap, the arrays of pending proposals, and for each group its record with a slice
of one of the arrays. What a call does is taken from the model of a single group, applied to the group as it is read
through the heap and the arrays at that moment.
-/
namespace Mls

/-- An array of pending proposals: its capacity, and the elements written so far. -/
structure PendArray where
  cap : Nat
  slots : List PendingProposal
  deriving DecidableEq, Repr, Inhabited

/-- A group that shares memory: the record without its pending proposals, and the slice that has them. Slices of
array 0, which has no room, are nil slices. -/
structure SharedGroup where
  group : Group
  arr : Nat
  len : Nat
  deriving DecidableEq, Repr, Inhabited

/-- A group and its copies. -/
structure Copies where
  heap : Heap
  arrays : List PendArray
  groups : List SharedGroup
  deriving DecidableEq, Repr, Inhabited

/-- The group as its methods see it. -/
def Copies.read (w : Copies) (g : SharedGroup) : GroupState :=
  ⟨w.heap, { g.group with pendingProposals := (w.arrays.getD g.arr default).slots.take g.len }⟩

/-- A group nobody has copied, with no proposals pending. -/
def Copies.one (st : GroupState) : Copies := ⟨st.heap, [⟨0, []⟩], [⟨st.group, 0, 0⟩]⟩

/-- `b := *a`. -/
def Copies.copy (w : Copies) (g : SharedGroup) : Copies := { w with groups := w.groups ++ [g] }

/-- `append(s, x)` for the first `len` elements of an array (group.go:410; Go specification, "Appending to and copying
slices"): in place if the array has room, otherwise in a new array, whose capacity is up to the runtime (`grow`). -/
def appendPending (grow : Nat → Nat) (arrays : List PendArray) (arr len : Nat) (x : PendingProposal) : List PendArray × Nat :=
  let a := arrays.getD arr default
  if len < a.cap then
    (arrays.set arr { a with slots := a.slots.take len ++ x :: a.slots.drop (len + 1) }, arr)
  else (arrays ++ [⟨grow len, a.slots.take len ++ [x]⟩], arrays.length)

/-- The `i`-th group, `g`, goes on as `st`: what a call leaves is written back. A call appends one pending proposal
(group.go:410), drops all of them (group.go:556), or leaves them alone. -/
def Copies.write (grow : Nat → Nat) (w : Copies) (i : Nat) (g : SharedGroup) (st : GroupState) : Copies :=
  match st.group.pendingProposals.drop g.len with
  | x :: _ =>
    let (arrays, arr) := appendPending grow w.arrays g.arr g.len x
    ⟨st.heap, arrays, w.groups.set i ⟨st.group, arr, g.len + 1⟩⟩
  | [] =>
    if st.group.pendingProposals.length < g.len then ⟨st.heap, w.arrays, w.groups.set i ⟨st.group, 0, 0⟩⟩
    else ⟨st.heap, w.arrays, w.groups.set i ⟨st.group, g.arr, g.len⟩⟩

variable (pr : Prims)

/-- UnmarshalAndProcessMessage (group.go:256-271) of one of the groups. -/
def Copies.message (grow : Nat → Nat) (w : Copies) (i : Nat) (g : SharedGroup) (raw : Bytes) (now : GoTime) :
    Res (Option Bytes) × Copies :=
  let (r, st) := unmarshalAndProcessMessage pr (w.read g) raw now
  (r, w.write grow i g st)

/-- CreateWelcome (group.go:595-757) of one of the groups. -/
def Copies.invite (grow : Nat → Nat) (w : Copies) (i : Nat) (g : SharedGroup) (kps : List KeyPackage) (rand : WelcomeRand) :
    Res (Welcome × Bytes) × Copies :=
  let (r, st) := createWelcome pr (w.read g) kps rand
  (r, w.write grow i g st)

end Mls
