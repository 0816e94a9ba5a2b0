import Verif.Model.Types
import Verif.Spec.Tree
/-
Independent specification of ratchet trees (RFC 9420 sections 4 and 7): binary trees whose leaves
and inner nodes may be blank, with the operations of section 7.7 defined by recursion on the tree,
without node indices. `Ratchet P d` is a complete tree of depth `d`, `P` being what a non-blank
parent node carries.
-/
namespace Mls.Spec

/-- A complete ratchet tree of depth `d`. -/
inductive Ratchet (P : Type) : Nat → Type where
  | leaf (n : Option LeafNode) : Ratchet P 0
  | node {d : Nat} (p : Option P) (l r : Ratchet P d) : Ratchet P (d + 1)

namespace Ratchet

variable {P Q : Type}

/-- The array representation of RFC 9420 appendix C: the nodes in order. -/
def flat {N : Type} (ml : LeafNode → N) (mp : P → N) : {d : Nat} → Ratchet P d → List (Option N)
  | _, leaf n => [n.map ml]
  | _, node p l r => l.flat ml mp ++ p.map mp :: r.flat ml mp

/-- The leaves, from left to right. -/
def leaves : {d : Nat} → Ratchet P d → List (Option LeafNode)
  | _, leaf n => [n]
  | _, node _ l r => l.leaves ++ r.leaves

/-- What the non-blank parents carry, in order. -/
def parents : {d : Nat} → Ratchet P d → List P
  | _, leaf _ => []
  | _, node p l r => l.parents ++ p.toList ++ r.parents

/-- Change of what the parents carry. -/
def map (f : P → Q) : {d : Nat} → Ratchet P d → Ratchet Q d
  | _, leaf n => leaf n
  | _, node p l r => node (p.map f) (l.map f) (r.map f)

/-- A blank tree. -/
def blank : (d : Nat) → Ratchet P d
  | 0 => leaf none
  | d + 1 => node none (blank d) (blank d)

/-- Some leaf is not blank. -/
def occupied : {d : Nat} → Ratchet P d → Bool
  | _, leaf n => n.isSome
  | _, node _ l r => l.occupied || r.occupied

/-- Change of the `i`-th leaf by `f` and of all its ancestors by `g`. -/
def alongPath (f : Option LeafNode → Option LeafNode) (g : Option P → Option P) :
    {d : Nat} → Nat → Ratchet P d → Ratchet P d
  | _, _, leaf n => leaf (f n)
  | d + 1, i, node p l r =>
    if i < 2 ^ d then node (g p) (l.alongPath f g i) r
    else node (g p) l (r.alongPath f g (i - 2 ^ d))

/-- Index of the leftmost blank leaf. -/
def firstBlank : {d : Nat} → Ratchet P d → Option Nat
  | _, leaf none => some 0
  | _, leaf (some _) => none
  | d + 1, node _ l r =>
    match l.firstBlank with
    | some i => some i
    | none => r.firstBlank.map (2 ^ d + ·)

/-- A tree of any depth. -/
abbrev Any (P : Type) := Σ d, Ratchet P d

/-- Recording of an unmerged leaf. -/
def addUnmerged (li : Nat) (p : ParentNode) : ParentNode :=
  { p with unmergedLeaves := p.unmergedLeaves ++ [UInt32.ofNat li] }

/-- Adding a member (RFC 9420 section 7.7): at the leftmost blank leaf, after doubling the tree
when there is none; the leaf becomes an unmerged leaf of its non-blank ancestors. -/
def add {d : Nat} (t : Ratchet ParentNode d) (n : LeafNode) : Any ParentNode :=
  match t.firstBlank with
  | some i => ⟨d, t.alongPath (fun _ => some n) (Option.map (addUnmerged i)) i⟩
  | none => ⟨d + 1, node none t ((blank d).alongPath (fun _ => some n) id 0)⟩

/-- Updating a member: the leaf is replaced and its ancestors are blanked. -/
def update {d : Nat} (t : Ratchet P d) (i : Nat) (n : LeafNode) : Ratchet P d :=
  t.alongPath (fun _ => some n) (fun _ => none) i

/-- The smallest tree holding all members; none if there is no member at all. -/
def shrink : {d : Nat} → Ratchet P d → Option (Any P)
  | _, leaf none => none
  | _, leaf (some n) => some ⟨0, leaf (some n)⟩
  | _, node p l r => if r.occupied then some ⟨_, node p l r⟩ else l.shrink

/-- Removing a member: the leaf and its ancestors are blanked, and the tree is shrunk. -/
def remove {d : Nat} (t : Ratchet P d) (i : Nat) : Option (Any P) :=
  (t.alongPath (fun _ => none) (fun _ => none) i).shrink

/-- Number of members. -/
def size {d : Nat} (t : Ratchet P d) : Nat := (t.leaves.filterMap id).length

/-- Adding to a tree that may be empty. -/
def addOpt (t : Option (Any ParentNode)) (n : LeafNode) : Any ParentNode :=
  match t with
  | none => ⟨0, leaf (some n)⟩
  | some a => a.2.add n

/-- Updating a tree that may be empty: defined for the indices of its leaves only. -/
def updateOpt (t : Option (Any P)) (i : Nat) (n : LeafNode) : Option (Option (Any P)) :=
  match t with
  | none => none
  | some ⟨d, t⟩ => if i < 2 ^ d then some (some ⟨d, t.update i n⟩) else none

/-- Removing from a tree that may be empty: defined for the indices of its leaves only. -/
def removeOpt (t : Option (Any P)) (i : Nat) : Option (Option (Any P)) :=
  match t with
  | none => none
  | some ⟨d, t⟩ => if i < 2 ^ d then some (t.remove i) else none

/-- The update proposals of a commit, each with its sender. -/
def updatesOf (ps : List (Proposal × UInt32)) : List (UInt32 × LeafNode) :=
  ps.filterMap fun p => match p with
    | (.update n, sender) => some (sender, n)
    | _ => none

/-- The leaves removed by a commit. -/
def removesOf (ps : List Proposal) : List UInt32 :=
  ps.filterMap fun p => match p with
    | .remove li => some li
    | _ => none

/-- The leaf nodes added by a commit. -/
def addsOf (ps : List Proposal) : List LeafNode :=
  ps.filterMap fun p => match p with
    | .add k => some k.leafNode
    | _ => none

/-- Applying a commit (RFC 9420 section 12.3): all updates, then all removes, then all adds. -/
def applyAll (t : Option (Any ParentNode)) (updates : List (UInt32 × LeafNode)) (removes : List UInt32)
    (adds : List LeafNode) : Option (Option (Any ParentNode)) :=
  ((updates.foldlM (fun t u => updateOpt t u.1.toNat u.2) t).bind fun t =>
    removes.foldlM (fun t i => removeOpt t i.toNat) t).map fun t =>
      adds.foldl (fun t n => some (addOpt t n)) t

end Ratchet

/-! Readers of the array representation. -/

/-- The node at a position: none if it is blank or if there is no such position. -/
def nodeAt {N : Type} (t : List (Option N)) (x : Nat) : Option N := t[x]?.join

/-- `x` is a proper ancestor of leaf `i` in the complete tree of depth `d`. -/
def IsAncestor (d i x : Nat) : Prop := ∃ path, (ITree.perfect d 0).ancestors (2 * i) = some path ∧ x ∈ path

end Mls.Spec
