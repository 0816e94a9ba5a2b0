import Verif.Model.Basic
/-
Independent specification of array-based complete binary trees (RFC 9420 appendix C):
a perfect binary tree whose nodes are numbered in order, as in the drawing of tree_math.go:3-21.
-/
namespace Mls.Spec

/-- A binary tree with numbered nodes. -/
inductive ITree where
  | leaf (x : Nat)
  | node (l : ITree) (x : Nat) (r : ITree)
  deriving DecidableEq, Repr

namespace ITree

/-- Number of the root. -/
def top : ITree → Nat
  | leaf x => x
  | node _ x _ => x

/-- The perfect tree of depth `d` whose nodes are numbered in order from `off` on: a tree of
depth `d` has `2^(d+1) - 1` nodes, so the root of depth `d + 1` comes after the
`2^(d+1) - 1` nodes of its left half. -/
def perfect : Nat → Nat → ITree
  | 0, off => leaf off
  | d + 1, off => node (perfect d off) (off + (2 ^ (d + 1) - 1)) (perfect d (off + 2 ^ (d + 1)))

/-- All numbers, in order. -/
def inorder : ITree → List Nat
  | leaf x => [x]
  | node l x r => l.inorder ++ x :: r.inorder

/-- The leaves, from left to right. -/
def leaves : ITree → List Nat
  | leaf x => [x]
  | node l _ r => l.leaves ++ r.leaves

/-- `edge t p l r`: node `p` of `t` has the children `l` (left) and `r` (right). -/
inductive Edge : ITree → Nat → Nat → Nat → Prop where
  | here (l : ITree) (x : Nat) (r : ITree) : Edge (node l x r) x l.top r.top
  | inl {l : ITree} (x : Nat) (r : ITree) {p a b : Nat} : Edge l p a b → Edge (node l x r) p a b
  | inr (l : ITree) (x : Nat) {r : ITree} {p a b : Nat} : Edge r p a b → Edge (node l x r) p a b

/-- Membership of a number in a tree. -/
inductive Mem : Nat → ITree → Prop where
  | leaf (x : Nat) : Mem x (leaf x)
  | here (l : ITree) (x : Nat) (r : ITree) : Mem x (node l x r)
  | inl {l : ITree} (x : Nat) (r : ITree) {y : Nat} : Mem y l → Mem y (node l x r)
  | inr (l : ITree) (x : Nat) {r : ITree} {y : Nat} : Mem y r → Mem y (node l x r)

/-- `Sub s t`: `s` is a subtree of `t`. -/
inductive Sub : ITree → ITree → Prop where
  | refl (t : ITree) : Sub t t
  | inl {s l : ITree} (x : Nat) (r : ITree) : Sub s l → Sub s (node l x r)
  | inr {s r : ITree} (l : ITree) (x : Nat) : Sub s r → Sub s (node l x r)

/-- Proper ancestors of `y`, from its parent up to the root; `none` if `y` is not in the tree. -/
def ancestors : ITree → Nat → Option (List Nat)
  | leaf x, y => if y = x then some [] else none
  | node l x r, y =>
    if y = x then some []
    else match l.ancestors y with
      | some p => some (p ++ [x])
      | none => (r.ancestors y).map (· ++ [x])

/-- The subtrees hanging off the path from `y` to the root, bottom up: for `y` and each
proper ancestor of it but the root, the subtree of its sibling. -/
def siblingTrees : ITree → Nat → Option (List ITree)
  | leaf x, y => if y = x then some [] else none
  | node l x r, y =>
    if y = x then some []
    else match l.siblingTrees y with
      | some p => some (p ++ [r])
      | none => (r.siblingTrees y).map (· ++ [l])

/-- The number of the node reached from the root by a path of left (`false`) and right (`true`)
turns. -/
def walk : ITree → List Bool → Option Nat
  | t, [] => some t.top
  | leaf _, _ :: _ => none
  | node l _ r, b :: p => if b then r.walk p else l.walk p

end ITree

end Mls.Spec
