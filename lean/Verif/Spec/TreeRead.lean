import Verif.Spec.Ratchet
import Verif.Spec.Private
import Verif.Spec.Rfc
/-
Independent specification of what is read off a ratchet tree (RFC 9420 sections 4.1.1, 4.1.2, 7.8
and 7.9), by recursion on the tree. The numbers are node numbers of the array representation:
a complete tree of depth d whose first node has the number `off` has its top node at
`off + 2^d - 1`.
-/
namespace Mls.Spec

/-- The node number of a leaf index. Node numbers are 32 bits wide. -/
def leafNumber (li : UInt32) : Nat := 2 * li.toNat % 4294967296

namespace Ratchet

/-- RFC 9420 section 4.1.1: the resolution of the top node. -/
def resolution : {d : Nat} → Nat → Ratchet ParentNode d → List Nat
  | _, off, leaf (some _) => [off]
  | _, _, leaf none => []
  | d + 1, off, node (some p) _ _ => (off + 2 ^ (d + 1) - 1) :: p.unmergedLeaves.map leafNumber
  | d + 1, off, node none l r => l.resolution off ++ r.resolution (off + 2 ^ (d + 1))

/-- RFC 9420 section 4.1.2: the filtered direct path of the `i`-th leaf, upwards: the ancestors
whose child off the path has a non-empty resolution. -/
def filteredPath : {d : Nat} → Nat → Nat → Ratchet ParentNode d → List Nat
  | _, _, _, leaf _ => []
  | d + 1, off, i, node _ l r =>
    if i < 2 ^ d then
      l.filteredPath off i ++ (if r.resolution (off + 2 ^ (d + 1)) = [] then [] else [off + 2 ^ (d + 1) - 1])
    else
      r.filteredPath (off + 2 ^ (d + 1)) (i - 2 ^ d) ++
        (if l.resolution off = [] then [] else [off + 2 ^ (d + 1) - 1])

/-- There is no node in the tree. -/
def Bare : {d : Nat} → Ratchet ParentNode d → Prop
  | _, leaf n => n = none
  | _, node p l r => p = none ∧ l.Bare ∧ r.Bare

/-- The tree without some leaves: they are blank, and no parent has them as unmerged leaves
(RFC 9420 section 7.9, the original tree hash). The first leaf has the index `i`. -/
def without (ex : List UInt32) : {d : Nat} → Nat → Ratchet ParentNode d → Ratchet ParentNode d
  | _, i, leaf n => leaf (if UInt32.ofNat i ∈ ex then none else n)
  | d + 1, i, node p l r =>
    node (p.map fun p => { p with unmergedLeaves := p.unmergedLeaves.filter fun u => u ∉ ex })
      (l.without ex i) (r.without ex (i + 2 ^ d))

/-- RFC 9420 section 7.8: TreeHashInput of a leaf. -/
def leafInput (i : Nat) (n : Option LeafNode) : Option Bytes :=
  match n with
  | none => some ([1] ++ be4 i ++ [0])
  | some n => (Rfc.leafNode n).bytes.map fun b => [1] ++ be4 i ++ [1] ++ b

/-- RFC 9420 section 7.8: TreeHashInput of a parent node. -/
def parentInput (p : Option ParentNode) (lh rh : Bytes) : Option Bytes :=
  match p with
  | none => some ([2] ++ [0] ++ vec lh ++ vec rh)
  | some p => (Rfc.parentNode p).bytes.map fun b => [2] ++ [1] ++ b ++ vec lh ++ vec rh

/-- RFC 9420 section 7.8: the tree hash of the top node, for the hash function `H`. The first leaf
has the index `i`. None if some node cannot be encoded. -/
def treeHash (H : Bytes → Bytes) : {d : Nat} → Nat → Ratchet ParentNode d → Option Bytes
  | _, i, leaf n => (leafInput i n).map H
  | d + 1, i, node p l r => do
    let lh ← l.treeHash H i
    let rh ← r.treeHash H (i + 2 ^ d)
    let x ← parentInput p lh rh
    return H x

/-- The inputs of the hash function in the computation of the tree hash. -/
def hashed (H : Bytes → Bytes) : {d : Nat} → Nat → Ratchet ParentNode d → List Bytes
  | _, i, leaf n => (leafInput i n).toList
  | d + 1, i, node p l r =>
    l.hashed H i ++ r.hashed H (i + 2 ^ d) ++
      (do let lh ← l.treeHash H i
          let rh ← r.treeHash H (i + 2 ^ d)
          parentInput p lh rh).toList

end Ratchet

/-- `t` is the array of a complete tree of at most 2^31 leaves. -/
def IsTree (t : List (Option Node)) : Prop :=
  (∃ d, d ≤ 31 ∧ t.length = 2 ^ (d + 1) - 1) ∧
    (∀ (x : Nat) l, t[x]? = some (some (.leaf l)) → x % 2 = 0) ∧
    (∀ (x : Nat) p, t[x]? = some (some (.parent p)) → x % 2 = 1)

end Mls.Spec
