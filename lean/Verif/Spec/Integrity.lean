import Verif.Spec.TreeRead
import Verif.Spec.Schedule
/-
Independent specification of the checks on a ratchet tree received with a welcome (RFC 9420
sections 7.3, 7.9.2 and 12.4.3.1).
-/
namespace Mls.Spec

/-- RFC 9420 section 7.9: ParentHashInput of a parent node and of the original tree hash of the
child off the path. -/
def parentHashInput (p : ParentNode) (siblingHash : Bytes) : Option Bytes := do
  let a ← opaqueVec p.encryptionKey
  let b ← opaqueVec p.parentHash
  let c ← opaqueVec siblingHash
  return a ++ b ++ c

/-- The parent hash stored in a node. Only leaves from commits have one. -/
def parentHashOf : Node → Bytes
  | .leaf l =>
    match l.source with
    | .commit h => h
    | _ => []
  | .parent p => p.parentHash

/-- One of the nodes listed carries this parent hash. -/
def HashIn (t : List (Option Node)) (xs : List Nat) (ph : Bytes) : Prop :=
  ∃ y ∈ xs, ∃ n, nodeAt t y = some n ∧ parentHashOf n = ph

/-- The link of a parent node `p` to its children (RFC 9420 section 7.9.2): exactly one of the
children has a node in its resolution whose parent hash is that of `p` with the other child as the
sibling. `off` and `i` are the first node number and the first leaf index below `p`. -/
def ParentLink (H : Bytes → Bytes) (t : List (Option Node)) {d : Nat} (off i : Nat) (p : ParentNode)
    (l r : Ratchet ParentNode d) : Prop :=
  ∃ lh rh li ri, (l.without p.unmergedLeaves i).treeHash H i = some lh ∧
    (r.without p.unmergedLeaves (i + 2 ^ d)).treeHash H (i + 2 ^ d) = some rh ∧
    parentHashInput p rh = some li ∧ parentHashInput p lh = some ri ∧
    ((HashIn t (l.resolution off) (H li) ∧ ¬ HashIn t (r.resolution (off + 2 ^ (d + 1))) (H ri)) ∨
      (¬ HashIn t (l.resolution off) (H li) ∧ HashIn t (r.resolution (off + 2 ^ (d + 1))) (H ri)))

/-- All parent nodes of a tree are linked to their children. -/
def Ratchet.ParentHashValid (H : Bytes → Bytes) (t : List (Option Node)) :
    {d : Nat} → Nat → Nat → Ratchet ParentNode d → Prop
  | _, _, _, leaf _ => True
  | d + 1, off, i, node p l r =>
    (∀ q, p = some q → ParentLink H t off i q l r) ∧
      l.ParentHashValid H t off i ∧ r.ParentHashValid H t (off + 2 ^ (d + 1)) (i + 2 ^ d)

/-- The unmerged leaves of the parent node at `x`: each is a leaf below `x`, and it is also an unmerged
leaf of the non-blank nodes between. -/
def UnmergedValid (t : List (Option Node)) (d x : Nat) (lis : List UInt32) : Prop :=
  ∀ li ∈ lis, ∃ below above, (ITree.perfect d 0).ancestors (leafNumber li) = some (below ++ x :: above) ∧
    ∀ y ∈ below, ∀ q, nodeAt t y = some (.parent q) → li ∈ q.unmergedLeaves

/-- The encryption key of a node. -/
def keyOf : Node → Bytes
  | .leaf l => l.encryptionKey
  | .parent p => p.encryptionKey

end Mls.Spec
