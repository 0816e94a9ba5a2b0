import Verif.Spec.UpdatePath
/-
Independent specification of a ratchet tree that whoever joins accepts as far as its parent nodes are concerned (RFC 9420
sections 7.9.2 and 12.4.3.1), and of the one way an update path can make another one of it.
-/
namespace Mls.Spec

/-- The parent hashes of the tree in the array `t` are valid. The unmerged leaves of a parent node are not blank, are below it, and are
unmerged leaves of the nodes between. -/
structure Intact (H : Bytes → Bytes) (t : List (Option Node)) {d : Nat} (s : Ratchet ParentNode d) : Prop where
  array : t = s.flat .leaf .parent
  parentHashes : s.ParentHashValid H t 0 0
  unmerged : ∀ x p, nodeAt t x = some (.parent p) → UnmergedValid t d x p.unmergedLeaves
  occupied : ∀ x p, nodeAt t x = some (.parent p) → ∀ li ∈ p.unmergedLeaves, li.toNat < 2 ^ 31 ∧ ∃ n, nodeAt t (2 * li.toNat) = some n

/-- Some node `q` on the path of the `i`-th leaf is claimed from the wrong side as well: a node in the resolution of the child off the
path carries the hash of `q` and of the child on the path. An update path replaces `q` and the child on the path only, so
that this hash was in the tree before what is hashed. -/
def Ratchet.Foreseen (H : Bytes → Bytes) (t : List (Option Node)) :
    {d : Nat} → Nat → Nat → Nat → Ratchet ParentNode d → Prop
  | _, _, _, _, leaf _ => False
  | d + 1, off, i0, i, node p l r =>
    if i < 2 ^ d then
      (∃ q h x, p = some q ∧ l.treeHash H i0 = some h ∧ parentHashInput q h = some x ∧
        HashIn t (r.resolution (off + 2 ^ (d + 1))) (H x)) ∨ l.Foreseen H t off i0 i
    else
      (∃ q h x, p = some q ∧ r.treeHash H (i0 + 2 ^ d) = some h ∧ parentHashInput q h = some x ∧
        HashIn t (l.resolution off) (H x)) ∨ r.Foreseen H t (off + 2 ^ (d + 1)) (i0 + 2 ^ d) (i - 2 ^ d)

end Mls.Spec
