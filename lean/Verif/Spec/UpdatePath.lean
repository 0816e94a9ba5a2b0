import Verif.Spec.Integrity
/-
Independent specification of the merging of an update path into a ratchet tree (RFC 9420 sections 7.5,
7.7 and 7.9), by recursion on the tree.
-/
namespace Mls.Spec

/-- A node of the filtered direct path, from the root down: the next of the public keys with the parent
hash `prev` of the node above, and no unmerged leaves. Gives the node, the keys left, and the parent hash
for the node below; `sib` is the tree hash of the child off the path. -/
def pathStep (H : Bytes → Bytes) (keys : List Bytes) (prev : Bytes) (sib : Option Bytes) :
    Option (ParentNode × List Bytes × Bytes) :=
  match keys with
  | [] => none
  | k :: ks => do
    let sh ← sib
    let x ← parentHashInput { encryptionKey := k, parentHash := prev, unmergedLeaves := [] } sh
    return ({ encryptionKey := k, parentHash := prev, unmergedLeaves := [] }, ks, H x)

namespace Ratchet

/-- The tree after the update path of the `i`-th leaf, with the public keys from the root down, and the parent
hash for the new leaf. The first leaf has the index `i0`, and `prev` is the parent hash for the top
node. Nodes of the direct path whose other child has an empty resolution become blank. -/
def merge (H : Bytes → Bytes) (new : LeafNode) :
    {d : Nat} → Nat → Nat → Ratchet ParentNode d → List Bytes → Bytes → Option (Ratchet ParentNode d × Bytes)
  | _, _, _, leaf _, keys, prev => if keys = [] then some (leaf (some new), prev) else none
  | d + 1, i0, i, node _ l r, keys, prev =>
    if i < 2 ^ d then
      if r.resolution 0 = [] then (l.merge H new i0 i keys prev).map fun a => (node none a.1 r, a.2)
      else (pathStep H keys prev (r.treeHash H (i0 + 2 ^ d))).bind fun q =>
        (l.merge H new i0 i q.2.1 q.2.2).map fun a => (node (some q.1) a.1 r, a.2)
    else
      if l.resolution 0 = [] then
        (r.merge H new (i0 + 2 ^ d) (i - 2 ^ d) keys prev).map fun a => (node none l a.1, a.2)
      else (pathStep H keys prev (l.treeHash H i0)).bind fun q =>
        (r.merge H new (i0 + 2 ^ d) (i - 2 ^ d) q.2.1 q.2.2).map fun a => (node (some q.1) l a.1, a.2)

/-- The tree after an update path whose leaf node carries the parent hash it should. -/
def mergePath (H : Bytes → Bytes) {d : Nat} (s : Ratchet ParentNode d) (i : Nat) (path : UpdatePath) :
    Option (Ratchet ParentNode d) :=
  match s.merge H path.leafNode 0 i (path.nodes.map fun n => n.encryptionKey).reverse [] with
  | some (s', ph) => if parentHashOf (.leaf path.leafNode) = ph then some s' else none
  | none => none

/-- The chain of parent hashes along the path of the `i`-th leaf: below every non-blank node `q` of the path, the next
non-blank node of the path is the whole resolution of the child on the path, and carries the hash of `q` and of the
child off the path. `off` and `i0` are the first node number and the first leaf index. -/
def PathChained (H : Bytes → Bytes) (t : List (Option Node)) :
    {d : Nat} → Nat → Nat → Nat → Ratchet ParentNode d → Prop
  | _, _, _, _, leaf _ => True
  | d + 1, off, i0, i, node p l r =>
    if i < 2 ^ d then
      (∀ q, p = some q → ∃ sh x y n, r.treeHash H (i0 + 2 ^ d) = some sh ∧ parentHashInput q sh = some x ∧
        l.resolution off = [y] ∧ nodeAt t y = some n ∧ parentHashOf n = H x) ∧ l.PathChained H t off i0 i
    else
      (∀ q, p = some q → ∃ sh x y n, l.treeHash H i0 = some sh ∧ parentHashInput q sh = some x ∧
        r.resolution (off + 2 ^ (d + 1)) = [y] ∧ nodeAt t y = some n ∧ parentHashOf n = H x) ∧
      r.PathChained H t (off + 2 ^ (d + 1)) (i0 + 2 ^ d) (i - 2 ^ d)

end Ratchet

end Mls.Spec
