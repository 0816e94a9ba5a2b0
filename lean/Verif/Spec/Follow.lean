import Verif.Spec.Commit
/-
Independent specification of an update path as its committer makes it (RFC 9420 section 7.5), and of the
private keys a member is meant to have (section 7.1 and 7.6).
-/
namespace Mls.Spec

/-- RFC 9420 section 7.5: an update path made from the path secret `ps` for the tree `s` after the path and the encoded
group context `raw`: each node of the path has the key of its path secret, and this is encrypted to the keys of
the resolution of the child off the path, except for the leaves `new`, those that the commit adds. -/
structure HonestPath (pr : Prims) (sd : SuiteDesc) {d : Nat} (s : Ratchet ParentNode d) (raw : Bytes) (i : Nat) (new : List Nat)
    (path : UpdatePath) (ps : Bytes) : Prop where
  length : path.nodes.length = (s.sends 0 i).length
  node : ∀ (n x : Nat) (res : List Nat) (pn : UpdatePathNode), (s.sends 0 i)[n]? = some (x, res) → path.nodes[n]? = some pn →
    pn.encryptionKey = (nodeKeys pr sd (pathSecret pr sd ps n)).1 ∧
    pn.encryptedPathSecret.length = (res.filter (· ∉ new)).length ∧
    ∀ (j y : Nat) (ct : HpkeCiphertext), (res.filter (· ∉ new))[j]? = some y → pn.encryptedPathSecret[j]? = some ct →
      ∃ q rand, nodeAt (s.flat Node.leaf Node.parent) y = some q ∧
        pr.hpkeSeal sd (keyOf q) (encryptContext "UpdatePathNode" raw) (pathSecret pr sd ps n) rand =
          some (ct.kemOutput, ct.ciphertext)

/-- The private key opens whatever is sealed to the public key. -/
def KeyOpens (pr : Prims) (sd : SuiteDesc) (pub priv : Bytes) : Prop :=
  ∀ info plain rand kemOut ct, pr.hpkeSeal sd pub info plain rand = some (kemOut, ct) →
    pr.hpkeOpen sd priv info kemOut ct = some plain

/-- RFC 9420 section 4.2: what the member at the `r`-th leaf of the tree `v` of depth `d` is meant to hold: the key of its leaf, which
opens what is sealed to the leaf; and a key for every node above that is not blank and does not have it as an
unmerged leaf. -/
structure HoldsKeys (pr : Prims) (sd : SuiteDesc) (v : List (Option Node)) (d r : Nat) (keys : List (Option Bytes)) : Prop where
  leaf : ∃ (l : LeafNode) (k : Bytes), nodeAt v (2 * r) = some (.leaf l) ∧ keys[2 * r]? = some (some k) ∧ KeyOpens pr sd l.encryptionKey k
  above : ∀ (x : Nat) (q : ParentNode), IsAncestor d r x → nodeAt v x = some (.parent q) → (∀ u ∈ q.unmergedLeaves, leafNumber u ≠ 2 * r) →
    ∃ k : Bytes, keys[x]? = some (some k)

end Mls.Spec
