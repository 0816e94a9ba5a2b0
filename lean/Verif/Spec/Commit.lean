import Verif.Spec.Schedule
import Verif.Spec.Integrity
/-
Independent specification of what a commit derives (RFC 9420 sections 7.4, 8 and 8.2).
-/
namespace Mls.Spec

variable (pr : Prims) (d : SuiteDesc)

/-- RFC 9420 section 7.4: the path secret `n` steps further up. -/
def pathSecret (ps : Bytes) : Nat → Bytes
  | 0 => ps
  | n + 1 => deriveSecret pr d (pathSecret ps n) "path"

/-- RFC 9420 section 7.4: the key pair of a node with this path secret: public, private. -/
def nodeKeys (ps : Bytes) : Bytes × Bytes := pr.kemDeriveKeyPair d.kem (deriveSecret pr d ps "node")

/-- RFC 9420 section 8: the joiner secret. `ctx`: the encoded group context of the new epoch. -/
def joinerSecret (initSecret commitSecret ctx : Bytes) : Bytes :=
  expandWithLabel pr d (pr.extract d.kdf commitSecret initSecret) "joiner" ctx d.kdf.size

/-- RFC 9420 section 8: the epoch secret. -/
def epochSecret (joiner psk ctx : Bytes) : Bytes :=
  expandWithLabel pr d (pr.extract d.kdf psk joiner) "epoch" ctx d.kdf.size

/-- RFC 9420 section 8.2: the confirmed transcript hash. `input`: the encoded ConfirmedTranscriptHashInput. -/
def confirmedHash (interim input : Bytes) : Bytes := pr.hash d.hash (interim ++ input)

/-- RFC 9420 section 8.2: the interim transcript hash. -/
def interimHash (confirmed tag : Bytes) : Bytes := pr.hash d.hash (confirmed ++ vec tag)

/-- What the members of a group share and outsiders do not know, or know only in part: the state of the key
schedule. -/
structure Epoch where
  context : GroupContext
  interim : Bytes
  epochSecret : Bytes
  initSecret : Bytes
  deriving DecidableEq

/-- The epoch after a commit (RFC 9420 sections 8 and 8.2). `input`: the encoded ConfirmedTranscriptHashInput of the commit;
`tag`: its confirmation tag; `treeHash`: that of the tree after the commit; `raw`: the encoding of the new group
context. -/
structure NextEpoch (e e' : Epoch) (treeHash commitSecret psk input tag raw : Bytes) : Prop where
  context : e'.context = { e.context with
    epoch := e.context.epoch + 1, treeHash := treeHash, confirmedTranscriptHash := confirmedHash pr d e.interim input }
  encoded : (Rfc.groupContext e'.context).bytes = some raw
  interim : e'.interim = interimHash pr d e'.context.confirmedTranscriptHash tag
  epochSecret : e'.epochSecret = epochSecret pr d (joinerSecret pr d e.initSecret commitSecret raw) psk raw
  initSecret : e'.initSecret = deriveSecret pr d e'.epochSecret "init"
  tag : tag.length < 2 ^ 30

/-- RFC 9420 section 5.1.3: struct EncryptContext. -/
def encryptContext (label : String) (context : Bytes) : Bytes := vec (ascii ("MLS 1.0 " ++ label)) ++ vec context

namespace Ratchet

/-- Where two leaves meet: the lowest node above the `i`-th and the `r`-th leaf, and the resolution of its
child above the `r`-th. `off` is the number of the first node. -/
def meet : {d : Nat} → Nat → Nat → Nat → Ratchet ParentNode d → Option (Nat × List Nat)
  | _, _, _, _, leaf _ => none
  | d + 1, off, i, r, node _ a b =>
    if i < 2 ^ d then
      if r < 2 ^ d then a.meet off i r else some (off + 2 ^ (d + 1) - 1, b.resolution (off + 2 ^ (d + 1)))
    else
      if r < 2 ^ d then some (off + 2 ^ (d + 1) - 1, a.resolution off)
      else b.meet (off + 2 ^ (d + 1)) (i - 2 ^ d) (r - 2 ^ d)

/-- RFC 9420 section 7.5: the nodes of the filtered direct path of the `i`-th leaf, upwards, each with the nodes
its path secret is encrypted to: the resolution of its child off the path. -/
def sends : {d : Nat} → Nat → Nat → Ratchet ParentNode d → List (Nat × List Nat)
  | _, _, _, leaf _ => []
  | d + 1, off, i, node _ a b =>
    if i < 2 ^ d then
      a.sends off i ++ (if b.resolution (off + 2 ^ (d + 1)) = [] then []
        else [(off + 2 ^ (d + 1) - 1, b.resolution (off + 2 ^ (d + 1)))])
    else
      b.sends (off + 2 ^ (d + 1)) (i - 2 ^ d) ++
        (if a.resolution off = [] then [] else [(off + 2 ^ (d + 1) - 1, a.resolution off)])

end Ratchet

/-- RFC 9420 sections 7.5 and 7.6: what the `r`-th leaf, holding the private keys `keys`, gets from the update path of the
`i`-th leaf. The tree is that after the path, `raw` the encoded group context the secrets are encrypted with. The two
leaves meet at the node `x`, the `e`-th of the filtered direct path; one of the ciphertexts for the resolution of the
receiver's side is for a node `y` the receiver has the key of, and opens to the path secret `ps` of `x`. From there
on, each node of the path has the public key of its path secret, the receiver now has (in `keys'`) the private one, and
the commit secret is the path secret one step above the last. -/
structure Received (sd : SuiteDesc) {d : Nat} (s : Ratchet ParentNode d) (raw : Bytes) (i r : Nat) (path : UpdatePath)
    (keys keys' : List (Option Bytes)) (commitSecret : Bytes) (e : Nat) (ps : Bytes) : Prop where
  length : path.nodes.length = (s.filteredPath 0 i).length
  opened : ∃ (x : Nat) (res : List Nat) (pn : UpdatePathNode) (j y : Nat) (k : Bytes) (ct : HpkeCiphertext),
    s.meet 0 i r = some (x, res) ∧ (s.filteredPath 0 i)[e]? = some x ∧ path.nodes[e]? = some pn ∧
    pn.encryptedPathSecret.length = res.length ∧ res[j]? = some y ∧ keys[y]? = some (some k) ∧
    pn.encryptedPathSecret[j]? = some ct ∧
    pr.hpkeOpen sd k (encryptContext "UpdatePathNode" raw) ct.kemOutput ct.ciphertext = some ps
  node : ∀ n x, (s.filteredPath 0 i)[e + n]? = some x → ∃ q, nodeAt (s.flat Node.leaf Node.parent) x = some q ∧
    keyOf q = (nodeKeys pr sd (pathSecret pr sd ps n)).1 ∧
    keys'[x]? = some (some (nodeKeys pr sd (pathSecret pr sd ps n)).2)
  commit : commitSecret = pathSecret pr sd ps ((s.filteredPath 0 i).length - e)

end Mls.Spec
