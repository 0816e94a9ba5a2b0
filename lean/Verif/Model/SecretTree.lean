import Verif.Model.Crypto
import Verif.Model.TreeMath
/-
Model of secret_tree.go. A secretTree is a list of optional byte strings (`none` = nil).
-/
namespace Mls

variable (pr : Prims)

/-- ratchetLabelFromContentType (secret_tree.go:14-23). -/
def ratchetLabel : ContentType → Bytes
  | .application => lblApplication
  | .proposal => lblHandshake
  | .commit => lblHandshake

/-- secretTree.get (secret_tree.go:67-73): panics out of range or on nil. -/
def secretTreeGet (tree : List (Option Bytes)) (ni : Nat) : Res Bytes := do
  let secret ← Res.idx tree ni
  Res.deref secret

/-- secretTree.deriveChildren (secret_tree.go:36-65) with secretTree.set (secret_tree.go:75-77); the recursion goes down one level at a
time, so the 33 levels of a uint32 index are enough fuel. -/
def deriveChildren (cs : UInt16) : Nat → List (Option Bytes) → Nat → Res (List (Option Bytes))
  | 0, _, _ => .hang
  | fuel + 1, tree, x =>
    match children x with
    | none => .ok tree
    | some (l, r) => do
      let parentSecret ← secretTreeGet tree x
      let d ← suite cs
      let leftSecret ← expandWithLabel pr cs parentSecret lblTree lblLeft d.nh
      let rightSecret ← expandWithLabel pr cs parentSecret lblTree lblRight d.nh
      let tree ← Res.setIdx tree l (some leftSecret)
      let tree ← Res.setIdx tree r (some rightSecret)
      let tree ← deriveChildren cs fuel tree l
      deriveChildren cs fuel tree r

/-- deriveSecretTree (secret_tree.go:29-34). -/
def deriveSecretTree (cs : UInt16) (n : Nat) (encryptionSecret : Bytes) :
    Res (List (Option Bytes)) := do
  let tree ← Res.setIdx (List.replicate (width n) none) (root n) (some encryptionSecret)
  deriveChildren pr cs 34 tree (root n)

/-- ratchetSecret (secret_tree.go:87-90). -/
structure RatchetSecret where
  secret : Bytes
  generation : UInt32
  deriving DecidableEq, Repr, Inhabited

/-- secretTree.deriveRatchetRoot (secret_tree.go:80-85). -/
def deriveRatchetRoot (cs : UInt16) (tree : List (Option Bytes)) (ni : Nat) (label : Bytes) :
    Res RatchetSecret := do
  let d ← suite cs
  let secret ← secretTreeGet tree ni
  let root ← expandWithLabel pr cs secret label [] d.nh
  return { secret := root, generation := 0 }

/-- deriveTreeSecret (secret_tree.go:111-117). -/
def deriveTreeSecret (cs : UInt16) (secret label : Bytes) (generation : UInt32) (length : UInt16) :
    Res Bytes :=
  expandWithLabel pr cs secret label (beBytes 4 generation.toNat) length

/-- ratchetSecret.deriveNonce (secret_tree.go:92-96). -/
def RatchetSecret.deriveNonce (cs : UInt16) (s : RatchetSecret) : Res Bytes := do
  let d ← suite cs
  deriveTreeSecret pr cs s.secret lblNonce s.generation (UInt16.ofNat d.aead.nonceSize)

/-- ratchetSecret.deriveKey (secret_tree.go:98-102). -/
def RatchetSecret.deriveKey (cs : UInt16) (s : RatchetSecret) : Res Bytes := do
  let d ← suite cs
  deriveTreeSecret pr cs s.secret lblKey s.generation (UInt16.ofNat d.aead.keySize)

/-- ratchetSecret.deriveNext (secret_tree.go:104-109); the generation is a uint32. -/
def RatchetSecret.deriveNext (cs : UInt16) (s : RatchetSecret) : Res RatchetSecret := do
  let d ← suite cs
  let next ← deriveTreeSecret pr cs s.secret lblSecret s.generation d.nh
  return { secret := next, generation := s.generation + 1 }

/-- The loop of processPrivateMessage that advances the ratchet (group.go:364-369). The
generation runs through the 2^32 values of a uint32, so not meeting the target in that many
steps would mean that the loop never ends. -/
def fastForward (cs : UInt16) (target : UInt32) : Nat → RatchetSecret → Res RatchetSecret
  | 0, s => if s.generation = target then .ok s else .hang
  | fuel + 1, s =>
    if s.generation = target then .ok s
    else do
      let s' ← s.deriveNext pr cs
      fastForward cs target fuel s'

end Mls
