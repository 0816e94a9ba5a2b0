import Verif.Model.Tree
/-
verifyIntegrity (tree.go:759-828) and the functions it calls once more, with what they cost. It is what a joiner does with the ratchet tree that it is given, before it
is a member; so whoever has its key package decides what it costs.

A price list says what is to be counted: calls of the hash function, bytes given to it, verifications of signatures, and steps, which are the calls of recursive
functions and the turns of loops. Not counted is what takes a bounded number of operations for each byte of a node, once for each time that the
node is visited: its encoding, its comparison, and the copying of slices by append.

Each definition below is the text of the definition of the same name in Model/Tree.lean over the monad `Effort`; Props/Effort.lean proves that forgetting the cost gives that
definition back.
-/
namespace Mls

/-- What things cost. -/
structure Prices where
  /-- a call of the hash function -/
  call : Nat
  /-- a byte given to the hash function -/
  byte : Nat
  /-- the verification of a signature -/
  verification : Nat
  /-- a call of a recursive function or a turn of a loop -/
  step : Nat
  /-- an HPKE decryption; there is none in this file (Model/CommitEffort.lean) -/
  opening : Nat := 0
  /-- the derivation of an HPKE key pair; there is none in this file (Model/CommitEffort.lean) -/
  derivation : Nat := 0
  /-- the making of a signature; there is none in this file (Model/JoinEffort.lean) -/
  signing : Nat := 0
  /-- an HPKE encryption; there is none in this file (Model/JoinEffort.lean) -/
  sealing : Nat := 0
  /-- a call of expandWithLabel, which is one call of the KDF; there is none in this file (Model/TalkEffort.lean) -/
  expansion : Nat := 0

/-- A result and what it cost. -/
structure Effort (α : Type) where
  result : Res α
  cost : Nat

namespace Effort

/-- What costs nothing. -/
def lift {α : Type} (r : Res α) : Effort α := ⟨r, 0⟩

/-- Sequencing with early return. -/
def bind {α β : Type} (p : Effort α) (f : α → Effort β) : Effort β :=
  match p.result with
  | .ok a => ⟨(f a).result, p.cost + (f a).cost⟩
  | .err => ⟨.err, p.cost⟩
  | .panic => ⟨.panic, p.cost⟩
  | .hang => ⟨.hang, p.cost⟩

instance : Monad Effort where
  pure a := lift (.ok a)
  bind := bind

instance : MonadLift Res Effort where
  monadLift := lift

/-- Something is paid. -/
def spend (n : Nat) : Effort Unit := ⟨.ok (), n⟩

/-- `if err != nil { return false }`, as `orFalse`. -/
def orFalse {α : Type} (p : Effort α) (f : α → Effort Bool) : Effort Bool :=
  match p.result with
  | .ok a => ⟨(f a).result, p.cost + (f a).cost⟩
  | .err => ⟨.ok false, p.cost⟩
  | .panic => ⟨.panic, p.cost⟩
  | .hang => ⟨.hang, p.cost⟩

end Effort

variable (pr : Prims) (pc : Prices)

/-- Over how many entries the loops over a node go: the unmerged leaves of a parent node (tree.go:706-708, 884-889, 939-941), the credential types of a leaf (tree.go:724-726). -/
def nodeEntries : Option Node → Nat
  | none => 0
  | some (.leaf l) => l.capabilities.credentials.length
  | some (.parent p) => p.unmergedLeaves.length

/-- A call of the hash function (tree.go:43-48, 899-904). -/
def hashE (cs : UInt16) (input : Bytes) : Effort Bytes := do
  let d ← suite cs
  Effort.spend (pc.call + pc.byte * input.length)
  return pr.hash d.hash input

/-- ratchetTree.resolve (tree.go:694-711). -/
def resolveLoopE (t : VTree) : Nat → Nat → Effort (List Nat)
  | 0, _ => Effort.lift .hang
  | fuel + 1, x => do
    Effort.spend pc.step
    let n ← Res.idx t x
    match n with
    | none =>
      match children x with
      | none => return []
      | some (l, r) =>
        let a ← resolveLoopE t fuel l
        let b ← resolveLoopE t fuel r
        return a ++ b
    | some (.leaf _) => return [x]
    | some (.parent p) => do
      Effort.spend (pc.step * p.unmergedLeaves.length)
      return x :: p.unmergedLeaves.map fun li => nodeOfLeaf li.toNat

/-- ratchetTree.computeTreeHash (tree.go:843-905). -/
def computeTreeHashLoopE (cs : UInt16) (t : VTree) (exclude : List UInt32) : Nat → Nat → Effort Bytes
  | 0, _ => Effort.lift .hang
  | fuel + 1, x => do
    Effort.spend pc.step
    let n ← Res.idx t x
    match leafOfNode x with
    | some li => do
      let l ← hashedLeaf n (exclude.contains (UInt32.ofNat li))
      let input ← (encLeafNodeHashInput li l : Res Bytes)
      hashE pr pc cs input
    | none =>
      match children x with
      | none => Effort.lift .panic
      | some (l, r) => do
        let leftHash ← computeTreeHashLoopE cs t exclude fuel l
        let rightHash ← computeTreeHashLoopE cs t exclude fuel r
        Effort.spend (pc.step * nodeEntries n)
        let p ← hashedParent n exclude
        let input ← (encParentNodeHashInput p leftHash rightHash : Res Bytes)
        hashE pr pc cs input

/-- parentNode.computeParentHash (tree.go:41-49). -/
def computeParentHashE (cs : UInt16) (n : ParentNode) (originalSiblingTreeHash : Bytes) : Effort Bytes := do
  let rawInput ← (encParentHashInput n.encryptionKey n.parentHash originalSiblingTreeHash : Res Bytes)
  hashE pr pc cs rawInput

/-- ratchetTree.findParentHash (tree.go:971-989). -/
def findParentHashE (t : VTree) (parentHash : Bytes) : List Nat → Effort Bool
  | [] => return false
  | x :: xs => do
    Effort.spend pc.step
    let n ← Res.idx t x
    match n with
    | none => findParentHashE t parentHash xs
    | some n =>
      let h := match n with
        | .leaf l => l.parentHash
        | .parent p => p.parentHash
      if h = parentHash then return true else findParentHashE t parentHash xs

/-- The loop of verifyParentHashes (tree.go:927-967). -/
def verifyParentHashesLoopE (cs : UInt16) (t : VTree) : Nat → List (Option Node) → Effort Bool
  | _, [] => return true
  | i, none :: ns => do
    Effort.spend pc.step
    verifyParentHashesLoopE cs t (i + 1) ns
  | i, some n :: ns => do
    Effort.spend pc.step
    match children (i % 2 ^ 32) with
    | none => verifyParentHashesLoopE cs t (i + 1) ns
    | some (l, r) =>
      match n with
      | .leaf _ => Effort.lift .panic
      | .parent p => do
        Effort.spend (pc.step * p.unmergedLeaves.length)
        Effort.orFalse (computeTreeHashLoopE pr pc cs t p.unmergedLeaves 34 l) fun leftTreeHash =>
          Effort.orFalse (computeTreeHashLoopE pr pc cs t p.unmergedLeaves 34 r) fun rightTreeHash =>
          Effort.orFalse (computeParentHashE pr pc cs p rightTreeHash) fun leftParentHash =>
          Effort.orFalse (computeParentHashE pr pc cs p leftTreeHash) fun rightParentHash => do
            let resL ← resolveLoopE pc t 34 l
            let isLeftDescendant ← findParentHashE pc t leftParentHash resL
            let resR ← resolveLoopE pc t 34 r
            let isRightDescendant ← findParentHashE pc t rightParentHash resR
            if isLeftDescendant == isRightDescendant then return false
            else verifyParentHashesLoopE cs t (i + 1) ns

/-- The members from `li` on (tree.go:716-721), with the loop over their credential types (tree.go:724-726). -/
def membersLoopE (t : VTree) : Nat → Nat → Effort (List LeafNode)
  | 0, _ => return []
  | k + 1, li => do
    Effort.spend pc.step
    let n ← getLeaf t li
    Effort.spend (pc.step * nodeEntries (n.map .leaf))
    let rest ← membersLoopE t k (li + 1)
    match n with
    | none => return rest
    | some l => return l :: rest

/-- ratchetTree.supportedCreds (tree.go:713-736); the last loop is over the types found. -/
def supportedCredsE (t : VTree) : Effort (List UInt16) := do
  let ms ← membersLoopE pc t (treeNumLeaves t) 0
  let all := ms.flatMap fun l => l.capabilities.credentials
  Effort.spend (pc.step * all.length)
  return all.filter fun ct => all.count ct == ms.length

/-- The loop of verifyIntegrity over the leaves (tree.go:776-797). -/
def verifyLeavesLoopE (ctx : GroupContext) (now : GoTime) (creds : List UInt16) (t : VTree) :
    Nat → Nat → List Bytes → List Bytes → Effort (List Bytes)
  | 0, _, _, encKeys => return encKeys
  | k + 1, li, sigKeys, encKeys => do
    Effort.spend pc.step
    let n ← getLeaf t li
    match n with
    | none => verifyLeavesLoopE ctx now creds t k (li + 1) sigKeys encKeys
    | some l => do
      Effort.spend pc.verification
      l.verify pr { cipherSuite := ctx.cipherSuite, groupID := ctx.groupID,
                    leafIndex := UInt32.ofNat li, supportedCreds := creds,
                    signatureKeys := sigKeys, encryptionKeys := encKeys, now }
      verifyLeavesLoopE ctx now creds t k (li + 1) (l.signatureKey :: sigKeys) (l.encryptionKey :: encKeys)

/-- The loop from an unmerged leaf up (tree.go:805-818), with that of hasUnmergedLeaf (tree.go:830-837), which stops where it finds the leaf. -/
def unmergedLoopE (t : VTree) (n p : Nat) (li : UInt32) : Nat → Nat → Effort Unit
  | 0, _ => Effort.lift .hang
  | fuel + 1, x => do
    Effort.spend pc.step
    match parent n x with
    | none => Effort.lift .err
    | some x' =>
      if x' = p then return ()
      else do
        let node ← Res.idx t x'
        match node with
        | none => unmergedLoopE t n p li fuel x'
        | some (.leaf _) => Effort.lift .panic
        | some (.parent q) => do
          Effort.spend (pc.step * min (q.unmergedLeaves.idxOf li + 1) q.unmergedLeaves.length)
          Res.guardErr (q.unmergedLeaves.contains li)
          unmergedLoopE t n p li fuel x'

/-- The loop over the unmerged leaves of one parent node (tree.go:804-819). -/
def unmergedListLoopE (t : VTree) (n p : Nat) : List UInt32 → Effort Unit
  | [] => return ()
  | li :: lis => do
    unmergedLoopE pc t n p li 64 (nodeOfLeaf li.toNat)
    unmergedListLoopE t n p lis

/-- The loop of verifyIntegrity over the parent nodes (tree.go:799-825). -/
def verifyParentsLoopE (t : VTree) (n : Nat) : Nat → List (Option Node) → List Bytes → Effort Unit
  | _, [], _ => return ()
  | i, some (.parent p) :: ns, encKeys => do
    Effort.spend pc.step
    unmergedListLoopE pc t n (i % 2 ^ 32) p.unmergedLeaves
    Res.guardErr (!encKeys.contains p.encryptionKey)
    verifyParentsLoopE t n (i + 1) ns (p.encryptionKey :: encKeys)
  | i, _ :: ns, encKeys => do
    Effort.spend pc.step
    verifyParentsLoopE t n (i + 1) ns encKeys

/-- ratchetTree.verifyIntegrity (tree.go:759-828). -/
def verifyIntegrityE (t : VTree) (ctx : GroupContext) (now : GoTime) : Effort Unit := do
  let h ← computeTreeHashLoopE pr pc ctx.cipherSuite t [] 34 (root (treeNumLeaves t))
  Res.guardErr (h == ctx.treeHash)
  let phOk ← verifyParentHashesLoopE pr pc ctx.cipherSuite t 0 t
  Res.guardErr phOk
  let creds ← supportedCredsE pc t
  let encKeys ← verifyLeavesLoopE pr pc ctx now creds t (treeNumLeaves t) 0 [] []
  verifyParentsLoopE pc t (treeNumLeaves t) 0 t encKeys

end Mls
