import Verif.Model.Crypto
import Verif.Model.TreeMath
import Verif.Model.Time
/-
Model of ratchetTree (tree.go:604-1326) and of leaf node verification.

Go's ratchetTree is a slice of pointers to nodes, and a parent node is itself behind a pointer:
`copy` (tree.go:665-669) copies the slice only, and `add` (tree.go:1047) appends to
`unmergedLeaves` through the pointer. So parent nodes live in a heap (`Heap`), a tree (`RTree`)
holds references to them, and a tree is read through `deref`. Leaf nodes are never modified once
they are in a tree, hence they are kept by value. Functions that only read the tree are modelled
on the dereferenced tree (`VTree`).
-/
namespace Mls

/-- A ratchet tree as its readers see it. -/
abbrev VTree := List (Option Node)

/-- The parentNode objects, addressed by position. -/
abbrev Heap := List ParentNode

/-- A node of a ratchet tree: a leaf, or a reference to a parent node. -/
inductive TNode where
  | leaf (n : LeafNode)
  | parent (ptr : Nat)
  deriving DecidableEq, Repr, Inhabited

/-- ratchetTree (tree.go:615-619). -/
abbrev RTree := List (Option TNode)

/-- Following the reference of one node. -/
def TNode.deref (h : Heap) : TNode → Node
  | .leaf n => .leaf n
  | .parent ptr => .parent (h.getD ptr default)

/-- The tree its readers see. -/
def derefTree (h : Heap) (t : RTree) : VTree := t.map fun o => o.map (TNode.deref h)

variable (pr : Prims)

/-- computeParentHash with marshalParentHashInput (tree.go:41-57). -/
def encParentHashInput (encryptionKey parentHash originalSiblingTreeHash : Bytes) : Enc :=
  writeOpaqueVec encryptionKey ++ writeOpaqueVec parentHash ++ writeOpaqueVec originalSiblingTreeHash

/-- parentNode.computeParentHash (tree.go:41-49). -/
def ParentNode.computeParentHash (cs : UInt16) (n : ParentNode) (originalSiblingTreeHash : Bytes) :
    Res Bytes := do
  let rawInput ← (encParentHashInput n.encryptionKey n.parentHash originalSiblingTreeHash : Res Bytes)
  let d ← suite cs
  return pr.hash d.hash rawInput

/-- findExtensionData (tree.go:264-271). A nil result is `none`: decoded data is never nil. -/
def findExtensionData (exts : List Extension) (t : UInt16) : Option Bytes :=
  (exts.find? fun e => e.ty == t).map Extension.data

/-- leafNode.sign (tree.go:368-383), giving the signed leaf. -/
def LeafNode.sign (cs : UInt16) (n : LeafNode) (groupID : Bytes) (li : UInt32) (signerPriv rand : Bytes) :
    Res LeafNode := do
  let tbs ← (n.encTBS groupID li : Res Bytes)
  let sig ← signWithLabel pr cs signerPriv lblLeafNodeTBS tbs rand
  return { n with signature := sig }

/-- Go code of the shape `x, err := …; if err != nil { return false }`. -/
def orFalse {α : Type} (x : Res α) (f : α → Res Bool) : Res Bool :=
  match x with
  | .ok a => f a
  | .err => .ok false
  | .panic => .panic
  | .hang => .hang

/-- leafNode.verifySignature (tree.go:389-399). -/
def LeafNode.verifySignature (cs : UInt16) (n : LeafNode) (groupID : Bytes) (li : UInt32) : Res Bool :=
  orFalse (n.encTBS groupID li) fun tbs =>
    verifyWithLabel pr cs n.signatureKey lblLeafNodeTBS tbs n.signature

/-- leafNodeVerifyOptions (tree.go:450-458); sets are lists, `now` is the result of the clock. -/
structure VerifyOptions where
  cipherSuite : UInt16
  groupID : Bytes
  leafIndex : UInt32
  supportedCreds : List UInt16
  signatureKeys : List Bytes
  encryptionKeys : List Bytes
  now : GoTime

/-- node.lifetime != nil and its verification at `now` (tree.go:418-426). -/
def LeafNode.lifetimeOk (n : LeafNode) (now : GoTime) : Bool :=
  match n.source with
  | .keyPackage lt => now.isZero || lt.verify now
  | _ => true

/-- leafNode.verify (tree.go:405-448). -/
def LeafNode.verify (n : LeafNode) (o : VerifyOptions) : Res Unit := do
  let sigOk ← n.verifySignature pr o.cipherSuite o.groupID o.leafIndex
  Res.guardErr sigOk
  Res.guardErr (o.supportedCreds.contains n.credential.ty)
  Res.guardErr (n.lifetimeOk o.now)
  Res.guardErr (n.extensions.all fun e => n.capabilities.extensions.contains e.ty)
  Res.guardErr (!o.signatureKeys.contains n.signatureKey)
  Res.guardErr (!o.encryptionKeys.contains n.encryptionKey)

/-- decryptPathSecret (tree.go:489-495). -/
def decryptPathSecret (cs : UInt16) (nodePriv : Bytes) (ctx : GroupContext) (c : HpkeCiphertext) :
    Res Bytes := do
  let rawCtx ← (ctx.enc : Res Bytes)
  decryptWithLabel pr cs nodePriv lblUpdatePathNode rawCtx c

/-- nodePrivFromPathSecret (tree.go:497-513). -/
def nodePrivFromPathSecret (cs : UInt16) (pathSecret nodePub : Bytes) : Res Bytes := do
  let nodeSecret ← deriveSecret pr cs pathSecret lblNode
  let (pub, priv) ← deriveEncryptionKeyPair pr cs nodeSecret
  if pub = nodePub then return priv else .err

/-- node.encryptionKey (tree.go:604-613). -/
def Node.encryptionKey : Node → Bytes
  | .leaf n => n.encryptionKey
  | .parent n => n.encryptionKey

/-- Filling with blanks until the length plus one is a power of two (tree.go:643-645). The
number of blanks needed is at most the length (plus one for the empty tree). -/
def padLoop : Nat → VTree → Res VTree
  | 0, t => if isPowerOf2 ((t.length + 1) % 2 ^ 32) then .ok t else .hang
  | fuel + 1, t =>
    if isPowerOf2 ((t.length + 1) % 2 ^ 32) then .ok t else padLoop fuel (t ++ [none])

/-- ratchetTree.unmarshal (tree.go:621-648). -/
def decTree : P VTree := do
  let t ← readVector decOptNode
  ⟨fun s => (padLoop (t.length + 1) t, s)⟩

/-- Dropping the blanks at the end (tree.go:651-654). -/
def stripBlanks {α : Type} (t : List (Option α)) : List (Option α) :=
  (t.reverse.dropWhile Option.isNone).reverse

/-- ratchetTree.marshal (tree.go:650-663). -/
def encTree (t : VTree) : Enc := writeVector encOptNode (stripBlanks t)

/-- The allocation of the decoded parent nodes (tree.go:580-586). -/
def allocTree : Heap → VTree → Heap × RTree
  | h, [] => (h, [])
  | h, none :: t =>
    let (h', t') := allocTree h t
    (h', none :: t')
  | h, some (.leaf n) :: t =>
    let (h', t') := allocTree h t
    (h', some (.leaf n) :: t')
  | h, some (.parent n) :: t =>
    let (h', t') := allocTree (h ++ [n]) t
    (h', some (.parent h.length) :: t')

/-- ratchetTree.numLeaves (tree.go:991-993). -/
def treeNumLeaves {α : Type} (t : List α) : Nat := numLeavesFromWidth (t.length % 2 ^ 32)

/-- ratchetTree.getLeaf (tree.go:682-691). -/
def getLeaf (t : VTree) (li : Nat) : Res (Option LeafNode) := do
  let n ← Res.idx t (nodeOfLeaf li)
  match n with
  | none => return none
  | some (.leaf l) => return some l
  | some (.parent _) => .panic

/-- ratchetTree.resolve (tree.go:694-711). Every recursive call is one level further down. -/
def resolveLoop (t : VTree) : Nat → Nat → Res (List Nat)
  | 0, _ => .hang
  | fuel + 1, x => do
    let n ← Res.idx t x
    match n with
    | none =>
      match children x with
      | none => return []
      | some (l, r) =>
        let a ← resolveLoop t fuel l
        let b ← resolveLoop t fuel r
        return a ++ b
    | some (.leaf _) => return [x]
    | some (.parent p) => return x :: p.unmergedLeaves.map fun li => nodeOfLeaf li.toNat

/-- ratchetTree.resolve with enough fuel for the 33 levels of a uint32 index. -/
def resolve (t : VTree) (x : Nat) : Res (List Nat) := resolveLoop t 34 x

/-- The loop `for li := 0; li < numLeaves; li++ { node := getLeaf(li); if node == nil {continue} … }`
common to supportedCreds and keys (tree.go:716-721, 741-745): the members from `li` on. -/
def membersLoop (t : VTree) : Nat → Nat → Res (List LeafNode)
  | 0, _ => .ok []
  | k + 1, li => do
    let n ← getLeaf t li
    let rest ← membersLoop t k (li + 1)
    match n with
    | none => return rest
    | some l => return l :: rest

/-- The non-blank leaves in order. -/
def members (t : VTree) : Res (List LeafNode) := membersLoop t (treeNumLeaves t) 0

/-- ratchetTree.supportedCreds (tree.go:713-736): the types whose number of occurrences in the
members' capabilities equals the number of members. -/
def supportedCreds (t : VTree) : Res (List UInt16) := do
  let ms ← members t
  let all := ms.flatMap fun l => l.capabilities.credentials
  return all.filter fun ct => all.count ct == ms.length

/-- ratchetTree.keys (tree.go:738-750): signature keys, encryption keys. -/
def treeKeys (t : VTree) : Res (List Bytes × List Bytes) := do
  let ms ← members t
  return (ms.map LeafNode.signatureKey, ms.map LeafNode.encryptionKey)

/-- marshalLeafNodeHashInput (tree.go:907-914). -/
def encLeafNodeHashInput (li : Nat) (n : Option LeafNode) : Enc :=
  addU8 1 ++ addU32 (UInt32.ofNat li) ++
    (match n with
      | some n => writeOptional true ++ n.enc
      | none => writeOptional false)

/-- marshalParentNodeHashInput (tree.go:916-924). -/
def encParentNodeHashInput (n : Option ParentNode) (leftHash rightHash : Bytes) : Enc :=
  addU8 2 ++
    (match n with
      | some n => writeOptional true ++ n.enc
      | none => writeOptional false) ++
    writeOpaqueVec leftHash ++ writeOpaqueVec rightHash

/-- The leaf hashed at an even index (tree.go:850-856). -/
def hashedLeaf (n : Option Node) (excluded : Bool) : Res (Option LeafNode) :=
  match n with
  | none => .ok none
  | some n =>
    if excluded then .ok none
    else match n with
      | .leaf l => .ok (some l)
      | .parent _ => .panic

/-- The parent hashed at an odd index (tree.go:874-893). -/
def hashedParent (n : Option Node) (exclude : List UInt32) : Res (Option ParentNode) :=
  match n with
  | none => .ok none
  | some (.leaf _) => .panic
  | some (.parent p) =>
    if p.unmergedLeaves.length > 0 ∧ exclude.length > 0 then
      .ok (some { p with unmergedLeaves := p.unmergedLeaves.filter fun li => !exclude.contains li })
    else .ok (some p)

/-- ratchetTree.computeTreeHash (tree.go:843-905). -/
def computeTreeHashLoop (cs : UInt16) (t : VTree) (exclude : List UInt32) : Nat → Nat → Res Bytes
  | 0, _ => .hang
  | fuel + 1, x => do
    let n ← Res.idx t x
    let input ← (match leafOfNode x with
      | some li => do
        let l ← hashedLeaf n (exclude.contains (UInt32.ofNat li))
        (encLeafNodeHashInput li l : Res Bytes)
      | none =>
        match children x with
        | none => Res.panic
        | some (l, r) => do
          let leftHash ← computeTreeHashLoop cs t exclude fuel l
          let rightHash ← computeTreeHashLoop cs t exclude fuel r
          let p ← hashedParent n exclude
          (encParentNodeHashInput p leftHash rightHash : Res Bytes))
    let d ← suite cs
    return pr.hash d.hash input

/-- ratchetTree.computeTreeHash with enough fuel for the 33 levels of a uint32 index. -/
def computeTreeHash (cs : UInt16) (t : VTree) (x : Nat) (exclude : List UInt32) : Res Bytes :=
  computeTreeHashLoop pr cs t exclude 34 x

/-- ratchetTree.computeRootTreeHash (tree.go:839-841). -/
def computeRootTreeHash (cs : UInt16) (t : VTree) : Res Bytes :=
  computeTreeHash pr cs t (root (treeNumLeaves t)) []

/-- ratchetTree.findParentHash (tree.go:971-989). -/
def findParentHash (t : VTree) (parentHash : Bytes) : List Nat → Res Bool
  | [] => .ok false
  | x :: xs => do
    let n ← Res.idx t x
    match n with
    | none => findParentHash t parentHash xs
    | some n =>
      let h := match n with
        | .leaf l => l.parentHash
        | .parent p => p.parentHash
      if h = parentHash then return true else findParentHash t parentHash xs

/-- The loop of verifyParentHashes over the nodes from index `i` on (tree.go:927-967). -/
def verifyParentHashesLoop (cs : UInt16) (t : VTree) : Nat → List (Option Node) → Res Bool
  | _, [] => .ok true
  | i, none :: ns => verifyParentHashesLoop cs t (i + 1) ns
  | i, some n :: ns =>
    match children (i % 2 ^ 32) with
    | none => verifyParentHashesLoop cs t (i + 1) ns
    | some (l, r) =>
      match n with
      | .leaf _ => .panic
      | .parent p =>
        orFalse (computeTreeHash pr cs t l p.unmergedLeaves) fun leftTreeHash =>
        orFalse (computeTreeHash pr cs t r p.unmergedLeaves) fun rightTreeHash =>
        orFalse (p.computeParentHash pr cs rightTreeHash) fun leftParentHash =>
        orFalse (p.computeParentHash pr cs leftTreeHash) fun rightParentHash => do
          let resL ← resolve t l
          let isLeftDescendant ← findParentHash t leftParentHash resL
          let resR ← resolve t r
          let isRightDescendant ← findParentHash t rightParentHash resR
          if isLeftDescendant == isRightDescendant then return false
          else verifyParentHashesLoop cs t (i + 1) ns

/-- ratchetTree.verifyParentHashes (tree.go:926-969). -/
def verifyParentHashes (cs : UInt16) (t : VTree) : Res Bool := verifyParentHashesLoop pr cs t 0 t

/-- The loop of verifyIntegrity over the leaves (tree.go:776-797): `sigKeys` and `encKeys` are
the keys met so far; gives the encryption keys of all members. -/
def verifyLeavesLoop (ctx : GroupContext) (now : GoTime) (creds : List UInt16) (t : VTree) :
    Nat → Nat → List Bytes → List Bytes → Res (List Bytes)
  | 0, _, _, encKeys => .ok encKeys
  | k + 1, li, sigKeys, encKeys => do
    let n ← getLeaf t li
    match n with
    | none => verifyLeavesLoop ctx now creds t k (li + 1) sigKeys encKeys
    | some l =>
      l.verify pr { cipherSuite := ctx.cipherSuite, groupID := ctx.groupID,
                    leafIndex := UInt32.ofNat li, supportedCreds := creds,
                    signatureKeys := sigKeys, encryptionKeys := encKeys, now }
      verifyLeavesLoop ctx now creds t k (li + 1) (l.signatureKey :: sigKeys) (l.encryptionKey :: encKeys)

/-- The loop from an unmerged leaf up to the parent node `p` (tree.go:805-818). Inside a tree it
makes at most 31 steps, and outside `tree.get` panics. -/
def unmergedLoop (t : VTree) (n p : Nat) (li : UInt32) : Nat → Nat → Res Unit
  | 0, _ => .hang
  | fuel + 1, x =>
    match parent n x with
    | none => .err
    | some x' =>
      if x' = p then .ok ()
      else do
        let node ← Res.idx t x'
        match node with
        | none => unmergedLoop t n p li fuel x'
        | some (.leaf _) => .panic
        | some (.parent q) =>
          Res.guardErr (q.unmergedLeaves.contains li)
          unmergedLoop t n p li fuel x'

/-- The loop over the unmerged leaves of one parent node (tree.go:804-819). -/
def unmergedListLoop (t : VTree) (n p : Nat) : List UInt32 → Res Unit
  | [] => .ok ()
  | li :: lis => do
    unmergedLoop t n p li 64 (nodeOfLeaf li.toNat)
    unmergedListLoop t n p lis

/-- The loop of verifyIntegrity over the parent nodes from index `i` on (tree.go:799-825). -/
def verifyParentsLoop (t : VTree) (n : Nat) : Nat → List (Option Node) → List Bytes → Res Unit
  | _, [], _ => .ok ()
  | i, some (.parent p) :: ns, encKeys => do
    unmergedListLoop t n (i % 2 ^ 32) p.unmergedLeaves
    Res.guardErr (!encKeys.contains p.encryptionKey)
    verifyParentsLoop t n (i + 1) ns (p.encryptionKey :: encKeys)
  | i, _ :: ns, encKeys => verifyParentsLoop t n (i + 1) ns encKeys

/-- ratchetTree.verifyIntegrity (tree.go:759-828). -/
def verifyIntegrity (t : VTree) (ctx : GroupContext) (now : GoTime) : Res Unit := do
  let h ← computeRootTreeHash pr ctx.cipherSuite t
  Res.guardErr (h == ctx.treeHash)
  let phOk ← verifyParentHashes pr ctx.cipherSuite t
  Res.guardErr phOk
  let creds ← supportedCreds t
  let encKeys ← verifyLeavesLoop pr ctx now creds t (treeNumLeaves t) 0 [] []
  verifyParentsLoop t (treeNumLeaves t) 0 t encKeys

/-- The loop of findLeaf (tree.go:996-1011). -/
def findLeafLoop (t : VTree) (node : LeafNode) : Nat → Nat → Res (Option Nat)
  | 0, _ => .ok none
  | k + 1, li => do
    let n ← getLeaf t li
    match n with
    | none => findLeafLoop t node k (li + 1)
    | some l =>
      if l.encryptionKey ≠ node.encryptionKey then findLeafLoop t node k (li + 1)
      else match node.enc, l.enc with
        | .ok raw1, .ok raw2 => return (if raw1 = raw2 then some li else none)
        | .panic, _ => .panic
        | .hang, _ => .hang
        | _, .panic => .panic
        | _, .hang => .hang
        | _, _ => return none

/-- ratchetTree.findLeaf (tree.go:995-1013): `none` for a false second result. -/
def findLeaf (t : VTree) (node : LeafNode) : Res (Option Nat) :=
  findLeafLoop t node (treeNumLeaves t) 0

/-- The search of add for a free leaf (tree.go:1019-1029): the leaf index, and whether it lies
inside the tree. -/
def findFree {α : Type} (t : List (Option α)) : Nat → Nat → Res (Nat × Bool)
  | 0, _ => .hang
  | fuel + 1, li =>
    let ni := nodeOfLeaf li
    if ni ≥ t.length then .ok (li, false)
    else do
      let n ← Res.idx t ni
      match n with
      | none => return (li, true)
      | some _ => findFree t fuel (li + 1)

/-- The loop of add over the ancestors of the new leaf (tree.go:1038-1049). -/
def addAncestors (t : RTree) (n : Nat) (li : UInt32) : Nat → Heap → Nat → Res Heap
  | 0, _, _ => .hang
  | fuel + 1, h, x =>
    match parent n x with
    | none => .ok h
    | some p => do
      let node ← Res.idx t p
      match node with
      | none => addAncestors t n li fuel h p
      | some (.leaf _) => .panic
      | some (.parent ptr) =>
        addAncestors t n li fuel
          (h.modify ptr fun q => { q with unmergedLeaves := q.unmergedLeaves ++ [li] }) p

/-- ratchetTree.add (tree.go:1015-1055). The new length is `(len+1)*2-1`. -/
def treeAdd (h : Heap) (t : RTree) (leaf : LeafNode) : Res (Heap × RTree) := do
  let (li, found) ← findFree t (t.length + 1) 0
  let t := if found then t else t ++ List.replicate (t.length + 1) none
  let h ← addAncestors t (treeNumLeaves t) (UInt32.ofNat li) 64 h (nodeOfLeaf li)
  let t ← Res.setIdx t (nodeOfLeaf li) (some (TNode.leaf leaf))
  return (h, t)

/-- The loop of update that blanks the ancestors of `x` (tree.go:1066-1074). -/
def blankAncestors {α : Type} (n : Nat) : Nat → List (Option α) → Nat → Res (List (Option α))
  | 0, _, _ => .hang
  | fuel + 1, t, x =>
    match parent n x with
    | none => .ok t
    | some p => do
      let t ← Res.setIdx t p none
      blankAncestors n fuel t p

/-- ratchetTree.update (tree.go:1057-1075). -/
def treeUpdate (t : RTree) (li : Nat) (leaf : LeafNode) : Res RTree := do
  let t ← Res.setIdx t (nodeOfLeaf li) (some (TNode.leaf leaf))
  blankAncestors (treeNumLeaves t) 64 t (nodeOfLeaf li)

/-- The first loop of remove (tree.go:1081-1089): blank `x` and its ancestors. -/
def blankPath {α : Type} (n : Nat) : Nat → List (Option α) → Nat → Res (List (Option α))
  | 0, _, _ => .hang
  | fuel + 1, t, x => do
    let t ← Res.setIdx t x none
    match parent n x with
    | none => return t
    | some p => blankPath n fuel t p

/-- The second loop of remove (tree.go:1093-1108), from leaf `li` downwards: `none` when the
tree becomes nil, otherwise lastPowerOf2. -/
def lastPowerLoop {α : Type} (t : List (Option α)) : Nat → Nat → Res (Option Nat)
  | li, lastPowerOf2 => do
    let ni := nodeOfLeaf li
    let n ← Res.idx t ni
    match n with
    | some _ => return some lastPowerOf2
    | none =>
      let lastPowerOf2 := if isPowerOf2 ni then ni else lastPowerOf2
      match li with
      | 0 => return none
      | li + 1 => lastPowerLoop t li lastPowerOf2

/-- ratchetTree.remove (tree.go:1077-1113). -/
def treeRemove {α : Type} (t : List (Option α)) (li : Nat) : Res (List (Option α)) := do
  let n := treeNumLeaves t
  let t ← blankPath n 64 t (nodeOfLeaf li)
  let last ← lastPowerLoop t ((n + 2 ^ 32 - 1) % 2 ^ 32) (t.length + 1)
  match last with
  | none => return []
  | some lastPowerOf2 =>
    if lastPowerOf2 < t.length + 1 then return t.take (lastPowerOf2 - 1) else return t

/-- The loop of filteredDirectPath (tree.go:1119-1135). -/
def filteredDirectPathLoop (t : VTree) (n : Nat) : Nat → Nat → Res (List Nat)
  | 0, _ => .hang
  | fuel + 1, x =>
    match parent n x with
    | none => .ok []
    | some p =>
      match sibling n x with
      | none => .panic
      | some s => do
        let res ← resolve t s
        let rest ← filteredDirectPathLoop t n fuel p
        return if res.length > 0 then p :: rest else rest

/-- ratchetTree.filteredDirectPath (tree.go:1115-1138). -/
def filteredDirectPath (t : VTree) (x : Nat) : Res (List Nat) :=
  filteredDirectPathLoop t (treeNumLeaves t) 64 x

/-- `for _, ni := range nodes { tree.set(ni, nil) }` (tree.go:1145-1147). -/
def blankAll {α : Type} (t : List (Option α)) : List Nat → Res (List (Option α))
  | [] => .ok t
  | ni :: nis => do
    let t ← Res.setIdx t ni none
    blankAll t nis

/-- The new parent nodes of an update path (tree.go:1153-1161). -/
def setPathNodes : Heap → RTree → List Nat → List UpdatePathNode → Res (Heap × RTree)
  | h, t, [], _ => .ok (h, t)
  | _, _, _ :: _, [] => .panic
  | h, t, ni :: nis, pn :: pns => do
    let t ← Res.setIdx t ni (some (TNode.parent h.length))
    setPathNodes (h ++ [{ encryptionKey := pn.encryptionKey, parentHash := [], unmergedLeaves := [] }])
      t nis pns

/-- The child of a path node that is not on the path of the sender (tree.go:1174-1184). -/
def pathSibling (directPath : List Nat) (sender l r : Nat) : Nat :=
  if l = sender ∨ directPath.contains l then r else l

/-- The loop computing the parent hashes from the root down (tree.go:1164-1197), over the
reversed filtered direct path. The nodes were allocated just before, so writing their parentHash
is invisible to other trees. -/
def parentHashLoop (cs : UInt16) (directPath : List Nat) (sender : Nat) (t : RTree) :
    List Nat → Heap → Bytes → Res (Heap × Bytes)
  | [], h, prev => .ok (h, prev)
  | ni :: nis, h, prev => do
    let n ← Res.idx t ni
    let n ← Res.deref n
    match children ni with
    | none => .panic
    | some (l, r) =>
      let treeHash ← computeTreeHash pr cs (derefTree h t) (pathSibling directPath sender l r) []
      match n with
      | .leaf _ => .panic
      | .parent ptr =>
        let h := h.modify ptr fun q => { q with parentHash := prev }
        let ph ← (h.getD ptr default).computeParentHash pr cs treeHash
        parentHashLoop cs directPath sender t nis h ph

/-- ratchetTree.mergeUpdatePath (tree.go:1140-1209). -/
def mergeUpdatePath (cs : UInt16) (h : Heap) (t : RTree) (senderLeafIndex : Nat) (path : UpdatePath) :
    Res (Heap × RTree) := do
  let sender := nodeOfLeaf senderLeafIndex
  let dp ← directPath (treeNumLeaves t) sender
  let t ← blankAll t dp
  let fdp ← filteredDirectPath (derefTree h t) sender
  Res.guardErr (fdp.length == path.nodes.length)
  let (h, t) ← setPathNodes h t fdp path.nodes
  let (h, prev) ← parentHashLoop pr cs dp sender t fdp.reverse h []
  Res.guardErr (path.leafNode.parentHash == prev)
  let t ← Res.setIdx t sender (some (TNode.leaf path.leafNode))
  return (h, t)

/-- The first private key held in a resolution, with its position (tree.go:1257-1268). -/
def findPriv (privTree : List (Option Bytes)) : Nat → List Nat → Res (Option (Nat × Bytes))
  | _, [] => .ok none
  | i, ni :: nis => do
    let k ← Res.idx privTree ni
    match k with
    | some p => return some (i, p)
    | none => findPriv privTree (i + 1) nis

/-- The public key of a node that must not be blank: `tree.get(x).encryptionKey()`. -/
def nodeKey (t : VTree) (x : Nat) : Res Bytes := do
  let n ← Res.idx t x
  let n ← Res.deref n
  return n.encryptionKey

/-- The loop over the ancestors in decryptPathSecrets (tree.go:1285-1295): the last path secret
and the private keys. -/
def pathSecretLoop (cs : UInt16) (t : VTree) :
    List Nat → Bytes → List (Option Bytes) → Res (Bytes × List (Option Bytes))
  | [], pathSecret, privTree => .ok (pathSecret, privTree)
  | ni :: nis, pathSecret, privTree => do
    let pathSecret ← deriveSecret pr cs pathSecret lblPath
    let pub ← nodeKey t ni
    let nodePriv ← nodePrivFromPathSecret pr cs pathSecret pub
    let privTree ← Res.setIdx privTree ni (some nodePriv)
    pathSecretLoop cs t nis pathSecret privTree

/-- ratchetTree.decryptPathSecrets (tree.go:1211-1303): the commit secret and the updated
private keys. -/
def decryptPathSecrets (cs : UInt16) (t : VTree) (groupCtx : GroupContext)
    (senderLeafIndex recipientLeafIndex : Nat) (path : UpdatePath) (privTree : List (Option Bytes)) :
    Res (Bytes × List (Option Bytes)) := do
  let sender := nodeOfLeaf senderLeafIndex
  let recipient := nodeOfLeaf recipientLeafIndex
  let fdp ← filteredDirectPath t sender
  Res.guardErr (path.nodes.length == fdp.length)
  let ancestor := commonAncestor sender recipient
  match fdp.idxOf? ancestor with
  | none => .err
  | some i =>
    let pathNode ← Res.idx path.nodes i
    let copathNode ← Res.deref (if recipient < sender then left ancestor else right ancestor)
    let copathResolution ← resolve t copathNode
    Res.guardErr (pathNode.encryptedPathSecret.length == copathResolution.length)
    let found ← findPriv privTree 0 copathResolution
    match found with
    | none => .err
    | some (j, nodePriv) =>
      let ciphertext ← Res.idx pathNode.encryptedPathSecret j
      let pathSecret ← decryptPathSecret pr cs nodePriv groupCtx ciphertext
      let pub ← nodeKey t ancestor
      let nodePriv ← nodePrivFromPathSecret pr cs pathSecret pub
      let privTree ← Res.setIdx privTree ancestor (some nodePriv)
      let (pathSecret, privTree) ← pathSecretLoop pr cs t (fdp.drop (i + 1)) pathSecret privTree
      let commitSecret ← deriveSecret pr cs pathSecret lblPath
      return (commitSecret, privTree)

/-- The update proposals of apply (tree.go:1307-1311): `senders[i]` is read for updates only. -/
def applyUpdates (senders : List UInt32) : Nat → List Proposal → RTree → Res RTree
  | _, [], t => .ok t
  | i, .update leaf :: ps, t => do
    let s ← Res.idx senders i
    let t ← treeUpdate t s.toNat leaf
    applyUpdates senders (i + 1) ps t
  | i, _ :: ps, t => applyUpdates senders (i + 1) ps t

/-- The remove proposals of apply (tree.go:1314-1318). -/
def applyRemoves {α : Type} : List Proposal → List (Option α) → Res (List (Option α))
  | [], t => .ok t
  | .remove li :: ps, t => do
    let t ← treeRemove t li.toNat
    applyRemoves ps t
  | _ :: ps, t => applyRemoves ps t

/-- The add proposals of apply (tree.go:1321-1325). -/
def applyAdds : List Proposal → Heap → RTree → Res (Heap × RTree)
  | [], h, t => .ok (h, t)
  | .add k :: ps, h, t => do
    let (h, t) ← treeAdd h t k.leafNode
    applyAdds ps h t
  | _ :: ps, h, t => applyAdds ps h t

/-- ratchetTree.apply (tree.go:1305-1326). -/
def treeApply (h : Heap) (t : RTree) (proposals : List Proposal) (senders : List UInt32) :
    Res (Heap × RTree) := do
  let t ← applyUpdates senders 0 proposals t
  let t ← applyRemoves proposals t
  applyAdds proposals h t

end Mls
