import Verif.Spec.Toy
import Verif.Model.Group
/-
Groups over the toy primitives, and messages by their members, for the concrete cases.
-/
namespace Mls

/-- A leaf whose keys are made of its name. -/
def toyLeaf (name : UInt8) : LeafNode where
  encryptionKey := [10, name]
  signatureKey := [11, name]
  credential := .basic [name]
  capabilities := ⟨[1], [1], [], [], [1]⟩
  source := .keyPackage ⟨1, 2⟩
  extensions := []
  signature := []

/-- A parent node without unmerged leaves. -/
def toyParent (name : UInt8) : ParentNode where
  encryptionKey := [20, name]
  parentHash := []
  unmergedLeaves := []

/-- The key package of `toyLeaf`, signed. -/
def toyKeyPackage (name : UInt8) : KeyPackage :=
  let k : KeyPackage := { version := 1, cipherSuite := 1, initKey := [12, name], leafNode := toyLeaf name,
                          extensions := [], signature := [] }
  match k.sign toyPrims [11, name] [] with
  | .ok k => k
  | _ => k

/-- A group in epoch 5 with the given tree, seen by the member at leaf `me`. -/
def toyState (heap : Heap) (tree : RTree) (me : UInt32) (name : UInt8) : GroupState where
  heap := heap
  group := {
    tree := tree
    groupContext := { version := 1, cipherSuite := 1, groupID := [7], epoch := 5, treeHash := [1],
                      confirmedTranscriptHash := [2], extensions := [] }
    interimTranscriptHash := [3]
    pskSecret := List.replicate 32 0
    epochSecret := List.replicate 32 4
    initSecret := List.replicate 32 5
    myLeafIndex := me
    privTree := List.replicate tree.length none
    signaturePriv := [11, name]
    pendingProposals := [] }

/-- A group of two members with a blank root, seen by leaf 0. -/
def toyPair : GroupState :=
  toyState [] [some (.leaf (toyLeaf 0)), none, some (.leaf (toyLeaf 1))] 0 0

/-- A public message of the member `sender` whose signature key is that of `name`. -/
def toyPublic (st : GroupState) (sender : UInt32) (name : UInt8) (content : Content) (tag : Bytes) : Bytes :=
  let g := st.group
  let fc : FramedContent := { groupID := g.groupContext.groupID, epoch := g.groupContext.epoch,
                              sender := .member sender, authenticatedData := [], content }
  let r : Res Bytes := do
    let m ← signPublicMessage toyPrims 1 [11, name] fc g.groupContext []
    let m := { m with auth := { m.auth with confirmationTag := tag } }
    g.signPublicMessageMembershipTag toyPrims m
  match r with
  | .ok b => b
  | _ => []

/-- A private message of the member `sender` whose signature key is that of `name`. -/
def toyPrivate (st : GroupState) (sender : UInt32) (name : UInt8) (content : Content) (tag : Bytes) : Bytes :=
  let g := { st.group with myLeafIndex := sender }
  let r : Res Bytes := do
    let fc := g.framedContent content
    let c ← signPrivateMessageContent toyPrims 1 [11, name] fc g.groupContext []
    let c := { c with auth := { c.auth with confirmationTag := tag } }
    g.encryptPrivateMessage toyPrims fc c ⟨1, 2, 3, 4⟩
  match r with
  | .ok b => b
  | _ => []

/-- `toyPair` with the private key of leaf 0. -/
def toyPairPriv : GroupState :=
  { toyPair with group := { toyPair.group with privTree := [some [10, 0], none, none] } }

/-- The update path of leaf 1 of `toyPair` for the path secret `secret`, made as RFC 9420 section 7.5
asks, following proposals that do not touch the tree. -/
def toyPath (st : GroupState) (secret : Bytes) : Res UpdatePath := do
  let ctx := st.group.groupContext
  let nodeSecret ← deriveSecret toyPrims 1 secret lblNode
  let (pub, _) ← deriveEncryptionKeyPair toyPrims 1 nodeSecret
  let sib ← computeTreeHash toyPrims 1 st.vtree 0 []
  let ph ← ({ encryptionKey := pub, parentHash := [], unmergedLeaves := [] } : ParentNode).computeParentHash toyPrims 1 sib
  let leaf : LeafNode := { toyLeaf 1 with encryptionKey := [10, 101], source := .commit ph }
  let leaf ← leaf.sign toyPrims 1 ctx.groupID 1 [11, 1] []
  let tree : VTree := [some (.leaf (toyLeaf 0)),
    some (.parent { encryptionKey := pub, parentHash := [], unmergedLeaves := [] }), some (.leaf leaf)]
  let treeHash ← computeRootTreeHash toyPrims 1 tree
  let rawCtx ← (GroupContext.enc { ctx with epoch := ctx.epoch + 1, treeHash } : Res Bytes)
  let ct ← encryptWithLabel toyPrims 1 [10, 0] lblUpdatePathNode rawCtx secret []
  return { leafNode := leaf, nodes := [{ encryptionKey := pub, encryptedPathSecret := [ct] }] }

/-- A commit of leaf 1 of `toyPairPriv` with these proposals and a path. -/
def toyPathCommit (ps : List ProposalOrRef) : Bytes :=
  match toyPath toyPairPriv (List.replicate 32 9) with
  | .ok path => toyPublic toyPairPriv 1 1 (.commit ⟨ps, some path⟩) [1]
  | _ => []

/-- A moment within the lifetime of the toy leaves. -/
def toyNow : GoTime := default

end Mls
