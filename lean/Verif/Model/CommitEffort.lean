import Verif.Model.Effort
import Verif.Model.Group
/-
UnmarshalAndProcessMessage (group.go:256-271) and the functions it calls once more, with what they cost, as Model/Effort.lean has it for the verification of a tree. Counted are
the calls of the hash function (with the bytes given to it), the verifications of signatures, the HPKE decryptions and the derivations of HPKE key pairs. The steps are not: those of the
functions below that are not copied from Model/Tree.lean and Model/Group.lean are free. Neither are the calls of the KDF, of the MAC and of the AEAD; those for a private message are in Model/Steps.lean.

Each definition below is the text of the definition of the same name in Model/Tree.lean or Model/Group.lean over the monad `Effort`; Props/CommitEffort.lean proves that forgetting the cost gives that
definition back.
-/
namespace Mls

variable (pr : Prims) (pc : Prices)

/-- The loop computing the parent hashes from the root down (tree.go:1164-1197). -/
def parentHashLoopE (cs : UInt16) (directPath : List Nat) (sender : Nat) (t : RTree) :
    List Nat → Heap → Bytes → Effort (Heap × Bytes)
  | [], h, prev => return (h, prev)
  | ni :: nis, h, prev => do
    let n ← Res.idx t ni
    let n ← Res.deref n
    match children ni with
    | none => Effort.lift .panic
    | some (l, r) =>
      let treeHash ← computeTreeHashLoopE pr pc cs (derefTree h t) [] 34 (pathSibling directPath sender l r)
      match n with
      | .leaf _ => Effort.lift .panic
      | .parent ptr =>
        let h := h.modify ptr fun q => { q with parentHash := prev }
        let ph ← computeParentHashE pr pc cs (h.getD ptr default) treeHash
        parentHashLoopE cs directPath sender t nis h ph

/-- ratchetTree.mergeUpdatePath (tree.go:1140-1209). -/
def mergeUpdatePathE (cs : UInt16) (h : Heap) (t : RTree) (senderLeafIndex : Nat) (path : UpdatePath) :
    Effort (Heap × RTree) := do
  let sender := nodeOfLeaf senderLeafIndex
  let dp ← directPath (treeNumLeaves t) sender
  let t ← blankAll t dp
  let fdp ← filteredDirectPath (derefTree h t) sender
  Res.guardErr (fdp.length == path.nodes.length)
  let (h, t) ← setPathNodes h t fdp path.nodes
  let (h, prev) ← parentHashLoopE pr pc cs dp sender t fdp.reverse h []
  Res.guardErr (path.leafNode.parentHash == prev)
  let t ← Res.setIdx t sender (some (TNode.leaf path.leafNode))
  return (h, t)

/-- The loop over the ancestors in decryptPathSecrets (tree.go:1285-1295); nodePrivFromPathSecret (tree.go:497-513) derives one key pair. -/
def pathSecretLoopE (cs : UInt16) (t : VTree) :
    List Nat → Bytes → List (Option Bytes) → Effort (Bytes × List (Option Bytes))
  | [], pathSecret, privTree => return (pathSecret, privTree)
  | ni :: nis, pathSecret, privTree => do
    let pathSecret ← deriveSecret pr cs pathSecret lblPath
    let pub ← nodeKey t ni
    Effort.spend pc.derivation
    let nodePriv ← nodePrivFromPathSecret pr cs pathSecret pub
    let privTree ← Res.setIdx privTree ni (some nodePriv)
    pathSecretLoopE cs t nis pathSecret privTree

/-- ratchetTree.decryptPathSecrets (tree.go:1211-1303); decryptPathSecret (tree.go:489-495) is one HPKE decryption. -/
def decryptPathSecretsE (cs : UInt16) (t : VTree) (groupCtx : GroupContext)
    (senderLeafIndex recipientLeafIndex : Nat) (path : UpdatePath) (privTree : List (Option Bytes)) :
    Effort (Bytes × List (Option Bytes)) := do
  let sender := nodeOfLeaf senderLeafIndex
  let recipient := nodeOfLeaf recipientLeafIndex
  let fdp ← filteredDirectPath t sender
  Res.guardErr (path.nodes.length == fdp.length)
  let ancestor := commonAncestor sender recipient
  match fdp.idxOf? ancestor with
  | none => Effort.lift .err
  | some i =>
    let pathNode ← Res.idx path.nodes i
    let copathNode ← Res.deref (if recipient < sender then left ancestor else right ancestor)
    let copathResolution ← resolve t copathNode
    Res.guardErr (pathNode.encryptedPathSecret.length == copathResolution.length)
    let found ← findPriv privTree 0 copathResolution
    match found with
    | none => Effort.lift .err
    | some (j, nodePriv) =>
      let ciphertext ← Res.idx pathNode.encryptedPathSecret j
      Effort.spend pc.opening
      let pathSecret ← decryptPathSecret pr cs nodePriv groupCtx ciphertext
      let pub ← nodeKey t ancestor
      Effort.spend pc.derivation
      let nodePriv ← nodePrivFromPathSecret pr cs pathSecret pub
      let privTree ← Res.setIdx privTree ancestor (some nodePriv)
      let (pathSecret, privTree) ← pathSecretLoopE pr pc cs t (fdp.drop (i + 1)) pathSecret privTree
      let commitSecret ← deriveSecret pr cs pathSecret lblPath
      return (commitSecret, privTree)

/-- The verification of the key packages of add proposals (group.go:435-441); KeyPackage.verify (key_package.go:123-140) verifies one signature. -/
def verifyAddsE (ctx : GroupContext) : List Proposal → Effort Unit
  | [] => return ()
  | .add k :: ps => do
    Effort.spend pc.verification
    k.verify pr ctx
    verifyAddsE ctx ps
  | _ :: ps => verifyAddsE ctx ps

/-- processCommit up to the copy of the tree (group.go:427-447). -/
def checkProposalsE (g : Group) (committer : UInt32) (c : Commit) : Effort (List Proposal × List UInt32) := do
  let (proposals, senders) ← resolveProposals committer g.pendingProposals c.proposals
  verifyProposalList proposals senders committer
  verifyAddsE pr pc g.groupContext proposals
  Res.guardErr (!(proposalListNeedsPath proposals && c.path.isNone))
  return (proposals, senders)

/-- The update path part of processCommit (group.go:464-510); leafNode.verify (tree.go:405-448) verifies one signature. -/
def commitPathE (ctx newCtx : GroupContext) (h : Heap) (t : RTree) (sender myLeafIndex : UInt32)
    (privTree : List (Option Bytes)) (path : UpdatePath) (now : GoTime) :
    Effort (Heap × RTree × GroupContext × List (Option Bytes) × Bytes) := do
  let cs := ctx.cipherSuite
  Res.guardErr path.leafNode.isCommit
  let v := derefTree h t
  let senderNode ← getLeaf v sender.toNat
  let (signatureKeys, encryptionKeys) ← treeKeys v
  let senderNode ← Res.deref senderNode
  let signatureKeys := signatureKeys.filter (· != senderNode.signatureKey)
  let creds ← supportedCreds v
  Effort.spend pc.verification
  path.leafNode.verify pr
    { cipherSuite := cs, groupID := ctx.groupID, leafIndex := sender, supportedCreds := creds,
      signatureKeys, encryptionKeys, now }
  Res.guardErr (path.nodes.all fun n => !encryptionKeys.contains n.encryptionKey)
  let (h, t) ← mergeUpdatePathE pr pc cs h t sender.toNat path
  let treeHash ← computeTreeHashLoopE pr pc cs (derefTree h t) [] 34 (root (treeNumLeaves (derefTree h t)))
  let newCtx := { newCtx with treeHash }
  let (commitSecret, privTree) ←
    decryptPathSecretsE pr pc cs (derefTree h t) newCtx sender.toNat myLeafIndex.toNat path privTree
  return (h, t, newCtx, privTree, commitSecret)

/-- confirmedTranscriptHashInput.hash (key_schedule.go:149-159). -/
def confirmedTranscriptHashE (cs : UInt16) (wf : WireFormat) (c : FramedContent)
    (signature interimTranscriptHashBefore : Bytes) : Effort Bytes := do
  let rawInput ← (encConfirmedTranscriptHashInput wf c signature : Res Bytes)
  hashE pr pc cs (interimTranscriptHashBefore ++ rawInput)

/-- nextInterimTranscriptHash (key_schedule.go:161-173). -/
def nextInterimTranscriptHashE (cs : UInt16) (confirmedTranscriptHash confirmationTag : Bytes) : Effort Bytes := do
  let rawInput ← (writeOpaqueVec confirmationTag : Res Bytes)
  hashE pr pc cs (confirmedTranscriptHash ++ rawInput)

/-- processCommit once the proposals are applied (group.go:455-557): the new state. -/
def finishCommitE (g : Group) (h : Heap) (t : RTree) (a : AuthenticatedContent) (c : Commit)
    (pskIDs : List PreSharedKeyID) (psks : List Bytes) (now : GoTime) : Effort GroupState := do
  let cs := g.groupContext.cipherSuite
  let sender := a.content.sender.leafIndex
  let newCtx := { g.groupContext with epoch := g.groupContext.epoch + 1 }
  let privTree ← copyPrivTree g.privTree g.tree.length t.length
  let d ← suite cs
  let (h, t, newCtx, privTree, commitSecret) ←
    (match c.path with
    | some path => commitPathE pr pc g.groupContext newCtx h t sender g.myLeafIndex privTree path now
    | none => do
      let treeHash ← computeTreeHashLoopE pr pc cs (derefTree h t) [] 34 (root (treeNumLeaves (derefTree h t)))
      return (h, t, { newCtx with treeHash }, privTree, List.replicate d.kdf.size 0))
  let cth ← confirmedTranscriptHashE pr pc cs a.wireFormat a.content a.auth.signature g.interimTranscriptHash
  let newCtx := { newCtx with confirmedTranscriptHash := cth }
  let interim ← nextInterimTranscriptHashE pr pc cs cth a.auth.confirmationTag
  let joinerSecret ← newCtx.extractJoinerSecret pr g.initSecret commitSecret
  let pskSecret ← extractPSKSecret pr cs pskIDs psks
  let epochSecret ← newCtx.extractEpochSecret pr joinerSecret (some pskSecret)
  let initSecret ← deriveSecret pr cs epochSecret lblInit
  return { heap := h,
           group := { g with tree := t, privTree, groupContext := newCtx, interimTranscriptHash := interim,
                             pskSecret, epochSecret, initSecret, pendingProposals := [] } }

/-- processCommit (group.go:418-558), with what it costs. -/
def processCommitE (st : GroupState) (a : AuthenticatedContent) (pskIDs : List PreSharedKeyID)
    (psks : List Bytes) (now : GoTime) : (Res Unit × GroupState) × Nat :=
  match a.content.content with
  | .commit c =>
    let check := checkProposalsE pr pc st.group a.content.sender.leafIndex c
    match check.result with
    | .err => ((.err, st), check.cost)
    | .panic => ((.panic, st), check.cost)
    | .hang => ((.hang, st), check.cost)
    | .ok (proposals, senders) =>
      match treeApply st.heap st.group.tree proposals senders with
      | .err => ((.err, st), check.cost)
      | .panic => ((.panic, st), check.cost)
      | .hang => ((.hang, st), check.cost)
      | .ok (h, t) =>
        let finish := finishCommitE pr pc st.group h t a c pskIDs psks now
        match finish.result with
        | .ok st' => ((.ok (), st'), check.cost + finish.cost)
        | .err => ((.err, { st with heap := h }), check.cost + finish.cost)
        | .panic => ((.panic, st), check.cost + finish.cost)
        | .hang => ((.hang, st), check.cost + finish.cost)
  | _ => ((.panic, st), 0)

/-- authenticatedContent.generateProposalRef (framing.go:323-341), with refHash (ciphersuite.go:153-165). -/
def generateProposalRefE (cs : UInt16) (a : AuthenticatedContent) : Effort Bytes :=
  if a.content.content.ty ≠ .proposal then Effort.lift .panic
  else do
    let raw ← (a.enc : Res Bytes)
    let input ← (encRefHashInput lblProposalRef raw : Res Bytes)
    hashE pr pc cs input

/-- processProposal (group.go:399-416), with what it costs. -/
def processProposalE (st : GroupState) (a : AuthenticatedContent) : (Res Unit × GroupState) × Nat :=
  match a.content.content with
  | .proposal p =>
    let ref := generateProposalRefE pr pc st.group.groupContext.cipherSuite a
    match ref.result with
    | .ok r =>
      ((.ok (), { st with group := { st.group with
        pendingProposals := st.group.pendingProposals ++
          [{ ref := r, proposal := p, sender := a.content.sender.leafIndex }] } }), ref.cost)
    | .err => ((.err, st), ref.cost)
    | .panic => ((.panic, st), ref.cost)
    | .hang => ((.hang, st), ref.cost)
  | _ => ((.panic, st), 0)

/-- verifyPublicMessage (group.go:292-324). -/
def verifyPublicMessageE (st : GroupState) (m : PublicMessage) : Effort AuthenticatedContent := do
  let ctx := st.group.groupContext
  Res.guardErr (m.content.groupID == ctx.groupID)
  Res.guardErr (m.content.epoch == ctx.epoch)
  match m.content.sender with
  | .member li =>
    let senderNode ← getLeaf st.vtree li.toNat
    let senderNode ← orErr senderNode
    Effort.spend pc.verification
    let sigOk ← m.authenticatedContent.verifySignature pr senderNode.signatureKey ctx
    Res.guardErr sigOk
    let membershipKey ← deriveSecret pr ctx.cipherSuite st.group.epochSecret lblMembership
    let tagOk ← m.verifyMembershipTag pr membershipKey ctx
    Res.guardErr tagOk
    return m.authenticatedContent
  | _ => Effort.lift .err

/-- processPrivateMessage up to the verified content (group.go:326-383). -/
def decryptPrivateMessageE (st : GroupState) (m : PrivateMessage) : Effort AuthenticatedContent := do
  let ctx := st.group.groupContext
  let cs := ctx.cipherSuite
  Res.guardErr (m.groupID == ctx.groupID)
  Res.guardErr (m.epoch == ctx.epoch)
  let senderDataSecret ← deriveSecret pr cs st.group.epochSecret lblSenderData
  let sd ← m.decryptSenderData pr cs senderDataSecret
  let encryptionSecret ← deriveSecret pr cs st.group.epochSecret lblEncryption
  let secretTree ← deriveSecretTree pr cs (treeNumLeaves st.group.tree) encryptionSecret
  let secret ← deriveRatchetRoot pr cs secretTree (nodeOfLeaf sd.leafIndex.toNat) (ratchetLabel m.contentType)
  let secret ← fastForward pr cs sd.generation (2 ^ 32) secret
  let c ← m.decryptContent pr cs secret sd.reuseGuard
  let signerNode ← getLeaf st.vtree sd.leafIndex.toNat
  let signerNode ← orErr signerNode
  let a := m.authenticatedContent sd c
  Effort.spend pc.verification
  let sigOk ← a.verifySignature pr signerNode.signatureKey ctx
  Res.guardErr sigOk
  return a

/-- The content of a message, authenticated: processPublicMessage (group.go:273-277) and processPrivateMessage (group.go:326-383) up to the switch on the type of the content, with whether it was encrypted. -/
def authenticateE (st : GroupState) (raw : Bytes) : Effort (AuthenticatedContent × Bool) := do
  let msg ← unmarshal MlsMessage.dec raw
  match msg.body with
  | .publicMessage m => do
    let a ← verifyPublicMessageE pr pc st m
    return (a, false)
  | .privateMessage m => do
    let a ← decryptPrivateMessageE pr pc st m
    return (a, true)
  | _ => Effort.lift .err

/-- The switch on the content type that ends processPublicMessage and processPrivateMessage (group.go:279-289, 385-396), with what it costs. -/
def dispatchE (st : GroupState) (a : AuthenticatedContent) (now : GoTime) (encrypted : Bool) :
    (Res (Option Bytes) × GroupState) × Nat :=
  match a.content.content with
  | .proposal _ =>
    let r := processProposalE pr pc st a
    ((r.1.1.bind fun _ => .ok none, r.1.2), r.2)
  | .commit _ =>
    let r := processCommitE pr pc st a [] [] now
    ((r.1.1.bind fun _ => .ok none, r.1.2), r.2)
  | .application data => if encrypted then ((.ok (some data), st), 0) else ((.err, st), 0)

/-- UnmarshalAndProcessMessage (group.go:256-271), with what it costs. -/
def messageE (st : GroupState) (raw : Bytes) (now : GoTime) : (Res (Option Bytes) × GroupState) × Nat :=
  let auth := authenticateE pr pc st raw
  match auth.result with
  | .ok (a, encrypted) =>
    let r := dispatchE pr pc st a now encrypted
    (r.1, auth.cost + r.2)
  | .err => ((.err, st), auth.cost)
  | .panic => ((.panic, st), auth.cost)
  | .hang => ((.hang, st), auth.cost)

end Mls
