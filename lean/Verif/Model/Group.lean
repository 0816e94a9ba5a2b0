import Verif.Model.Framing
/-
Model of group.go and of the proposal list checks of proposal.go.

A group is a record together with the heap its ratchet tree points into (`GroupState`). The
functions that process a message give the outcome and the state afterwards, because a failed
call can leave the heap changed. After a panic the state is not tracked.
-/
namespace Mls

/-- pendingProposal (group.go:12-16). -/
structure PendingProposal where
  ref : Bytes
  proposal : Proposal
  sender : UInt32
  deriving DecidableEq, Repr, Inhabited

/-- Group (group.go:19-33). -/
structure Group where
  tree : RTree
  groupContext : GroupContext
  interimTranscriptHash : Bytes
  pskSecret : Bytes
  epochSecret : Bytes
  initSecret : Bytes
  myLeafIndex : UInt32
  privTree : List (Option Bytes)
  signaturePriv : Bytes
  pendingProposals : List PendingProposal
  deriving DecidableEq, Repr, Inhabited

/-- A group and the parent nodes it can reach. -/
structure GroupState where
  heap : Heap
  group : Group
  deriving DecidableEq, Repr, Inhabited

/-- The ratchet tree of a group as its readers see it. -/
def GroupState.vtree (st : GroupState) : VTree := derefTree st.heap st.group.tree

variable (pr : Prims)

/-- Bytes drawn from crypto/rand: `n` bytes of the stream `rand`. -/
def randBytes (rand : Nat → UInt8) (n : Nat) : Bytes := (List.range n).map rand

/-- CreateGroup (group.go:36-98). -/
def createGroup (groupID : Bytes) (kp : KeyPairPackage) (rand : Nat → UInt8) : Res GroupState := do
  let cs := kp.pub.cipherSuite
  let (heap, tree) ← treeAdd [] [none] kp.pub.leafNode
  let privTree ← Res.setIdx (List.replicate tree.length none) 0 (some kp.priv.encryptionKey)
  let treeHash ← computeRootTreeHash pr cs (derefTree heap tree)
  let d ← suite cs
  let confirmedTranscriptHash : Bytes := List.replicate d.hash.size 0
  let epochSecret := randBytes rand d.kdf.size
  let ctx : GroupContext :=
    { version := kp.pub.version, cipherSuite := kp.pub.cipherSuite, groupID, epoch := 0, treeHash,
      confirmedTranscriptHash, extensions := [] }
  let confirmationTag ← ctx.signConfirmationTag pr epochSecret
  let interim ← nextInterimTranscriptHash pr cs confirmedTranscriptHash confirmationTag
  let pskSecret ← extractPSKSecret pr cs [] []
  let initSecret ← deriveSecret pr ctx.cipherSuite epochSecret lblInit
  return { heap,
           group := { tree, groupContext := ctx, interimTranscriptHash := interim, pskSecret, epochSecret,
                      initSecret, myLeafIndex := 0, privTree, signaturePriv := kp.priv.signatureKey,
                      pendingProposals := [] } }

/-- groupInfo.verifySignature (group.go:927-934). -/
def GroupInfo.verifySignature (i : GroupInfo) (signerPub : Bytes) : Res Bool :=
  orFalse i.encTBS fun tbs =>
    verifyWithLabel pr i.groupContext.cipherSuite signerPub lblGroupInfoTBS tbs i.signature

/-- groupInfo.sign (group.go:936-948). -/
def GroupInfo.sign (i : GroupInfo) (signerPriv rand : Bytes) : Res GroupInfo := do
  let tbs ← (i.encTBS : Res Bytes)
  let sig ← signWithLabel pr i.groupContext.cipherSuite signerPriv lblGroupInfoTBS tbs rand
  return { i with signature := sig }

/-- groupInfo.verifyConfirmationTag (group.go:950-961). -/
def GroupInfo.verifyConfirmationTag (i : GroupInfo) (joinerSecret pskSecret : Bytes) : Res Bool :=
  orFalse (i.groupContext.extractEpochSecret pr joinerSecret (some pskSecret)) fun epochSecret =>
  orFalse (deriveSecret pr i.groupContext.cipherSuite epochSecret lblConfirm) fun confirmationKey =>
    verifyMAC pr i.groupContext.cipherSuite confirmationKey i.groupContext.confirmedTranscriptHash
      i.confirmationTag

/-- The key and nonce protecting a group info (group.go:967-979, 1189-1201): key, nonce. -/
def welcomeKeyAndNonce (cs : UInt16) (joinerSecret pskSecret : Bytes) : Res (Bytes × Bytes) := do
  let d ← suite cs
  let welcomeSecret ← extractWelcomeSecret pr cs joinerSecret (some pskSecret)
  let nonce ← expandWithLabel pr cs welcomeSecret lblNonce [] (UInt16.ofNat d.aead.nonceSize)
  let key ← expandWithLabel pr cs welcomeSecret lblKey [] (UInt16.ofNat d.aead.keySize)
  return (key, nonce)

/-- groupInfo.encrypt (group.go:963-992). -/
def GroupInfo.encrypt (i : GroupInfo) (joinerSecret pskSecret : Bytes) : Res Bytes := do
  let cs := i.groupContext.cipherSuite
  let (key, nonce) ← welcomeKeyAndNonce pr cs joinerSecret pskSecret
  let raw ← (i.enc : Res Bytes)
  aeadSeal pr cs key nonce raw []

/-- pskID has type resumption with usage reinit or branch (group.go:1050-1057). -/
def PreSharedKeyID.isReinitOrBranch (id : PreSharedKeyID) : Bool :=
  match id.kind with
  | .resumption .reinit _ _ => true
  | .resumption .branch _ _ => true
  | _ => false

/-- groupSecrets.verifySingleReinitOrBranchPSK (group.go:1048-1060). -/
def GroupSecrets.verifySingleReinitOrBranchPSK (g : GroupSecrets) : Bool :=
  (g.psks.filter PreSharedKeyID.isReinitOrBranch).length ≤ 1

/-- groupSecrets.encrypt (group.go:1062-1077). -/
def GroupSecrets.encrypt (cs : UInt16) (g : GroupSecrets) (initKey encryptedGroupInfo rand : Bytes) :
    Res HpkeCiphertext := do
  let raw ← (g.enc : Res Bytes)
  encryptWithLabel pr cs initKey lblWelcome encryptedGroupInfo raw rand

/-- Welcome.NewMembers (group.go:1148-1154). -/
def Welcome.newMembers (w : Welcome) : List Bytes := w.secrets.map EncryptedGroupSecrets.newMember

/-- Welcome.findSecret (group.go:1156-1163), with KeyPackageRef.Equal (key_package.go:163-165). -/
def Welcome.findSecret (w : Welcome) (ref : Bytes) : Option EncryptedGroupSecrets :=
  w.secrets.find? fun s => s.newMember == ref

/-- Welcome.decryptGroupSecrets (group.go:1165-1183). -/
def Welcome.decryptGroupSecrets (w : Welcome) (ref initKeyPriv : Bytes) : Res GroupSecrets := do
  let sec ← orErr (w.findSecret ref)
  let raw ← decryptWithLabel pr w.cipherSuite initKeyPriv lblWelcome w.encryptedGroupInfo
    sec.encryptedGroupSecrets
  unmarshal GroupSecrets.dec raw

/-- Welcome.decryptGroupInfo (group.go:1185-1218). -/
def Welcome.decryptGroupInfo (w : Welcome) (joinerSecret pskSecret : Bytes) : Res GroupInfo := do
  let (key, nonce) ← welcomeKeyAndNonce pr w.cipherSuite joinerSecret pskSecret
  let raw ← aeadOpen pr w.cipherSuite key nonce w.encryptedGroupInfo []
  unmarshal GroupInfo.dec raw

/-- The loop of processPathSecret (group.go:229-246). The `:=` inside the loop declares a new
`pathSecret`, so every iteration derives from the path secret given to the function. -/
def processPathSecretLoop (cs : UInt16) (t : VTree) (pathSecret : Bytes) :
    Nat → Nat → List (Option Bytes) → Res (List (Option Bytes))
  | 0, _, _ => .hang
  | fuel + 1, x, privTree =>
    match parent (treeNumLeaves t) x with
    | none => .ok privTree
    | some p => do
      let inner ← deriveSecret pr cs pathSecret lblPath
      let pub ← nodeKey t p
      let nodePriv ← nodePrivFromPathSecret pr cs inner pub
      let privTree ← Res.setIdx privTree p (some nodePriv)
      processPathSecretLoop cs t pathSecret fuel p privTree

/-- processPathSecret (group.go:222-249), giving the updated private keys. -/
def processPathSecret (cs : UInt16) (t : VTree) (privTree : List (Option Bytes)) (pathSecret : Bytes)
    (x : Nat) : Res (List (Option Bytes)) := do
  let pub ← nodeKey t x
  let nodePriv ← nodePrivFromPathSecret pr cs pathSecret pub
  let privTree ← Res.setIdx privTree x (some nodePriv)
  processPathSecretLoop pr cs t pathSecret 64 x privTree

/-- The private keys of a joiner (group.go:195-205). -/
def joinerPrivTree (cs : UInt16) (t : VTree) (myLeafIndex : Nat) (signer : UInt32) (encryptionKey : Bytes)
    (pathSecret : Option Bytes) : Res (List (Option Bytes)) := do
  let privTree ← Res.setIdx (List.replicate t.length none) (nodeOfLeaf myLeafIndex) (some encryptionKey)
  match pathSecret with
  | none => return privTree
  | some ps =>
    processPathSecret pr cs t privTree ps (commonAncestor (nodeOfLeaf myLeafIndex) (nodeOfLeaf signer.toNat))

/-- groupFromSecrets (group.go:129-220). `rawTree` and `psks` are the options, `now` the clock. -/
def groupFromSecrets (w : Welcome) (kp : KeyPairPackage) (gs : GroupSecrets) (rawTree : Option Bytes)
    (psks : List Bytes) (now : GoTime) : Res GroupState := do
  let pskSecret ← extractPSKSecret pr w.cipherSuite gs.psks psks
  let info ← w.decryptGroupInfo pr gs.joinerSecret pskSecret
  let raw ← orErr (rawTree.or (findExtensionData info.extensions 2))
  let t ← unmarshal decTree raw
  let signerNode ← getLeaf t info.signer.toNat
  let signerNode ← orErr signerNode
  let sigOk ← info.verifySignature pr signerNode.signatureKey
  Res.guardErr sigOk
  let tagOk ← info.verifyConfirmationTag pr gs.joinerSecret pskSecret
  Res.guardErr tagOk
  Res.guardErr (info.groupContext.cipherSuite == w.cipherSuite)
  verifyIntegrity pr t info.groupContext now
  let ctx := info.groupContext
  let epochSecret ← ctx.extractEpochSecret pr gs.joinerSecret (some pskSecret)
  let initSecret ← deriveSecret pr ctx.cipherSuite epochSecret lblInit
  let interim ← nextInterimTranscriptHash pr ctx.cipherSuite ctx.confirmedTranscriptHash info.confirmationTag
  let found ← findLeaf t kp.pub.leafNode
  let myLeafIndex ← orErr found
  let privTree ← joinerPrivTree pr ctx.cipherSuite t myLeafIndex info.signer kp.priv.encryptionKey gs.pathSecret
  let (heap, tree) := allocTree [] t
  return { heap,
           group := { tree, groupContext := ctx, interimTranscriptHash := interim, pskSecret, epochSecret,
                      initSecret, myLeafIndex := UInt32.ofNat myLeafIndex, privTree,
                      signaturePriv := kp.priv.signatureKey, pendingProposals := [] } }

/-- GroupFromWelcome (group.go:101-121). -/
def groupFromWelcome (w : Welcome) (kp : KeyPairPackage) (now : GoTime) : Res GroupState := do
  let ref ← kp.pub.generateRef pr
  let gs ← w.decryptGroupSecrets pr ref kp.priv.initKey
  Res.guardErr gs.verifySingleReinitOrBranchPSK
  Res.guardErr (gs.psks.length == 0)
  groupFromSecrets pr w kp gs none [] now

/-- The maps of verifyProposalList (proposal.go:311-314). -/
structure ProposalListState where
  add : List Bytes
  updateOrRemove : List UInt32
  psk : List Bytes
  groupContextExtensions : Bool

/-- One iteration of verifyProposalList (proposal.go:315-362); `len` is `len(proposals)`. -/
def verifyProposalStep (len : Nat) (committer : UInt32) (s : ProposalListState) (p : Proposal)
    (sender : UInt32) : Res ProposalListState :=
  match p with
  | .add k =>
    if s.add.contains k.leafNode.signatureKey then .err
    else .ok { s with add := k.leafNode.signatureKey :: s.add }
  | .update _ =>
    if sender = committer then .err
    else if s.updateOrRemove.contains sender then .err
    else .ok { s with updateOrRemove := sender :: s.updateOrRemove }
  | .remove removed =>
    if removed = committer then .err
    else if s.updateOrRemove.contains removed then .err
    else .ok { s with updateOrRemove := removed :: s.updateOrRemove }
  | .psk id => do
    let b ← (id.enc : Res Bytes)
    if s.psk.contains b then .err else .ok { s with psk := b :: s.psk }
  | .groupContextExtensions _ =>
    if s.groupContextExtensions then .err else .ok { s with groupContextExtensions := true }
  | .reInit _ => if len > 1 then .err else .ok s
  | .externalInit _ => .err

/-- The loop of verifyProposalList (proposal.go:315-363). -/
def verifyProposalLoop (len : Nat) (committer : UInt32) :
    ProposalListState → List Proposal → List UInt32 → Res Unit
  | _, [], _ => .ok ()
  | _, _ :: _, [] => .panic
  | s, p :: ps, sender :: senders => do
    let s ← verifyProposalStep len committer s p sender
    verifyProposalLoop len committer s ps senders

/-- verifyProposalList (proposal.go:306-365). -/
def verifyProposalList (proposals : List Proposal) (senders : List UInt32) (committer : UInt32) : Res Unit :=
  if proposals.length ≠ senders.length then .panic
  else verifyProposalLoop proposals.length committer ⟨[], [], [], false⟩ proposals senders

/-- The types listed in proposalListNeedsPath (proposal.go:373-375). -/
def Proposal.needsPath : Proposal → Bool
  | .update _ => true
  | .remove _ => true
  | .externalInit _ => true
  | .groupContextExtensions _ => true
  | _ => false

/-- proposalListNeedsPath (proposal.go:367-380). -/
def proposalListNeedsPath (proposals : List Proposal) : Bool :=
  if proposals.length = 0 then true else proposals.any Proposal.needsPath

/-- resolveProposals (group.go:560-587), with proposalRef.Equal (proposal.go:251-253). -/
def resolveProposals (senderLeafIndex : UInt32) (pending : List PendingProposal) :
    List ProposalOrRef → Res (List Proposal × List UInt32)
  | [] => .ok ([], [])
  | .proposal p :: rest => do
    let (ps, ss) ← resolveProposals senderLeafIndex pending rest
    return (p :: ps, senderLeafIndex :: ss)
  | .reference r :: rest =>
    match pending.find? fun pp => pp.ref == r with
    | none => .err
    | some pp => do
      let (ps, ss) ← resolveProposals senderLeafIndex pending rest
      return (pp.proposal :: ps, pp.sender :: ss)

/-- The verification of the key packages of add proposals (group.go:435-441). -/
def verifyAdds (ctx : GroupContext) : List Proposal → Res Unit
  | [] => .ok ()
  | .add k :: ps => do
    k.verify pr ctx
    verifyAdds ctx ps
  | _ :: ps => verifyAdds ctx ps

/-- processCommit up to the copy of the tree (group.go:427-447). -/
def checkProposals (g : Group) (committer : UInt32) (c : Commit) : Res (List Proposal × List UInt32) := do
  let (proposals, senders) ← resolveProposals committer g.pendingProposals c.proposals
  verifyProposalList proposals senders committer
  verifyAdds pr g.groupContext proposals
  Res.guardErr (!(proposalListNeedsPath proposals && c.path.isNone))
  return (proposals, senders)

/-- The new slice of private keys (group.go:455-460): the keys of the nodes still in the tree. -/
def copyPrivTree (privTree : List (Option Bytes)) (oldLen newLen : Nat) : Res (List (Option Bytes)) :=
  if privTree.length < min oldLen newLen then .panic
  else .ok (privTree.take (min oldLen newLen) ++ List.replicate (newLen - min oldLen newLen) none)

/-- The update path part of processCommit (group.go:464-510): heap, tree, group context, private
keys and commit secret. `h`, `t`: the tree after the proposals; `ctx`: the group's context;
`newCtx`: with the next epoch. -/
def commitPath (ctx newCtx : GroupContext) (h : Heap) (t : RTree) (sender myLeafIndex : UInt32)
    (privTree : List (Option Bytes)) (path : UpdatePath) (now : GoTime) :
    Res (Heap × RTree × GroupContext × List (Option Bytes) × Bytes) := do
  let cs := ctx.cipherSuite
  Res.guardErr path.leafNode.isCommit
  let v := derefTree h t
  let senderNode ← getLeaf v sender.toNat
  let (signatureKeys, encryptionKeys) ← treeKeys v
  let senderNode ← Res.deref senderNode
  let signatureKeys := signatureKeys.filter (· != senderNode.signatureKey)
  let creds ← supportedCreds v
  path.leafNode.verify pr
    { cipherSuite := cs, groupID := ctx.groupID, leafIndex := sender, supportedCreds := creds,
      signatureKeys, encryptionKeys, now }
  Res.guardErr (path.nodes.all fun n => !encryptionKeys.contains n.encryptionKey)
  let (h, t) ← mergeUpdatePath pr cs h t sender.toNat path
  let treeHash ← computeRootTreeHash pr cs (derefTree h t)
  let newCtx := { newCtx with treeHash }
  let (commitSecret, privTree) ←
    decryptPathSecrets pr cs (derefTree h t) newCtx sender.toNat myLeafIndex.toNat path privTree
  return (h, t, newCtx, privTree, commitSecret)

/-- processCommit once the proposals are applied (group.go:455-557): the new state. -/
def finishCommit (g : Group) (h : Heap) (t : RTree) (a : AuthenticatedContent) (c : Commit)
    (pskIDs : List PreSharedKeyID) (psks : List Bytes) (now : GoTime) : Res GroupState := do
  let cs := g.groupContext.cipherSuite
  let sender := a.content.sender.leafIndex
  let newCtx := { g.groupContext with epoch := g.groupContext.epoch + 1 }
  let privTree ← copyPrivTree g.privTree g.tree.length t.length
  let d ← suite cs
  let (h, t, newCtx, privTree, commitSecret) ←
    (match c.path with
    | some path => commitPath pr g.groupContext newCtx h t sender g.myLeafIndex privTree path now
    | none => do
      let treeHash ← computeRootTreeHash pr cs (derefTree h t)
      return (h, t, { newCtx with treeHash }, privTree, List.replicate d.kdf.size 0))
  let cth ← confirmedTranscriptHash pr cs a.wireFormat a.content a.auth.signature g.interimTranscriptHash
  let newCtx := { newCtx with confirmedTranscriptHash := cth }
  let interim ← nextInterimTranscriptHash pr cs cth a.auth.confirmationTag
  let joinerSecret ← newCtx.extractJoinerSecret pr g.initSecret commitSecret
  let pskSecret ← extractPSKSecret pr cs pskIDs psks
  let epochSecret ← newCtx.extractEpochSecret pr joinerSecret (some pskSecret)
  let initSecret ← deriveSecret pr cs epochSecret lblInit
  return { heap := h,
           group := { g with tree := t, privTree, groupContext := newCtx, interimTranscriptHash := interim,
                             pskSecret, epochSecret, initSecret, pendingProposals := [] } }

/-- processCommit (group.go:418-558). An error after the proposals have been applied leaves the
group record alone, but the heap as `apply` left it. -/
def processCommit (st : GroupState) (a : AuthenticatedContent) (pskIDs : List PreSharedKeyID)
    (psks : List Bytes) (now : GoTime) : Res Unit × GroupState :=
  match a.content.content with
  | .commit c =>
    match checkProposals pr st.group a.content.sender.leafIndex c with
    | .err => (.err, st)
    | .panic => (.panic, st)
    | .hang => (.hang, st)
    | .ok (proposals, senders) =>
      match treeApply st.heap st.group.tree proposals senders with
      | .err => (.err, st)
      | .panic => (.panic, st)
      | .hang => (.hang, st)
      | .ok (h, t) =>
        match finishCommit pr st.group h t a c pskIDs psks now with
        | .ok st' => (.ok (), st')
        | .err => (.err, { st with heap := h })
        | .panic => (.panic, st)
        | .hang => (.hang, st)
  | _ => (.panic, st)

/-- processProposal (group.go:399-416). -/
def processProposal (st : GroupState) (a : AuthenticatedContent) : Res Unit × GroupState :=
  match a.content.content with
  | .proposal p =>
    match a.generateProposalRef pr st.group.groupContext.cipherSuite with
    | .ok ref =>
      (.ok (), { st with group := { st.group with
        pendingProposals := st.group.pendingProposals ++
          [{ ref, proposal := p, sender := a.content.sender.leafIndex }] } })
    | .err => (.err, st)
    | .panic => (.panic, st)
    | .hang => (.hang, st)
  | _ => (.panic, st)

/-- verifyPublicMessage (group.go:292-324). -/
def verifyPublicMessage (st : GroupState) (m : PublicMessage) : Res AuthenticatedContent := do
  let ctx := st.group.groupContext
  Res.guardErr (m.content.groupID == ctx.groupID)
  Res.guardErr (m.content.epoch == ctx.epoch)
  match m.content.sender with
  | .member li =>
    let senderNode ← getLeaf st.vtree li.toNat
    let senderNode ← orErr senderNode
    let sigOk ← m.authenticatedContent.verifySignature pr senderNode.signatureKey ctx
    Res.guardErr sigOk
    let membershipKey ← deriveSecret pr ctx.cipherSuite st.group.epochSecret lblMembership
    let tagOk ← m.verifyMembershipTag pr membershipKey ctx
    Res.guardErr tagOk
    return m.authenticatedContent
  | _ => .err

/-- The switch on the content type that ends processPublicMessage and processPrivateMessage
(group.go:279-289, 385-396): the application data of a private message, or nil. -/
def dispatch (st : GroupState) (a : AuthenticatedContent) (now : GoTime) (encrypted : Bool) :
    Res (Option Bytes) × GroupState :=
  match a.content.content with
  | .proposal _ =>
    let (r, st) := processProposal pr st a
    (r.bind fun _ => .ok none, st)
  | .commit _ =>
    let (r, st) := processCommit pr st a [] [] now
    (r.bind fun _ => .ok none, st)
  | .application data => if encrypted then (.ok (some data), st) else (.err, st)

/-- processPublicMessage (group.go:273-290). -/
def processPublicMessage (st : GroupState) (m : PublicMessage) (now : GoTime) :
    Res (Option Bytes) × GroupState :=
  match verifyPublicMessage pr st m with
  | .ok a => dispatch pr st a now false
  | .err => (.err, st)
  | .panic => (.panic, st)
  | .hang => (.hang, st)

/-- processPrivateMessage up to the verified content (group.go:326-383), with GroupID.Equal (framing.go:132-134). -/
def decryptPrivateMessage (st : GroupState) (m : PrivateMessage) : Res AuthenticatedContent := do
  let ctx := st.group.groupContext
  let cs := ctx.cipherSuite
  Res.guardErr (m.groupID == ctx.groupID)
  Res.guardErr (m.epoch == ctx.epoch)
  let senderDataSecret ← deriveSecret pr cs st.group.epochSecret lblSenderData
  let sd ← m.decryptSenderData pr cs senderDataSecret
  let encryptionSecret ← deriveSecret pr cs st.group.epochSecret lblEncryption
  let secretTree ← deriveSecretTree pr cs (treeNumLeaves st.group.tree) encryptionSecret
  let secret ← deriveRatchetRoot pr cs secretTree (nodeOfLeaf sd.leafIndex.toNat) (ratchetLabel m.contentType)
  let secret ← fastForward pr cs sd.generation (2 ^ 32) secret
  let c ← m.decryptContent pr cs secret sd.reuseGuard
  let signerNode ← getLeaf st.vtree sd.leafIndex.toNat
  let signerNode ← orErr signerNode
  let a := m.authenticatedContent sd c
  let sigOk ← a.verifySignature pr signerNode.signatureKey ctx
  Res.guardErr sigOk
  return a

/-- processPrivateMessage (group.go:326-397). -/
def processPrivateMessage (st : GroupState) (m : PrivateMessage) (now : GoTime) :
    Res (Option Bytes) × GroupState :=
  match decryptPrivateMessage pr st m with
  | .ok a => dispatch pr st a now true
  | .err => (.err, st)
  | .panic => (.panic, st)
  | .hang => (.hang, st)

/-- UnmarshalAndProcessMessage (group.go:256-271). -/
def unmarshalAndProcessMessage (st : GroupState) (raw : Bytes) (now : GoTime) :
    Res (Option Bytes) × GroupState :=
  match unmarshal MlsMessage.dec raw with
  | .ok msg =>
    match msg.body with
    | .publicMessage m => processPublicMessage pr st m now
    | .privateMessage m => processPrivateMessage pr st m now
    | _ => (.err, st)
  | .err => (.err, st)
  | .panic => (.panic, st)
  | .hang => (.hang, st)

/-- Group.encryptPrivateMessage (group.go:782-826). `guard` is the random reuse guard of newSenderData (framing.go:844-853). -/
def Group.encryptPrivateMessage (g : Group) (content : FramedContent) (c : PrivateMessageContent)
    (guard : Bytes4) : Res Bytes := do
  let cs := g.groupContext.cipherSuite
  let sd : SenderData := { leafIndex := g.myLeafIndex, generation := 0, reuseGuard := guard }
  let encryptionSecret ← deriveSecret pr cs g.epochSecret lblEncryption
  let secretTree ← deriveSecretTree pr cs (treeNumLeaves g.tree) encryptionSecret
  let secret ← deriveRatchetRoot pr cs secretTree (nodeOfLeaf g.myLeafIndex.toNat)
    (ratchetLabel content.content.ty)
  let senderDataSecret ← deriveSecret pr cs g.epochSecret lblSenderData
  let m ← Mls.encryptPrivateMessage pr cs secret senderDataSecret content c sd
  (MlsMessage.enc { version := 1, body := .privateMessage m } : Res Bytes)

/-- The framed content of a message by the group's own member (group.go:637-645, 764-773). -/
def Group.framedContent (g : Group) (content : Content) : FramedContent :=
  { groupID := g.groupContext.groupID, epoch := g.groupContext.epoch, sender := .member g.myLeafIndex,
    authenticatedData := [], content }

/-- CreateApplicationMessage (group.go:761-780). -/
def createApplicationMessage (st : GroupState) (data sigRand : Bytes) (guard : Bytes4) : Res Bytes := do
  let g := st.group
  let content := g.framedContent (.application data)
  let c ← signPrivateMessageContent pr g.groupContext.cipherSuite g.signaturePriv content g.groupContext sigRand
  g.encryptPrivateMessage pr content c guard

/-- Group.signPublicMessageMembershipTag (group.go:828-849); only reached with `public` set, which
the API never does. -/
def Group.signPublicMessageMembershipTag (g : Group) (m : PublicMessage) : Res Bytes := do
  let membershipKey ← deriveSecret pr g.groupContext.cipherSuite g.epochSecret lblMembership
  let m ← m.signMembershipTag pr g.groupContext.cipherSuite membershipKey g.groupContext
  (MlsMessage.enc { version := 1, body := .publicMessage m } : Res Bytes)

/-- The randomness drawn by CreateWelcome. -/
structure WelcomeRand where
  commitSign : Bytes
  infoSign : Bytes
  hpke : Nat → Bytes
  guard : Bytes4
  deriving Inhabited

/-- The loop encrypting the group secrets to the new members (group.go:719-735) from position `i`. -/
def encryptSecretsLoop (cs : UInt16) (gs : GroupSecrets) (encryptedGroupInfo : Bytes) (rand : Nat → Bytes) :
    Nat → List KeyPackage → Res (List EncryptedGroupSecrets)
  | _, [] => .ok []
  | i, k :: ks => do
    let ref ← k.generateRef pr
    let ct ← gs.encrypt pr cs k.initKey encryptedGroupInfo (rand i)
    let rest ← encryptSecretsLoop cs gs encryptedGroupInfo rand (i + 1) ks
    return { newMember := ref, encryptedGroupSecrets := ct } :: rest

/-- CreateWelcome once the proposals are applied (group.go:621-756); `public` is always false. -/
def finishWelcome (g : Group) (h : Heap) (t : RTree) (keyPkgs : List KeyPackage) (r : WelcomeRand) :
    Res (Welcome × Bytes) := do
  let cs := g.groupContext.cipherSuite
  let treeHash ← computeRootTreeHash pr cs (derefTree h t)
  let d ← suite cs
  let commitSecret : Bytes := List.replicate d.kdf.size 0
  let pskSecret ← extractPSKSecret pr cs [] []
  let content := g.framedContent
    (.commit { proposals := keyPkgs.map fun k => .proposal (.add k), path := none })
  let c ← signPrivateMessageContent pr cs g.signaturePriv content g.groupContext r.commitSign
  let a := c.authenticatedContent content
  let cth ← confirmedTranscriptHash pr cs a.wireFormat a.content a.auth.signature g.interimTranscriptHash
  let newCtx := { g.groupContext with
    epoch := g.groupContext.epoch + 1, treeHash, confirmedTranscriptHash := cth }
  let joinerSecret ← newCtx.extractJoinerSecret pr g.initSecret commitSecret
  let epochSecret ← newCtx.extractEpochSecret pr joinerSecret (some pskSecret)
  let confirmationTag ← newCtx.signConfirmationTag pr epochSecret
  let c := { c with auth := { c.auth with confirmationTag } }
  let rawTree ← (encTree (derefTree h t) : Res Bytes)
  let info : GroupInfo := { groupContext := newCtx, extensions := [{ ty := 2, data := rawTree }],
                            confirmationTag, signer := g.myLeafIndex, signature := [] }
  let info ← info.sign pr g.signaturePriv r.infoSign
  let encryptedGroupInfo ← info.encrypt pr joinerSecret pskSecret
  let gs : GroupSecrets := { joinerSecret, pathSecret := none, psks := [] }
  let secrets ← encryptSecretsLoop pr cs gs encryptedGroupInfo r.hpke 0 keyPkgs
  let rawMsg ← g.encryptPrivateMessage pr content c r.guard
  return ({ cipherSuite := cs, secrets, encryptedGroupInfo }, rawMsg)

/-- CreateWelcome (group.go:595-757): the outcome and the state afterwards. The tree is copied
shallowly, so applying the proposals to the copy changes the heap the group points into. -/
def createWelcome (st : GroupState) (keyPkgs : List KeyPackage) (r : WelcomeRand) :
    Res (Welcome × Bytes) × GroupState :=
  if keyPkgs.length = 0 then (.panic, st)
  else
    match treeApply st.heap st.group.tree (keyPkgs.map .add) [st.group.myLeafIndex] with
    | .ok (h, t) => (finishWelcome pr st.group h t keyPkgs r, { st with heap := h })
    | .err => (.err, st)
    | .panic => (.panic, st)
    | .hang => (.hang, st)

end Mls
