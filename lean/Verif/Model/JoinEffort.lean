import Verif.Model.CommitEffort
/-
GroupFromWelcome (group.go:101-121), CreateWelcome (group.go:595-757) and CreateApplicationMessage (group.go:761-780) once more, with what they cost, as Model/Effort.lean has it for the verification of a tree
and Model/CommitEffort.lean for a message. Counted are the calls of the hash function (with the bytes given to it), the verifications and the makings of signatures, the HPKE encryptions and decryptions and the
derivations of HPKE key pairs. Those of the functions below are the text of the definition of the same name in Model/Group.lean over the monad `Effort`; Props/JoinEffort.lean proves that forgetting the
cost gives that definition back. Not counted are the calls of the KDF, of the MAC and of the AEAD.
-/
namespace Mls

variable (pr : Prims) (pc : Prices)

/-- KeyPackage.GenerateRef (key_package.go:143-157), with refHash (ciphersuite.go:153-165). -/
def generateRefE (k : KeyPackage) : Effort Bytes := do
  let raw ← (k.enc : Res Bytes)
  let input ← (encRefHashInput lblKeyPackageRef raw : Res Bytes)
  hashE pr pc k.cipherSuite input

/-- Welcome.decryptGroupSecrets (group.go:1165-1183): one HPKE decryption. -/
def decryptGroupSecretsE (w : Welcome) (ref initKeyPriv : Bytes) : Effort GroupSecrets := do
  let sec ← orErr (w.findSecret ref)
  Effort.spend pc.opening
  let raw ← decryptWithLabel pr w.cipherSuite initKeyPriv lblWelcome w.encryptedGroupInfo
    sec.encryptedGroupSecrets
  unmarshal GroupSecrets.dec raw

/-- The loop of processPathSecret (group.go:229-246); nodePrivFromPathSecret (tree.go:497-513) derives one key pair. -/
def processPathSecretLoopE (cs : UInt16) (t : VTree) (pathSecret : Bytes) :
    Nat → Nat → List (Option Bytes) → Effort (List (Option Bytes))
  | 0, _, _ => Effort.lift .hang
  | fuel + 1, x, privTree =>
    match parent (treeNumLeaves t) x with
    | none => Effort.lift (.ok privTree)
    | some p => do
      let inner ← deriveSecret pr cs pathSecret lblPath
      let pub ← nodeKey t p
      Effort.spend pc.derivation
      let nodePriv ← nodePrivFromPathSecret pr cs inner pub
      let privTree ← Res.setIdx privTree p (some nodePriv)
      processPathSecretLoopE cs t pathSecret fuel p privTree

/-- processPathSecret (group.go:222-249). -/
def processPathSecretE (cs : UInt16) (t : VTree) (privTree : List (Option Bytes)) (pathSecret : Bytes)
    (x : Nat) : Effort (List (Option Bytes)) := do
  let pub ← nodeKey t x
  Effort.spend pc.derivation
  let nodePriv ← nodePrivFromPathSecret pr cs pathSecret pub
  let privTree ← Res.setIdx privTree x (some nodePriv)
  processPathSecretLoopE pr pc cs t pathSecret 64 x privTree

/-- The private keys of a joiner (group.go:195-205). -/
def joinerPrivTreeE (cs : UInt16) (t : VTree) (myLeafIndex : Nat) (signer : UInt32) (encryptionKey : Bytes)
    (pathSecret : Option Bytes) : Effort (List (Option Bytes)) := do
  let privTree ← Res.setIdx (List.replicate t.length none) (nodeOfLeaf myLeafIndex) (some encryptionKey)
  match pathSecret with
  | none => return privTree
  | some ps =>
    processPathSecretE pr pc cs t privTree ps (commonAncestor (nodeOfLeaf myLeafIndex) (nodeOfLeaf signer.toNat))

/-- groupFromSecrets (group.go:129-220); groupInfo.verifySignature (group.go:927-934) verifies one signature. -/
def groupFromSecretsE (w : Welcome) (kp : KeyPairPackage) (gs : GroupSecrets) (rawTree : Option Bytes)
    (psks : List Bytes) (now : GoTime) : Effort GroupState := do
  let pskSecret ← extractPSKSecret pr w.cipherSuite gs.psks psks
  let info ← w.decryptGroupInfo pr gs.joinerSecret pskSecret
  let raw ← orErr (rawTree.or (findExtensionData info.extensions 2))
  let t ← unmarshal decTree raw
  let signerNode ← getLeaf t info.signer.toNat
  let signerNode ← orErr signerNode
  Effort.spend pc.verification
  let sigOk ← info.verifySignature pr signerNode.signatureKey
  Res.guardErr sigOk
  let tagOk ← info.verifyConfirmationTag pr gs.joinerSecret pskSecret
  Res.guardErr tagOk
  Res.guardErr (info.groupContext.cipherSuite == w.cipherSuite)
  verifyIntegrityE pr pc t info.groupContext now
  let ctx := info.groupContext
  let epochSecret ← ctx.extractEpochSecret pr gs.joinerSecret (some pskSecret)
  let initSecret ← deriveSecret pr ctx.cipherSuite epochSecret lblInit
  let interim ← nextInterimTranscriptHashE pr pc ctx.cipherSuite ctx.confirmedTranscriptHash info.confirmationTag
  let found ← findLeaf t kp.pub.leafNode
  let myLeafIndex ← orErr found
  let privTree ← joinerPrivTreeE pr pc ctx.cipherSuite t myLeafIndex info.signer kp.priv.encryptionKey gs.pathSecret
  let (heap, tree) := allocTree [] t
  return { heap,
           group := { tree, groupContext := ctx, interimTranscriptHash := interim, pskSecret, epochSecret,
                      initSecret, myLeafIndex := UInt32.ofNat myLeafIndex, privTree,
                      signaturePriv := kp.priv.signatureKey, pendingProposals := [] } }

/-- GroupFromWelcome (group.go:101-121). -/
def groupFromWelcomeE (w : Welcome) (kp : KeyPairPackage) (now : GoTime) : Effort GroupState := do
  let ref ← generateRefE pr pc kp.pub
  let gs ← decryptGroupSecretsE pr pc w ref kp.priv.initKey
  Res.guardErr gs.verifySingleReinitOrBranchPSK
  Res.guardErr (gs.psks.length == 0)
  groupFromSecretsE pr pc w kp gs none [] now

/-- signPrivateMessageContent (framing.go:757-769): one signature is made. -/
def signPrivateMessageContentE (cs : UInt16) (signKey : Bytes) (content : FramedContent)
    (ctx : GroupContext) (rand : Bytes) : Effort PrivateMessageContent := do
  Effort.spend pc.signing
  signPrivateMessageContent pr cs signKey content ctx rand

/-- groupInfo.sign (group.go:936-948): one signature is made. -/
def signInfoE (i : GroupInfo) (signerPriv rand : Bytes) : Effort GroupInfo := do
  Effort.spend pc.signing
  i.sign pr signerPriv rand

/-- The loop encrypting the group secrets to the new members (group.go:719-735); groupSecrets.encrypt (group.go:1062-1077) is one HPKE encryption. -/
def encryptSecretsLoopE (cs : UInt16) (gs : GroupSecrets) (encryptedGroupInfo : Bytes) (rand : Nat → Bytes) :
    Nat → List KeyPackage → Effort (List EncryptedGroupSecrets)
  | _, [] => Effort.lift (.ok [])
  | i, k :: ks => do
    let ref ← generateRefE pr pc k
    Effort.spend pc.sealing
    let ct ← gs.encrypt pr cs k.initKey encryptedGroupInfo (rand i)
    let rest ← encryptSecretsLoopE cs gs encryptedGroupInfo rand (i + 1) ks
    return { newMember := ref, encryptedGroupSecrets := ct } :: rest

/-- CreateWelcome once the proposals are applied (group.go:621-756). -/
def finishWelcomeE (g : Group) (h : Heap) (t : RTree) (keyPkgs : List KeyPackage) (r : WelcomeRand) :
    Effort (Welcome × Bytes) := do
  let cs := g.groupContext.cipherSuite
  let treeHash ← computeTreeHashLoopE pr pc cs (derefTree h t) [] 34 (root (treeNumLeaves (derefTree h t)))
  let d ← suite cs
  let commitSecret : Bytes := List.replicate d.kdf.size 0
  let pskSecret ← extractPSKSecret pr cs [] []
  let content := g.framedContent
    (.commit { proposals := keyPkgs.map fun k => .proposal (.add k), path := none })
  let c ← signPrivateMessageContentE pr pc cs g.signaturePriv content g.groupContext r.commitSign
  let a := c.authenticatedContent content
  let cth ← confirmedTranscriptHashE pr pc cs a.wireFormat a.content a.auth.signature g.interimTranscriptHash
  let newCtx := { g.groupContext with
    epoch := g.groupContext.epoch + 1, treeHash, confirmedTranscriptHash := cth }
  let joinerSecret ← newCtx.extractJoinerSecret pr g.initSecret commitSecret
  let epochSecret ← newCtx.extractEpochSecret pr joinerSecret (some pskSecret)
  let confirmationTag ← newCtx.signConfirmationTag pr epochSecret
  let c := { c with auth := { c.auth with confirmationTag } }
  let rawTree ← (encTree (derefTree h t) : Res Bytes)
  let info : GroupInfo := { groupContext := newCtx, extensions := [{ ty := 2, data := rawTree }],
                            confirmationTag, signer := g.myLeafIndex, signature := [] }
  let info ← signInfoE pr pc info g.signaturePriv r.infoSign
  let encryptedGroupInfo ← info.encrypt pr joinerSecret pskSecret
  let gs : GroupSecrets := { joinerSecret, pathSecret := none, psks := [] }
  let secrets ← encryptSecretsLoopE pr pc cs gs encryptedGroupInfo r.hpke 0 keyPkgs
  let rawMsg ← g.encryptPrivateMessage pr content c r.guard
  return ({ cipherSuite := cs, secrets, encryptedGroupInfo }, rawMsg)

/-- CreateWelcome (group.go:595-757), with what it costs. -/
def createWelcomeE (st : GroupState) (keyPkgs : List KeyPackage) (r : WelcomeRand) :
    (Res (Welcome × Bytes) × GroupState) × Nat :=
  if keyPkgs.length = 0 then ((.panic, st), 0)
  else
    match treeApply st.heap st.group.tree (keyPkgs.map .add) [st.group.myLeafIndex] with
    | .ok (h, t) =>
      let finish := finishWelcomeE pr pc st.group h t keyPkgs r
      ((finish.result, { st with heap := h }), finish.cost)
    | .err => ((.err, st), 0)
    | .panic => ((.panic, st), 0)
    | .hang => ((.hang, st), 0)

/-- CreateApplicationMessage (group.go:761-780). -/
def createApplicationMessageE (st : GroupState) (data sigRand : Bytes) (guard : Bytes4) : Effort Bytes := do
  let g := st.group
  let content := g.framedContent (.application data)
  let c ← signPrivateMessageContentE pr pc g.groupContext.cipherSuite g.signaturePriv content g.groupContext sigRand
  g.encryptPrivateMessage pr content c guard

end Mls
