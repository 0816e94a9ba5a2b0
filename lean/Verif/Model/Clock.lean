import Verif.Model.Group
/-
GroupFromWelcome with a clock that is read anew for each leaf with a lifetime (tree.go:419-423), as in the code, where
options.now is nil and time.Now is called. In the rest of the model one reading stands for the whole call.
-/
namespace Mls

variable (pr : Prims)

/-- The loop of verifyIntegrity over the leaves (tree.go:776-797). `clock i` is what the clock shows when the `i`-th leaf is
verified. -/
def verifyLeavesLoopAt (ctx : GroupContext) (clock : Nat → GoTime) (creds : List UInt16) (t : VTree) :
    Nat → Nat → List Bytes → List Bytes → Res (List Bytes)
  | 0, _, _, encKeys => .ok encKeys
  | k + 1, li, sigKeys, encKeys => do
    let n ← getLeaf t li
    match n with
    | none => verifyLeavesLoopAt ctx clock creds t k (li + 1) sigKeys encKeys
    | some l =>
      l.verify pr { cipherSuite := ctx.cipherSuite, groupID := ctx.groupID,
                    leafIndex := UInt32.ofNat li, supportedCreds := creds,
                    signatureKeys := sigKeys, encryptionKeys := encKeys, now := clock li }
      verifyLeavesLoopAt ctx clock creds t k (li + 1) (l.signatureKey :: sigKeys) (l.encryptionKey :: encKeys)

/-- ratchetTree.verifyIntegrity (tree.go:759-828). -/
def verifyIntegrityAt (t : VTree) (ctx : GroupContext) (clock : Nat → GoTime) : Res Unit := do
  let h ← computeRootTreeHash pr ctx.cipherSuite t
  Res.guardErr (h == ctx.treeHash)
  let phOk ← verifyParentHashes pr ctx.cipherSuite t
  Res.guardErr phOk
  let creds ← supportedCreds t
  let encKeys ← verifyLeavesLoopAt pr ctx clock creds t (treeNumLeaves t) 0 [] []
  verifyParentsLoop t (treeNumLeaves t) 0 t encKeys

/-- groupFromSecrets (group.go:129-220). -/
def groupFromSecretsAt (w : Welcome) (kp : KeyPairPackage) (gs : GroupSecrets) (rawTree : Option Bytes)
    (psks : List Bytes) (clock : Nat → GoTime) : Res GroupState := do
  let pskSecret ← extractPSKSecret pr w.cipherSuite gs.psks psks
  let info ← w.decryptGroupInfo pr gs.joinerSecret pskSecret
  let raw ← orErr (rawTree.or (findExtensionData info.extensions 2))
  let t ← unmarshal decTree raw
  let signerNode ← getLeaf t info.signer.toNat
  let signerNode ← orErr signerNode
  let sigOk ← info.verifySignature pr signerNode.signatureKey
  Res.guardErr sigOk
  let tagOk ← info.verifyConfirmationTag pr gs.joinerSecret pskSecret
  Res.guardErr tagOk
  Res.guardErr (info.groupContext.cipherSuite == w.cipherSuite)
  verifyIntegrityAt pr t info.groupContext clock
  let ctx := info.groupContext
  let epochSecret ← ctx.extractEpochSecret pr gs.joinerSecret (some pskSecret)
  let initSecret ← deriveSecret pr ctx.cipherSuite epochSecret lblInit
  let interim ← nextInterimTranscriptHash pr ctx.cipherSuite ctx.confirmedTranscriptHash info.confirmationTag
  let found ← findLeaf t kp.pub.leafNode
  let myLeafIndex ← orErr found
  let privTree ← joinerPrivTree pr ctx.cipherSuite t myLeafIndex info.signer kp.priv.encryptionKey gs.pathSecret
  let (heap, tree) := allocTree [] t
  return { heap,
           group := { tree, groupContext := ctx, interimTranscriptHash := interim, pskSecret, epochSecret,
                      initSecret, myLeafIndex := UInt32.ofNat myLeafIndex, privTree,
                      signaturePriv := kp.priv.signatureKey, pendingProposals := [] } }

/-- GroupFromWelcome (group.go:101-121), where the clock shows `clock i` when the `i`-th leaf is verified. -/
def groupFromWelcomeAt (w : Welcome) (kp : KeyPairPackage) (clock : Nat → GoTime) : Res GroupState := do
  let ref ← kp.pub.generateRef pr
  let gs ← w.decryptGroupSecrets pr ref kp.priv.initKey
  Res.guardErr gs.verifySingleReinitOrBranchPSK
  Res.guardErr (gs.psks.length == 0)
  groupFromSecretsAt pr w kp gs none [] clock

end Mls
