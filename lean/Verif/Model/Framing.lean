import Verif.Model.Tree
import Verif.Model.SecretTree
import Verif.Model.KeySchedule
/-
Model of the functions of framing.go that sign, verify, encrypt and decrypt messages, and of
key_package.go that sign and verify key packages. Types and encoders are in Types and Codec.
-/
namespace Mls

variable (pr : Prims)

/-- signAuthenticatedContent with signFramedContent (framing.go:269-281, 387-393). -/
def signAuthenticatedContent (cs : UInt16) (signKey : Bytes) (wf : WireFormat) (content : FramedContent)
    (ctx : GroupContext) (rand : Bytes) : Res AuthenticatedContent := do
  let rawContent ← (encFramedContentTBS wf content ctx : Res Bytes)
  let signature ← signWithLabel pr cs signKey lblFramedContentTBS rawContent rand
  return { wireFormat := wf, content, auth := { signature, confirmationTag := [] } }

/-- authenticatedContent.verifySignature (framing.go:319-321, 379-385). -/
def AuthenticatedContent.verifySignature (a : AuthenticatedContent) (verifKey : Bytes) (ctx : GroupContext) :
    Res Bool :=
  orFalse (encFramedContentTBS a.wireFormat a.content ctx) fun rawContent =>
    verifyWithLabel pr ctx.cipherSuite verifKey lblFramedContentTBS rawContent a.auth.signature

/-- authenticatedContent.generateProposalRef (framing.go:323-341). -/
def AuthenticatedContent.generateProposalRef (cs : UInt16) (a : AuthenticatedContent) : Res Bytes :=
  if a.content.content.ty ≠ .proposal then .panic
  else do
    let raw ← (a.enc : Res Bytes)
    refHash pr cs lblProposalRef raw

/-- framedContentAuthData.verifyConfirmationTag (framing.go:372-377); not called by the library. -/
def AuthData.verifyConfirmationTag (cs : UInt16) (a : AuthData)
    (confirmationKey confirmedTranscriptHash : Bytes) : Res Bool :=
  if a.confirmationTag.length = 0 then .ok false
  else verifyMAC pr cs confirmationKey confirmedTranscriptHash a.confirmationTag

/-- signPublicMessage (framing.go:418-427). -/
def signPublicMessage (cs : UInt16) (signKey : Bytes) (content : FramedContent) (ctx : GroupContext)
    (rand : Bytes) : Res PublicMessage := do
  let a ← signAuthenticatedContent pr cs signKey .publicMessage content ctx rand
  return { content := a.content, auth := a.auth, membershipTag := [] }

/-- publicMessage.authenticatedContent (framing.go:457-463). -/
def PublicMessage.authenticatedContent (m : PublicMessage) : AuthenticatedContent :=
  { wireFormat := .publicMessage, content := m.content, auth := m.auth }

/-- publicMessage.signMembershipTag (framing.go:472-482). -/
def PublicMessage.signMembershipTag (cs : UInt16) (m : PublicMessage) (membershipKey : Bytes)
    (ctx : GroupContext) : Res PublicMessage :=
  match m.content.sender with
  | .member _ => do
    let raw ← (m.encTBM ctx : Res Bytes)
    let tag ← signMAC pr cs membershipKey raw
    return { m with membershipTag := tag }
  | _ => .ok m

/-- publicMessage.verifyMembershipTag (framing.go:484-493). -/
def PublicMessage.verifyMembershipTag (m : PublicMessage) (membershipKey : Bytes) (ctx : GroupContext) :
    Res Bool :=
  match m.content.sender with
  | .member _ =>
    orFalse (m.encTBM ctx) fun raw => verifyMAC pr ctx.cipherSuite membershipKey raw m.membershipTag
  | _ => .ok true

/-- The loop `nonce[i] = nonce[i] ^ reuseGuard[i]` (framing.go:653-655). -/
def xorGuard (nonce : Bytes) (guard : Bytes4) : Res Bytes :=
  match nonce with
  | n0 :: n1 :: n2 :: n3 :: rest =>
    .ok ((n0 ^^^ guard.b0) :: (n1 ^^^ guard.b1) :: (n2 ^^^ guard.b2) :: (n3 ^^^ guard.b3) :: rest)
  | _ => .panic

/-- derivePrivateMessageKeyAndNonce (framing.go:643-658): key, nonce. -/
def derivePrivateMessageKeyAndNonce (cs : UInt16) (secret : RatchetSecret) (reuseGuard : Bytes4) :
    Res (Bytes × Bytes) := do
  let key ← secret.deriveKey pr cs
  let nonce ← secret.deriveNonce pr cs
  let nonce ← xorGuard nonce reuseGuard
  return (key, nonce)

/-- sampleCiphertext (framing.go:880-887). -/
def sampleCiphertext (cs : UInt16) (ciphertext : Bytes) : Res Bytes := do
  let d ← suite cs
  if ciphertext.length < d.kdf.size then return ciphertext
  else return ciphertext.take d.kdf.size

/-- expandSenderDataKey (framing.go:868-872). -/
def expandSenderDataKey (cs : UInt16) (senderDataSecret ciphertext : Bytes) : Res Bytes := do
  let d ← suite cs
  let sample ← sampleCiphertext cs ciphertext
  expandWithLabel pr cs senderDataSecret lblKey sample (UInt16.ofNat d.aead.keySize)

/-- expandSenderDataNonce (framing.go:874-878). -/
def expandSenderDataNonce (cs : UInt16) (senderDataSecret ciphertext : Bytes) : Res Bytes := do
  let d ← suite cs
  let sample ← sampleCiphertext cs ciphertext
  expandWithLabel pr cs senderDataSecret lblNonce sample (UInt16.ofNat d.aead.nonceSize)

/-- privateMessage.decryptSenderData (framing.go:561-598). -/
def PrivateMessage.decryptSenderData (cs : UInt16) (m : PrivateMessage) (senderDataSecret : Bytes) :
    Res SenderData := do
  let key ← expandSenderDataKey pr cs senderDataSecret m.ciphertext
  let nonce ← expandSenderDataNonce pr cs senderDataSecret m.ciphertext
  let rawAAD ← (encSenderDataAAD m.groupID m.epoch m.contentType : Res Bytes)
  let raw ← aeadOpen pr cs key nonce m.encryptedSenderData rawAAD
  unmarshal SenderData.dec raw

/-- Decoding of the content and check of the zero padding (framing.go:628-640). -/
def decodePadded (ct : ContentType) (raw : Bytes) : Res PrivateMessageContent :=
  match (PrivateMessageContent.dec ct).run raw with
  | (.ok c, rest) => if rest.all (· == 0) then .ok c else .err
  | (.err, _) => .err
  | (.panic, _) => .panic
  | (.hang, _) => .hang

/-- privateMessage.decryptContent (framing.go:600-641). -/
def PrivateMessage.decryptContent (cs : UInt16) (m : PrivateMessage) (secret : RatchetSecret)
    (reuseGuard : Bytes4) : Res PrivateMessageContent := do
  let (key, nonce) ← derivePrivateMessageKeyAndNonce pr cs secret reuseGuard
  let rawAAD ← (encPrivateContentAAD m.groupID m.epoch m.contentType m.authenticatedData : Res Bytes)
  let raw ← aeadOpen pr cs key nonce m.ciphertext rawAAD
  decodePadded m.contentType raw

/-- privateMessageContent.authenticatedContent (framing.go:749-755). -/
def PrivateMessageContent.authenticatedContent (c : PrivateMessageContent) (content : FramedContent) :
    AuthenticatedContent :=
  { wireFormat := .privateMessage, content, auth := c.auth }

/-- privateMessage.authenticatedContent (framing.go:660-674). -/
def PrivateMessage.authenticatedContent (m : PrivateMessage) (sd : SenderData) (c : PrivateMessageContent) :
    AuthenticatedContent :=
  c.authenticatedContent
    { groupID := m.groupID, epoch := m.epoch, sender := .member sd.leafIndex, authenticatedData := m.authenticatedData,
      content := c.content }

/-- signPrivateMessageContent (framing.go:757-769). -/
def signPrivateMessageContent (cs : UInt16) (signKey : Bytes) (content : FramedContent)
    (ctx : GroupContext) (rand : Bytes) : Res PrivateMessageContent := do
  let a ← signAuthenticatedContent pr cs signKey .privateMessage content ctx rand
  return { content := content.content, auth := a.auth }

/-- encryptPrivateMessageContent (framing.go:771-802). -/
def encryptPrivateMessageContent (cs : UInt16) (secret : RatchetSecret) (content : FramedContent)
    (c : PrivateMessageContent) (reuseGuard : Bytes4) : Res Bytes := do
  let plaintext ← (c.enc : Res Bytes)
  let (key, nonce) ← derivePrivateMessageKeyAndNonce pr cs secret reuseGuard
  let rawAAD ← (encPrivateContentAAD content.groupID content.epoch content.content.ty
    content.authenticatedData : Res Bytes)
  aeadSeal pr cs key nonce plaintext rawAAD

/-- encryptSenderData (framing.go:804-836). -/
def encryptSenderData (cs : UInt16) (senderDataSecret : Bytes) (sd : SenderData) (content : FramedContent)
    (ciphertext : Bytes) : Res Bytes := do
  let key ← expandSenderDataKey pr cs senderDataSecret ciphertext
  let nonce ← expandSenderDataNonce pr cs senderDataSecret ciphertext
  let rawAAD ← (encSenderDataAAD content.groupID content.epoch content.content.ty : Res Bytes)
  let raw ← (sd.enc : Res Bytes)
  aeadSeal pr cs key nonce raw rawAAD

/-- encryptPrivateMessage (framing.go:514-531). -/
def encryptPrivateMessage (cs : UInt16) (secret : RatchetSecret) (senderDataSecret : Bytes)
    (content : FramedContent) (c : PrivateMessageContent) (sd : SenderData) : Res PrivateMessage := do
  let ciphertext ← encryptPrivateMessageContent pr cs secret content c sd.reuseGuard
  let encryptedSenderData ← encryptSenderData pr cs senderDataSecret sd content ciphertext
  return { groupID := content.groupID, epoch := content.epoch, contentType := content.content.ty,
           authenticatedData := content.authenticatedData, encryptedSenderData, ciphertext }

/-- KeyPackage.sign (key_package.go:94-109), giving the signed key package. -/
def KeyPackage.sign (k : KeyPackage) (signerPriv rand : Bytes) : Res KeyPackage := do
  let rawTBS ← (k.encTBS : Res Bytes)
  let sig ← signWithLabel pr k.cipherSuite signerPriv lblKeyPackageTBS rawTBS rand
  return { k with signature := sig }

/-- KeyPackage.verifySignature (key_package.go:111-120). -/
def KeyPackage.verifySignature (k : KeyPackage) : Res Bool :=
  orFalse k.encTBS fun rawTBS =>
    verifyWithLabel pr k.cipherSuite k.leafNode.signatureKey lblKeyPackageTBS rawTBS k.signature

/-- leafNodeSource == leafNodeSourceKeyPackage (key_package.go:130). -/
def LeafNode.isKeyPackage (n : LeafNode) : Bool :=
  match n.source with
  | .keyPackage _ => true
  | _ => false

/-- leafNodeSource == leafNodeSourceCommit (group.go:461). -/
def LeafNode.isCommit (n : LeafNode) : Bool :=
  match n.source with
  | .commit _ => true
  | _ => false

/-- KeyPackage.verify (key_package.go:123-140). -/
def KeyPackage.verify (k : KeyPackage) (ctx : GroupContext) : Res Unit := do
  Res.guardErr (k.version == ctx.version)
  Res.guardErr (k.cipherSuite == ctx.cipherSuite)
  Res.guardErr k.leafNode.isKeyPackage
  let sigOk ← k.verifySignature pr
  Res.guardErr sigOk
  Res.guardErr (!(k.leafNode.encryptionKey == k.initKey))

/-- KeyPackage.GenerateRef (key_package.go:143-157). -/
def KeyPackage.generateRef (k : KeyPackage) : Res Bytes := do
  let raw ← (k.enc : Res Bytes)
  refHash pr k.cipherSuite lblKeyPackageRef raw

/-- PrivateKeyPackage (key_package.go:168-172). -/
structure PrivateKeyPackage where
  initKey : Bytes
  encryptionKey : Bytes
  signatureKey : Bytes
  deriving DecidableEq, Repr, Inhabited

/-- KeyPairPackage (key_package.go:175-178). -/
structure KeyPairPackage where
  pub : KeyPackage
  priv : PrivateKeyPackage
  deriving DecidableEq, Repr, Inhabited

/-- The randomness drawn by GenerateKeyPairPackage, and the two readings of the clock. -/
structure KeyPackageRand where
  init : Bytes
  enc : Bytes
  sig : Bytes
  leafSign : Bytes
  pkgSign : Bytes
  now1 : GoTime
  now2 : GoTime
  deriving Inhabited

/-- The leaf node of a generated key package, before it is signed (key_package.go:204-218). -/
def generatedLeaf (cs : UInt16) (credential : Credential) (encPub sigPub : Bytes) (now1 now2 : GoTime) :
    LeafNode :=
  { encryptionKey := encPub, signatureKey := sigPub, credential,
    capabilities := { versions := [1], cipherSuites := [cs], extensions := [2],
                      proposals := [1, 2, 3], credentials := [1] },
    source := .keyPackage (newLifetime now1 (now2.add (30 * 24 * 3600 * 1000000000))),
    extensions := [], signature := [] }

/-- GenerateKeyPairPackage (key_package.go:181-234). -/
def generateKeyPairPackage (cs : UInt16) (credential : Credential) (r : KeyPackageRand) :
    Res KeyPairPackage := do
  let (initPub, initPriv) ← generateEncryptionKeyPair pr cs r.init
  let (encPub, encPriv) ← generateEncryptionKeyPair pr cs r.enc
  let d ← suite cs
  let (sigPub, sigPriv) := pr.sigKeyPair d.sig r.sig
  let leaf ← (generatedLeaf cs credential encPub sigPub r.now1 r.now2).sign pr cs [] 0 sigPriv r.leafSign
  let keyPkg : KeyPackage := { version := 1, cipherSuite := cs, initKey := initPub, leafNode := leaf,
                               extensions := [], signature := [] }
  let keyPkg ← keyPkg.sign pr sigPriv r.pkgSign
  return { pub := keyPkg,
           priv := { initKey := initPriv, encryptionKey := encPriv, signatureKey := sigPriv } }

end Mls
