import Verif.Model.JoinEffort
/-
CreateApplicationMessage (group.go:761-780) and processPrivateMessage (group.go:326-383) once more, with the calls of the KDF. As the library keeps no secret tree, each message derives the whole of it.
Counted are the calls of expandWithLabel (ciphersuite.go:167-181), each of which is one call of the KDF, and the verifications and makings of signatures.

Each definition below is the text of the definition of the same name in Model/Crypto.lean, Model/SecretTree.lean, Model/Framing.lean or Model/Group.lean over the monad `Effort`; Props/TalkEffort.lean proves that forgetting
the cost gives that definition back.
-/
namespace Mls

variable (pr : Prims) (pc : Prices)

/-- CipherSuite.expandWithLabel (ciphersuite.go:167-181). -/
def expandWithLabelK (cs : UInt16) (secret label context : Bytes) (length : UInt16) : Effort Bytes := do
  Effort.spend pc.expansion
  expandWithLabel pr cs secret label context length

/-- CipherSuite.deriveSecret (ciphersuite.go:183-186). -/
def deriveSecretK (cs : UInt16) (secret label : Bytes) : Effort Bytes := do
  let d ← suite cs
  expandWithLabelK pr pc cs secret label [] d.nh

/-- secretTree.deriveChildren (secret_tree.go:36-65). -/
def deriveChildrenK (cs : UInt16) : Nat → List (Option Bytes) → Nat → Effort (List (Option Bytes))
  | 0, _, _ => Effort.lift .hang
  | fuel + 1, tree, x =>
    match children x with
    | none => Effort.lift (.ok tree)
    | some (l, r) => do
      let parentSecret ← secretTreeGet tree x
      let d ← suite cs
      let leftSecret ← expandWithLabelK pr pc cs parentSecret lblTree lblLeft d.nh
      let rightSecret ← expandWithLabelK pr pc cs parentSecret lblTree lblRight d.nh
      let tree ← Res.setIdx tree l (some leftSecret)
      let tree ← Res.setIdx tree r (some rightSecret)
      let tree ← deriveChildrenK cs fuel tree l
      deriveChildrenK cs fuel tree r

/-- deriveSecretTree (secret_tree.go:29-34). -/
def deriveSecretTreeK (cs : UInt16) (n : Nat) (encryptionSecret : Bytes) :
    Effort (List (Option Bytes)) := do
  let tree ← Res.setIdx (List.replicate (width n) none) (root n) (some encryptionSecret)
  deriveChildrenK pr pc cs 34 tree (root n)

/-- secretTree.deriveRatchetRoot (secret_tree.go:80-85). -/
def deriveRatchetRootK (cs : UInt16) (tree : List (Option Bytes)) (ni : Nat) (label : Bytes) :
    Effort RatchetSecret := do
  let d ← suite cs
  let secret ← secretTreeGet tree ni
  let root ← expandWithLabelK pr pc cs secret label [] d.nh
  return { secret := root, generation := 0 }

/-- deriveTreeSecret (secret_tree.go:111-117). -/
def deriveTreeSecretK (cs : UInt16) (secret label : Bytes) (generation : UInt32) (length : UInt16) :
    Effort Bytes :=
  expandWithLabelK pr pc cs secret label (beBytes 4 generation.toNat) length

/-- ratchetSecret.deriveNonce (secret_tree.go:92-96). -/
def deriveNonceK (cs : UInt16) (s : RatchetSecret) : Effort Bytes := do
  let d ← suite cs
  deriveTreeSecretK pr pc cs s.secret lblNonce s.generation (UInt16.ofNat d.aead.nonceSize)

/-- ratchetSecret.deriveKey (secret_tree.go:98-102). -/
def deriveKeyK (cs : UInt16) (s : RatchetSecret) : Effort Bytes := do
  let d ← suite cs
  deriveTreeSecretK pr pc cs s.secret lblKey s.generation (UInt16.ofNat d.aead.keySize)

/-- ratchetSecret.deriveNext (secret_tree.go:104-109). -/
def deriveNextK (cs : UInt16) (s : RatchetSecret) : Effort RatchetSecret := do
  let d ← suite cs
  let next ← deriveTreeSecretK pr pc cs s.secret lblSecret s.generation d.nh
  return { secret := next, generation := s.generation + 1 }

/-- The loop of processPrivateMessage that advances the ratchet (group.go:364-369). -/
def fastForwardK (cs : UInt16) (target : UInt32) : Nat → RatchetSecret → Effort RatchetSecret
  | 0, s => if s.generation = target then Effort.lift (.ok s) else Effort.lift .hang
  | fuel + 1, s =>
    if s.generation = target then Effort.lift (.ok s)
    else do
      let s' ← deriveNextK pr pc cs s
      fastForwardK cs target fuel s'

/-- derivePrivateMessageKeyAndNonce (framing.go:643-658). -/
def derivePrivateMessageKeyAndNonceK (cs : UInt16) (secret : RatchetSecret) (reuseGuard : Bytes4) :
    Effort (Bytes × Bytes) := do
  let key ← deriveKeyK pr pc cs secret
  let nonce ← deriveNonceK pr pc cs secret
  let nonce ← xorGuard nonce reuseGuard
  return (key, nonce)

/-- expandSenderDataKey (framing.go:868-872). -/
def expandSenderDataKeyK (cs : UInt16) (senderDataSecret ciphertext : Bytes) : Effort Bytes := do
  let d ← suite cs
  let sample ← sampleCiphertext cs ciphertext
  expandWithLabelK pr pc cs senderDataSecret lblKey sample (UInt16.ofNat d.aead.keySize)

/-- expandSenderDataNonce (framing.go:874-878). -/
def expandSenderDataNonceK (cs : UInt16) (senderDataSecret ciphertext : Bytes) : Effort Bytes := do
  let d ← suite cs
  let sample ← sampleCiphertext cs ciphertext
  expandWithLabelK pr pc cs senderDataSecret lblNonce sample (UInt16.ofNat d.aead.nonceSize)

/-- privateMessage.decryptSenderData (framing.go:561-598). -/
def decryptSenderDataK (cs : UInt16) (m : PrivateMessage) (senderDataSecret : Bytes) :
    Effort SenderData := do
  let key ← expandSenderDataKeyK pr pc cs senderDataSecret m.ciphertext
  let nonce ← expandSenderDataNonceK pr pc cs senderDataSecret m.ciphertext
  let rawAAD ← (encSenderDataAAD m.groupID m.epoch m.contentType : Res Bytes)
  let raw ← aeadOpen pr cs key nonce m.encryptedSenderData rawAAD
  unmarshal SenderData.dec raw

/-- privateMessage.decryptContent (framing.go:600-641). -/
def decryptContentK (cs : UInt16) (m : PrivateMessage) (secret : RatchetSecret)
    (reuseGuard : Bytes4) : Effort PrivateMessageContent := do
  let (key, nonce) ← derivePrivateMessageKeyAndNonceK pr pc cs secret reuseGuard
  let rawAAD ← (encPrivateContentAAD m.groupID m.epoch m.contentType m.authenticatedData : Res Bytes)
  let raw ← aeadOpen pr cs key nonce m.ciphertext rawAAD
  decodePadded m.contentType raw

/-- processPrivateMessage up to the verified content (group.go:326-383). -/
def decryptPrivateMessageK (st : GroupState) (m : PrivateMessage) : Effort AuthenticatedContent := do
  let ctx := st.group.groupContext
  let cs := ctx.cipherSuite
  Res.guardErr (m.groupID == ctx.groupID)
  Res.guardErr (m.epoch == ctx.epoch)
  let senderDataSecret ← deriveSecretK pr pc cs st.group.epochSecret lblSenderData
  let sd ← decryptSenderDataK pr pc cs m senderDataSecret
  let encryptionSecret ← deriveSecretK pr pc cs st.group.epochSecret lblEncryption
  let secretTree ← deriveSecretTreeK pr pc cs (treeNumLeaves st.group.tree) encryptionSecret
  let secret ← deriveRatchetRootK pr pc cs secretTree (nodeOfLeaf sd.leafIndex.toNat) (ratchetLabel m.contentType)
  let secret ← fastForwardK pr pc cs sd.generation (2 ^ 32) secret
  let c ← decryptContentK pr pc cs m secret sd.reuseGuard
  let signerNode ← getLeaf st.vtree sd.leafIndex.toNat
  let signerNode ← orErr signerNode
  let a := m.authenticatedContent sd c
  Effort.spend pc.verification
  let sigOk ← a.verifySignature pr signerNode.signatureKey ctx
  Res.guardErr sigOk
  return a

/-- encryptPrivateMessageContent (framing.go:771-802). -/
def encryptPrivateMessageContentK (cs : UInt16) (secret : RatchetSecret) (content : FramedContent)
    (c : PrivateMessageContent) (reuseGuard : Bytes4) : Effort Bytes := do
  let plaintext ← (c.enc : Res Bytes)
  let (key, nonce) ← derivePrivateMessageKeyAndNonceK pr pc cs secret reuseGuard
  let rawAAD ← (encPrivateContentAAD content.groupID content.epoch content.content.ty
    content.authenticatedData : Res Bytes)
  aeadSeal pr cs key nonce plaintext rawAAD

/-- encryptSenderData (framing.go:804-836). -/
def encryptSenderDataK (cs : UInt16) (senderDataSecret : Bytes) (sd : SenderData) (content : FramedContent)
    (ciphertext : Bytes) : Effort Bytes := do
  let key ← expandSenderDataKeyK pr pc cs senderDataSecret ciphertext
  let nonce ← expandSenderDataNonceK pr pc cs senderDataSecret ciphertext
  let rawAAD ← (encSenderDataAAD content.groupID content.epoch content.content.ty : Res Bytes)
  let raw ← (sd.enc : Res Bytes)
  aeadSeal pr cs key nonce raw rawAAD

/-- encryptPrivateMessage (framing.go:514-531). -/
def encryptPrivateMessageK (cs : UInt16) (secret : RatchetSecret) (senderDataSecret : Bytes)
    (content : FramedContent) (c : PrivateMessageContent) (sd : SenderData) : Effort PrivateMessage := do
  let ciphertext ← encryptPrivateMessageContentK pr pc cs secret content c sd.reuseGuard
  let encryptedSenderData ← encryptSenderDataK pr pc cs senderDataSecret sd content ciphertext
  return { groupID := content.groupID, epoch := content.epoch, contentType := content.content.ty,
           authenticatedData := content.authenticatedData, encryptedSenderData, ciphertext }

/-- Group.encryptPrivateMessage (group.go:782-826). -/
def sealMessageK (g : Group) (content : FramedContent) (c : PrivateMessageContent)
    (guard : Bytes4) : Effort Bytes := do
  let cs := g.groupContext.cipherSuite
  let sd : SenderData := { leafIndex := g.myLeafIndex, generation := 0, reuseGuard := guard }
  let encryptionSecret ← deriveSecretK pr pc cs g.epochSecret lblEncryption
  let secretTree ← deriveSecretTreeK pr pc cs (treeNumLeaves g.tree) encryptionSecret
  let secret ← deriveRatchetRootK pr pc cs secretTree (nodeOfLeaf g.myLeafIndex.toNat)
    (ratchetLabel content.content.ty)
  let senderDataSecret ← deriveSecretK pr pc cs g.epochSecret lblSenderData
  let m ← encryptPrivateMessageK pr pc cs secret senderDataSecret content c sd
  (MlsMessage.enc { version := 1, body := .privateMessage m } : Res Bytes)

/-- CreateApplicationMessage (group.go:761-780). -/
def createApplicationMessageK (st : GroupState) (data sigRand : Bytes) (guard : Bytes4) : Effort Bytes := do
  let g := st.group
  let content := g.framedContent (.application data)
  let c ← signPrivateMessageContentE pr pc g.groupContext.cipherSuite g.signaturePriv content g.groupContext sigRand
  sealMessageK pr pc g content c guard

end Mls
