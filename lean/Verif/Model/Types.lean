import Verif.Model.Wire
/-
Data types. A Go struct with a tag and one pointer per variant becomes an
inductive type (all fields are unexported, so only coherent values exist,
apart from the zero `Credential{}`, see `Credential.other`).
-/
namespace Mls

/-- Credential (crypto.go:26-30). `other ty` is a credential with an invalid type
such as the zero value `Credential{}`, which a caller can build. -/
inductive Credential where
  | basic (identity : Bytes)
  | x509 (certificates : List Bytes)
  | other (ty : UInt16)
  deriving DecidableEq, Repr, Inhabited

/-- credentialType of a credential (crypto.go:17-23). -/
def Credential.ty : Credential → UInt16
  | .basic _ => 1
  | .x509 _ => 2
  | .other t => t

/-- hpkeCiphertext (crypto.go:82-85). -/
structure HpkeCiphertext where
  kemOutput : Bytes
  ciphertext : Bytes
  deriving DecidableEq, Repr, Inhabited

/-- parentNode (tree.go:12-16). -/
structure ParentNode where
  encryptionKey : Bytes
  parentHash : Bytes
  unmergedLeaves : List UInt32
  deriving DecidableEq, Repr, Inhabited

/-- capabilities (tree.go:83-89). -/
structure Capabilities where
  versions : List UInt16
  cipherSuites : List UInt16
  extensions : List UInt16
  proposals : List UInt16
  credentials : List UInt16
  deriving DecidableEq, Repr, Inhabited

/-- lifetime (tree.go:183-185). -/
structure Lifetime where
  notBefore : UInt64
  notAfter : UInt64
  deriving DecidableEq, Repr, Inhabited

/-- extension (tree.go:238-241). -/
structure Extension where
  ty : UInt16
  data : Bytes
  deriving DecidableEq, Repr, Inhabited

/-- leafNodeSource with the field it selects (tree.go:59-65, 279-281). -/
inductive LeafNodeSource where
  | keyPackage (lifetime : Lifetime)
  | update
  | commit (parentHash : Bytes)
  deriving DecidableEq, Repr, Inhabited

/-- leafNode (tree.go:273-285). -/
structure LeafNode where
  encryptionKey : Bytes
  signatureKey : Bytes
  credential : Credential
  capabilities : Capabilities
  source : LeafNodeSource
  extensions : List Extension
  signature : Bytes
  deriving DecidableEq, Repr, Inhabited

/-- leafNode.parentHash: nil unless the source is commit (tree.go:281). -/
def LeafNode.parentHash (n : LeafNode) : Bytes :=
  match n.source with
  | .commit h => h
  | _ => []

/-- updatePathNode (tree.go:460-463). -/
structure UpdatePathNode where
  encryptionKey : Bytes
  encryptedPathSecret : List HpkeCiphertext
  deriving DecidableEq, Repr, Inhabited

/-- updatePath (tree.go:515-518). -/
structure UpdatePath where
  leafNode : LeafNode
  nodes : List UpdatePathNode
  deriving DecidableEq, Repr, Inhabited

/-- node (tree.go:567-571), by value. -/
inductive Node where
  | leaf (n : LeafNode)
  | parent (n : ParentNode)
  deriving DecidableEq, Repr, Inhabited

/-- KeyPackage (key_package.go:16-23). -/
structure KeyPackage where
  version : UInt16
  cipherSuite : UInt16
  initKey : Bytes
  leafNode : LeafNode
  extensions : List Extension
  signature : Bytes
  deriving DecidableEq, Repr, Inhabited

/-- resumptionPSKUsage (key_schedule.go:198-204). -/
inductive PskUsage where
  | application
  | reinit
  | branch
  deriving DecidableEq, Repr, Inhabited

/-- pskType with the fields it selects (key_schedule.go:175-180, 223-231). -/
inductive PskKind where
  | external (pskID : Bytes)
  | resumption (usage : PskUsage) (groupID : Bytes) (epoch : UInt64)
  deriving DecidableEq, Repr, Inhabited

/-- preSharedKeyID (key_schedule.go:222-234). -/
structure PreSharedKeyID where
  kind : PskKind
  nonce : Bytes
  deriving DecidableEq, Repr, Inhabited

/-- reInit (proposal.go:160-165). -/
structure ReInit where
  groupID : Bytes
  version : UInt16
  cipherSuite : UInt16
  extensions : List Extension
  deriving DecidableEq, Repr, Inhabited

/-- proposal (proposal.go:40-49). -/
inductive Proposal where
  | add (keyPackage : KeyPackage)
  | update (leafNode : LeafNode)
  | remove (removed : UInt32)
  | psk (id : PreSharedKeyID)
  | reInit (r : ReInit)
  | externalInit (kemOutput : Bytes)
  | groupContextExtensions (exts : List Extension)
  deriving DecidableEq, Repr, Inhabited

/-- proposalOrRef (proposal.go:255-259). -/
inductive ProposalOrRef where
  | proposal (p : Proposal)
  | reference (ref : Bytes)
  deriving DecidableEq, Repr, Inhabited

/-- commit (group.go:851-854). -/
structure Commit where
  proposals : List ProposalOrRef
  path : Option UpdatePath
  deriving DecidableEq, Repr, Inhabited

/-- sender (framing.go:67-71). -/
inductive Sender where
  | member (leafIndex : UInt32)
  | external (senderIndex : UInt32)
  | newMemberProposal
  | newMemberCommit
  deriving DecidableEq, Repr, Inhabited

/-- sender.leafIndex: zero unless the sender is a member (framing.go:69). -/
def Sender.leafIndex : Sender → UInt32
  | .member li => li
  | _ => 0

/-- contentType (framing.go:18-24). -/
inductive ContentType where
  | application
  | proposal
  | commit
  deriving DecidableEq, Repr, Inhabited

/-- The content selected by contentType (framing.go:142-145). -/
inductive Content where
  | application (data : Bytes)
  | proposal (p : Proposal)
  | commit (c : Commit)
  deriving DecidableEq, Repr, Inhabited

/-- contentType of a content (framing.go:142). -/
def Content.ty : Content → ContentType
  | .application _ => .application
  | .proposal _ => .proposal
  | .commit _ => .commit

/-- framedContent (framing.go:136-146). -/
structure FramedContent where
  groupID : Bytes
  epoch : UInt64
  sender : Sender
  authenticatedData : Bytes
  content : Content
  deriving DecidableEq, Repr, Inhabited

/-- framedContentAuthData (framing.go:343-346). -/
structure AuthData where
  signature : Bytes
  confirmationTag : Bytes
  deriving DecidableEq, Repr, Inhabited

/-- wireFormat (framing.go:101-110). -/
inductive WireFormat where
  | publicMessage
  | privateMessage
  | welcome
  | groupInfo
  | keyPackage
  deriving DecidableEq, Repr, Inhabited

/-- authenticatedContent (framing.go:263-267). -/
structure AuthenticatedContent where
  wireFormat : WireFormat
  content : FramedContent
  auth : AuthData
  deriving DecidableEq, Repr, Inhabited

/-- publicMessage (framing.go:412-416). -/
structure PublicMessage where
  content : FramedContent
  auth : AuthData
  membershipTag : Bytes
  deriving DecidableEq, Repr, Inhabited

/-- privateMessage (framing.go:505-512). -/
structure PrivateMessage where
  groupID : Bytes
  epoch : UInt64
  contentType : ContentType
  authenticatedData : Bytes
  encryptedSenderData : Bytes
  ciphertext : Bytes
  deriving DecidableEq, Repr, Inhabited

/-- privateMessageContent (framing.go:702-708). -/
structure PrivateMessageContent where
  content : Content
  auth : AuthData
  deriving DecidableEq, Repr, Inhabited

/-- A Go `[4]byte` (framing.go:841). -/
structure Bytes4 where
  b0 : UInt8
  b1 : UInt8
  b2 : UInt8
  b3 : UInt8
  deriving DecidableEq, Repr, Inhabited

/-- The slice `x[:]` of a `[4]byte`. -/
def Bytes4.toBytes (x : Bytes4) : Bytes := [x.b0, x.b1, x.b2, x.b3]

/-- senderData (framing.go:838-842). -/
structure SenderData where
  leafIndex : UInt32
  generation : UInt32
  reuseGuard : Bytes4
  deriving DecidableEq, Repr, Inhabited

/-- groupContext (key_schedule.go:10-18). -/
structure GroupContext where
  version : UInt16
  cipherSuite : UInt16
  groupID : Bytes
  epoch : UInt64
  treeHash : Bytes
  confirmedTranscriptHash : Bytes
  extensions : List Extension
  deriving DecidableEq, Repr, Inhabited

/-- groupInfo (group.go:894-900). -/
structure GroupInfo where
  groupContext : GroupContext
  extensions : List Extension
  confirmationTag : Bytes
  signer : UInt32
  signature : Bytes
  deriving DecidableEq, Repr, Inhabited

/-- groupSecrets (group.go:1003-1007); `pathSecret` is nil or not. -/
structure GroupSecrets where
  joinerSecret : Bytes
  pathSecret : Option Bytes
  psks : List PreSharedKeyID
  deriving DecidableEq, Repr, Inhabited

/-- encryptedGroupSecrets (group.go:1220-1223). -/
structure EncryptedGroupSecrets where
  newMember : Bytes
  encryptedGroupSecrets : HpkeCiphertext
  deriving DecidableEq, Repr, Inhabited

/-- Welcome (group.go:1081-1085). -/
structure Welcome where
  cipherSuite : UInt16
  secrets : List EncryptedGroupSecrets
  encryptedGroupInfo : Bytes
  deriving DecidableEq, Repr, Inhabited

/-- The body of an mlsMessage selected by its wire format (framing.go:199-207). -/
inductive MessageBody where
  | publicMessage (m : PublicMessage)
  | privateMessage (m : PrivateMessage)
  | welcome (w : Welcome)
  | groupInfo (i : GroupInfo)
  | keyPackage (k : KeyPackage)
  deriving DecidableEq, Repr, Inhabited

/-- mlsMessage (framing.go:199-207). -/
structure MlsMessage where
  version : UInt16
  body : MessageBody
  deriving DecidableEq, Repr, Inhabited

end Mls
