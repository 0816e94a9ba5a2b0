import Verif.Model.Types
/-
Encoders (marshal) and decoders (unmarshal) of every wire type.
Decoders keep the Go structure: a tag is read and validated, then switched on;
the `default: panic("unreachable")` arms are kept.
-/
namespace Mls

/-- Credential.unmarshal (crypto.go:41-66). -/
def Credential.dec : P Credential := do
  let ty ← readU16
  if ty == 1 then
    let identity ← readOpaqueVec
    return .basic identity
  else if ty == 2 then
    let certs ← readVector readOpaqueVec
    return .x509 certs
  else P.fail

/-- Credential.marshal (crypto.go:68-80). -/
def Credential.enc (c : Credential) : Enc :=
  match c with
  | .basic identity => addU16 1 ++ writeOpaqueVec identity
  | .x509 certs => addU16 2 ++ writeVector writeOpaqueVec certs
  | .other _ => .panic

/-- hpkeCiphertext.unmarshal (crypto.go:87-93). -/
def HpkeCiphertext.dec : P HpkeCiphertext := do
  let kemOutput ← readOpaqueVec
  let ciphertext ← readOpaqueVec
  return { kemOutput, ciphertext }

/-- hpkeCiphertext.marshal (crypto.go:95-98). -/
def HpkeCiphertext.enc (h : HpkeCiphertext) : Enc :=
  writeOpaqueVec h.kemOutput ++ writeOpaqueVec h.ciphertext

/-- parentNode.unmarshal (tree.go:18-31). -/
def ParentNode.dec : P ParentNode := do
  let encryptionKey ← readOpaqueVec
  let parentHash ← readOpaqueVec
  let unmergedLeaves ← readVector readU32
  return { encryptionKey, parentHash, unmergedLeaves }

/-- parentNode.marshal (tree.go:33-39). -/
def ParentNode.enc (n : ParentNode) : Enc :=
  writeOpaqueVec n.encryptionKey ++ writeOpaqueVec n.parentHash ++
    writeVector addU32 n.unmergedLeaves

/-- leafNodeSource.unmarshal (tree.go:67-77); leafNodeSource.marshal (tree.go:79-81) is an addU8 below. -/
def leafNodeSourceTag : P UInt8 := do
  let t ← readU8
  if t == 1 || t == 2 || t == 3 then return t else P.fail

/-- capabilities.unmarshal (tree.go:91-157). -/
def Capabilities.dec : P Capabilities := do
  let versions ← readVector readU16
  let cipherSuites ← readVector readU16
  let extensions ← readVector readU16
  let proposals ← readVector readU16
  let credentials ← readVector readU16
  return { versions, cipherSuites, extensions, proposals, credentials }

/-- capabilities.marshal (tree.go:159-179). -/
def Capabilities.enc (c : Capabilities) : Enc :=
  writeVector addU16 c.versions ++ writeVector addU16 c.cipherSuites ++
    writeVector addU16 c.extensions ++ writeVector addU16 c.proposals ++
    writeVector addU16 c.credentials

/-- lifetime.unmarshal (tree.go:194-200). -/
def Lifetime.dec : P Lifetime := do
  let notBefore ← readU64
  let notAfter ← readU64
  return { notBefore, notAfter }

/-- lifetime.marshal (tree.go:202-205). -/
def Lifetime.enc (l : Lifetime) : Enc := addU64 l.notBefore ++ addU64 l.notAfter

/-- One element of unmarshalExtensionVec (tree.go:245-252). -/
def Extension.dec : P Extension := do
  let ty ← readU16
  let data ← readOpaqueVec
  return { ty, data }

/-- One element of marshalExtensionVec (tree.go:257-261). -/
def Extension.enc (e : Extension) : Enc := addU16 e.ty ++ writeOpaqueVec e.data

/-- unmarshalExtensionVec (tree.go:243-254). -/
def decExtensions : P (List Extension) := readVector Extension.dec

/-- marshalExtensionVec (tree.go:256-262). -/
def encExtensions (l : List Extension) : Enc := writeVector Extension.enc l

/-- The switch on leafNodeSource in leafNode.unmarshal (tree.go:304-316). -/
def LeafNodeSource.decBody (t : UInt8) : P LeafNodeSource :=
  if t == 1 then do
    let lt ← Lifetime.dec
    return .keyPackage lt
  else if t == 3 then do
    let h ← readOpaqueVec
    return .commit h
  else return .update

/-- leafNode.unmarshal (tree.go:287-329). -/
def LeafNode.dec : P LeafNode := do
  let encryptionKey ← readOpaqueVec
  let signatureKey ← readOpaqueVec
  let credential ← Credential.dec
  let capabilities ← Capabilities.dec
  let t ← leafNodeSourceTag
  let source ← LeafNodeSource.decBody t
  let extensions ← decExtensions
  let signature ← readOpaqueVec
  return { encryptionKey, signatureKey, credential, capabilities, source, extensions, signature }

/-- leafNodeSource tag and selected field in marshalBase (tree.go:336-342). -/
def LeafNodeSource.enc (s : LeafNodeSource) : Enc :=
  match s with
  | .keyPackage lt => addU8 1 ++ lt.enc
  | .update => addU8 2
  | .commit h => addU8 3 ++ writeOpaqueVec h

/-- leafNode.marshalBase (tree.go:331-344). -/
def LeafNode.encBase (n : LeafNode) : Enc :=
  writeOpaqueVec n.encryptionKey ++ writeOpaqueVec n.signatureKey ++
    n.credential.enc ++ n.capabilities.enc ++ n.source.enc ++ encExtensions n.extensions

/-- leafNode.marshal (tree.go:346-349). -/
def LeafNode.enc (n : LeafNode) : Enc := n.encBase ++ writeOpaqueVec n.signature

/-- leafNodeTBS.marshal (tree.go:359-366). -/
def LeafNode.encTBS (n : LeafNode) (groupID : Bytes) (leafIndex : UInt32) : Enc :=
  match n.source with
  | .keyPackage _ => n.encBase
  | _ => n.encBase ++ writeOpaqueVec groupID ++ addU32 leafIndex

/-- updatePathNode.unmarshal (tree.go:465-480). -/
def UpdatePathNode.dec : P UpdatePathNode := do
  let encryptionKey ← readOpaqueVec
  let encryptedPathSecret ← readVector HpkeCiphertext.dec
  return { encryptionKey, encryptedPathSecret }

/-- updatePathNode.marshal (tree.go:482-487). -/
def UpdatePathNode.enc (n : UpdatePathNode) : Enc :=
  writeOpaqueVec n.encryptionKey ++ writeVector HpkeCiphertext.enc n.encryptedPathSecret

/-- updatePath.unmarshal (tree.go:520-535). -/
def UpdatePath.dec : P UpdatePath := do
  let leafNode ← LeafNode.dec
  let nodes ← readVector UpdatePathNode.dec
  return { leafNode, nodes }

/-- updatePath.marshal (tree.go:537-542). -/
def UpdatePath.enc (u : UpdatePath) : Enc :=
  u.leafNode.enc ++ writeVector UpdatePathNode.enc u.nodes

/-- nodeType.unmarshal (tree.go:551-561); nodeType.marshal (tree.go:563-565) is an addU8 below. -/
def nodeTypeTag : P UInt8 := do
  let t ← readU8
  if t == 1 || t == 2 then return t else P.fail

/-- node.unmarshal (tree.go:573-590). -/
def Node.dec : P Node := do
  let t ← nodeTypeTag
  if t == 1 then
    let n ← LeafNode.dec
    return .leaf n
  else if t == 2 then
    let n ← ParentNode.dec
    return .parent n
  else P.panic

/-- node.marshal (tree.go:592-602). -/
def Node.enc (n : Node) : Enc :=
  match n with
  | .leaf l => addU8 1 ++ l.enc
  | .parent p => addU8 2 ++ p.enc

/-- One element of ratchetTree.unmarshal (tree.go:623-636). -/
def decOptNode : P (Option Node) := do
  let hasNode ← readOptional
  if hasNode then
    let n ← Node.dec
    return some n
  else return none

/-- One element of ratchetTree.marshal (tree.go:656-662). -/
def encOptNode (n : Option Node) : Enc :=
  match n with
  | some n => writeOptional true ++ n.enc
  | none => writeOptional false

/-- KeyPackage.unmarshal (key_package.go:50-79). The failed read of the
signature (line 74) returns the variable `err`, which is nil there: the decoder
succeeds with an empty signature and with the input as far as it was read. -/
def KeyPackage.dec : P KeyPackage := do
  let version ← readU16
  let cipherSuite ← readU16
  let initKey ← readOpaqueVec
  if version != 1 then P.fail
  else
    let leafNode ← LeafNode.dec
    let extensions ← decExtensions
    let signature? ← P.attempt readOpaqueVec
    return { version, cipherSuite, initKey, leafNode, extensions, signature := signature?.getD [] }

/-- KeyPackage.marshalTBS (key_package.go:81-87). -/
def KeyPackage.encTBS (k : KeyPackage) : Enc :=
  addU16 k.version ++ addU16 k.cipherSuite ++ writeOpaqueVec k.initKey ++ k.leafNode.enc ++
    encExtensions k.extensions

/-- KeyPackage.marshal (key_package.go:89-92). -/
def KeyPackage.enc (k : KeyPackage) : Enc := k.encTBS ++ writeOpaqueVec k.signature

/-- pskType.unmarshal (key_schedule.go:182-192); pskType.marshal (key_schedule.go:194-196) is an addU8 below. -/
def pskTypeTag : P UInt8 := do
  let t ← readU8
  if t == 1 || t == 2 then return t else P.fail

/-- resumptionPSKUsage.unmarshal (key_schedule.go:206-216). -/
def PskUsage.dec : P PskUsage := do
  let t ← readU8
  if t == 1 then return .application
  else if t == 2 then return .reinit
  else if t == 3 then return .branch
  else P.fail

/-- resumptionPSKUsage.marshal (key_schedule.go:218-220). -/
def PskUsage.enc (u : PskUsage) : Enc :=
  match u with
  | .application => addU8 1
  | .reinit => addU8 2
  | .branch => addU8 3

/-- preSharedKeyID.unmarshal (key_schedule.go:236-264). -/
def PreSharedKeyID.dec : P PreSharedKeyID := do
  let t ← pskTypeTag
  let kind ← (if t == 1 then do
      let pskID ← readOpaqueVec
      return PskKind.external pskID
    else if t == 2 then do
      let usage ← PskUsage.dec
      let groupID ← readOpaqueVec
      let epoch ← readU64
      return PskKind.resumption usage groupID epoch
    else P.panic)
  let nonce ← readOpaqueVec
  return { kind, nonce }

/-- preSharedKeyID.marshal (key_schedule.go:266-279). -/
def PreSharedKeyID.enc (id : PreSharedKeyID) : Enc :=
  (match id.kind with
    | .external pskID => addU8 1 ++ writeOpaqueVec pskID
    | .resumption usage groupID epoch =>
      addU8 2 ++ usage.enc ++ writeOpaqueVec groupID ++ addU64 epoch) ++
    writeOpaqueVec id.nonce

/-- reInit.unmarshal (proposal.go:167-181). -/
def ReInit.dec : P ReInit := do
  let groupID ← readOpaqueVec
  let version ← readU16
  let cipherSuite ← readU16
  let extensions ← decExtensions
  return { groupID, version, cipherSuite, extensions }

/-- reInit.marshal (proposal.go:183-188). -/
def ReInit.enc (r : ReInit) : Enc :=
  writeOpaqueVec r.groupID ++ addU16 r.version ++ addU16 r.cipherSuite ++ encExtensions r.extensions

/-- proposalType.unmarshal (proposal.go:24-34); proposalType.marshal (proposal.go:36-38) is an addU16 below. -/
def proposalTypeTag : P UInt16 := do
  let t ← readU16
  if t == 1 || t == 2 || t == 3 || t == 4 || t == 5 || t == 6 || t == 7 then return t else P.fail

/-- proposal.unmarshal (proposal.go:51-81), with add/update/remove/preSharedKey/
externalInit/groupContextExtensions.unmarshal (proposal.go:109-112, proposal.go:122-125, proposal.go:135-141,
proposal.go:151-154, proposal.go:194-200, proposal.go:210-220) inlined. -/
def Proposal.dec : P Proposal := do
  let t ← proposalTypeTag
  if t == 1 then do let k ← KeyPackage.dec; return .add k
  else if t == 2 then do let n ← LeafNode.dec; return .update n
  else if t == 3 then do let r ← readU32; return .remove r
  else if t == 4 then do let id ← PreSharedKeyID.dec; return .psk id
  else if t == 5 then do let r ← ReInit.dec; return .reInit r
  else if t == 6 then do let k ← readOpaqueVec; return .externalInit k
  else if t == 7 then do let e ← decExtensions; return .groupContextExtensions e
  else P.panic

/-- proposal.marshal (proposal.go:83-103) with the marshal methods of the
variants (proposal.go:114-116, 127-129, 143-145, 156-158, 202-204, 222-224). -/
def Proposal.enc (p : Proposal) : Enc :=
  match p with
  | .add k => addU16 1 ++ k.enc
  | .update n => addU16 2 ++ n.enc
  | .remove r => addU16 3 ++ addU32 r
  | .psk id => addU16 4 ++ id.enc
  | .reInit r => addU16 5 ++ r.enc
  | .externalInit k => addU16 6 ++ writeOpaqueVec k
  | .groupContextExtensions e => addU16 7 ++ encExtensions e

/-- proposalOrRefType.unmarshal (proposal.go:233-243); proposalOrRefType.marshal (proposal.go:245-247) is an addU8 below. -/
def proposalOrRefTag : P UInt8 := do
  let t ← readU8
  if t == 1 || t == 2 then return t else P.fail

/-- proposalOrRef.unmarshal (proposal.go:261-280). -/
def ProposalOrRef.dec : P ProposalOrRef := do
  let t ← proposalOrRefTag
  if t == 1 then do let p ← Proposal.dec; return .proposal p
  else if t == 2 then do let r ← readOpaqueVec; return .reference r
  else P.panic

/-- proposalOrRef.marshal (proposal.go:282-292). -/
def ProposalOrRef.enc (p : ProposalOrRef) : Enc :=
  match p with
  | .proposal p => addU8 1 ++ p.enc
  | .reference r => addU8 2 ++ writeOpaqueVec r

/-- commit.unmarshal (group.go:856-882). -/
def Commit.dec : P Commit := do
  let proposals ← readVector ProposalOrRef.dec
  let hasPath ← readOptional
  if hasPath then
    let path ← UpdatePath.dec
    return { proposals, path := some path }
  else return { proposals, path := none }

/-- commit.marshal (group.go:884-892). -/
def Commit.enc (c : Commit) : Enc :=
  writeVector ProposalOrRef.enc c.proposals ++
    (match c.path with
      | some p => writeOptional true ++ p.enc
      | none => writeOptional false)

/-- contentType.unmarshal (framing.go:26-36). -/
def contentTypeTag : P UInt8 := do
  let t ← readU8
  if t == 1 || t == 2 || t == 3 then return t else P.fail

/-- The validated contentType as a value of the enumeration. -/
def ContentType.dec : P ContentType := do
  let t ← contentTypeTag
  if t == 1 then return .application
  else if t == 2 then return .proposal
  else if t == 3 then return .commit
  else P.panic

/-- contentType.marshal (framing.go:38-40). -/
def ContentType.enc (c : ContentType) : Enc :=
  match c with
  | .application => addU8 1
  | .proposal => addU8 2
  | .commit => addU8 3

/-- senderType.unmarshal (framing.go:51-61); senderType.marshal (framing.go:63-65) is an addU8 below. -/
def senderTypeTag : P UInt8 := do
  let t ← readU8
  if t == 1 || t == 2 || t == 3 || t == 4 then return t else P.fail

/-- sender.unmarshal (framing.go:73-89). Types 3 and 4 carry no field. -/
def Sender.dec : P Sender := do
  let t ← senderTypeTag
  if t == 1 then do let i ← readU32; return .member i
  else if t == 2 then do let i ← readU32; return .external i
  else if t == 3 then return .newMemberProposal
  else return .newMemberCommit

/-- sender.marshal (framing.go:91-99). -/
def Sender.enc (s : Sender) : Enc :=
  match s with
  | .member i => addU8 1 ++ addU32 i
  | .external i => addU8 2 ++ addU32 i
  | .newMemberProposal => addU8 3
  | .newMemberCommit => addU8 4

/-- The content selected by contentType: the same switch occurs in
framedContent.unmarshal (framing.go:164-178) and privateMessageContent.unmarshal
(framing.go:713-730). -/
def Content.dec (ct : ContentType) : P Content :=
  match ct with
  | .application => do let d ← readOpaqueVec; return .application d
  | .proposal => do let p ← Proposal.dec; return .proposal p
  | .commit => do let c ← Commit.dec; return .commit c

/-- The switch in framedContent.marshal (framing.go:187-196) and
privateMessageContent.marshal (framing.go:736-745). -/
def Content.enc (c : Content) : Enc :=
  match c with
  | .application d => writeOpaqueVec d
  | .proposal p => p.enc
  | .commit c => c.enc

/-- framedContent.unmarshal (framing.go:148-179). -/
def FramedContent.dec : P FramedContent := do
  let groupID ← readOpaqueVec
  let epoch ← readU64
  let sender ← Sender.dec
  let authenticatedData ← readOpaqueVec
  let ct ← ContentType.dec
  let content ← Content.dec ct
  return { groupID, epoch, sender, authenticatedData, content }

/-- framedContent.marshal (framing.go:181-197). -/
def FramedContent.enc (c : FramedContent) : Enc :=
  writeOpaqueVec c.groupID ++ addU64 c.epoch ++ c.sender.enc ++ writeOpaqueVec c.authenticatedData ++
    c.content.ty.enc ++ c.content.enc

/-- framedContentAuthData.unmarshal (framing.go:348-362). -/
def AuthData.dec (ct : ContentType) : P AuthData := do
  let signature ← readOpaqueVec
  if ct = .commit then
    let confirmationTag ← readOpaqueVec
    return { signature, confirmationTag }
  else return { signature, confirmationTag := [] }

/-- framedContentAuthData.marshal (framing.go:364-370). -/
def AuthData.enc (a : AuthData) (ct : ContentType) : Enc :=
  if ct = .commit then writeOpaqueVec a.signature ++ writeOpaqueVec a.confirmationTag
  else writeOpaqueVec a.signature

/-- publicMessage.unmarshal (framing.go:429-446). -/
def PublicMessage.dec : P PublicMessage := do
  let content ← FramedContent.dec
  let auth ← AuthData.dec content.content.ty
  match content.sender with
  | .member _ =>
    let membershipTag ← readOpaqueVec
    return { content, auth, membershipTag }
  | _ => return { content, auth, membershipTag := [] }

/-- publicMessage.marshal (framing.go:448-455). -/
def PublicMessage.enc (m : PublicMessage) : Enc :=
  match m.content.sender with
  | .member _ => m.content.enc ++ m.auth.enc m.content.content.ty ++ writeOpaqueVec m.membershipTag
  | _ => m.content.enc ++ m.auth.enc m.content.content.ty

/-- privateMessage.unmarshal (framing.go:533-550). -/
def PrivateMessage.dec : P PrivateMessage := do
  let groupID ← readOpaqueVec
  let epoch ← readU64
  let contentType ← ContentType.dec
  let authenticatedData ← readOpaqueVec
  let encryptedSenderData ← readOpaqueVec
  let ciphertext ← readOpaqueVec
  return { groupID, epoch, contentType, authenticatedData, encryptedSenderData, ciphertext }

/-- privateMessage.marshal (framing.go:552-559). -/
def PrivateMessage.enc (m : PrivateMessage) : Enc :=
  writeOpaqueVec m.groupID ++ addU64 m.epoch ++ m.contentType.enc ++
    writeOpaqueVec m.authenticatedData ++ writeOpaqueVec m.encryptedSenderData ++
    writeOpaqueVec m.ciphertext

/-- privateMessageContent.unmarshal (framing.go:710-733). -/
def PrivateMessageContent.dec (ct : ContentType) : P PrivateMessageContent := do
  let content ← Content.dec ct
  let auth ← AuthData.dec ct
  return { content, auth }

/-- privateMessageContent.marshal (framing.go:735-747); `ct` is the content's own type. -/
def PrivateMessageContent.enc (c : PrivateMessageContent) : Enc :=
  c.content.enc ++ c.auth.enc c.content.ty

/-- senderDataAAD.marshal (framing.go:682-686). -/
def encSenderDataAAD (groupID : Bytes) (epoch : UInt64) (ct : ContentType) : Enc :=
  writeOpaqueVec groupID ++ addU64 epoch ++ ct.enc

/-- privateContentAAD.marshal (framing.go:695-700). -/
def encPrivateContentAAD (groupID : Bytes) (epoch : UInt64) (ct : ContentType)
    (authenticatedData : Bytes) : Enc :=
  writeOpaqueVec groupID ++ addU64 epoch ++ ct.enc ++ writeOpaqueVec authenticatedData

/-- CopyBytes into a `[4]byte`. -/
def Bytes4.dec : P Bytes4 := do
  let b ← readN 4
  match b with
  | [b0, b1, b2, b3] => return ⟨b0, b1, b2, b3⟩
  | _ => P.fail

/-- senderData.unmarshal (framing.go:855-860). -/
def SenderData.dec : P SenderData := do
  let leafIndex ← readU32
  let generation ← readU32
  let reuseGuard ← Bytes4.dec
  return { leafIndex, generation, reuseGuard }

/-- senderData.marshal (framing.go:862-866). -/
def SenderData.enc (d : SenderData) : Enc :=
  addU32 d.leafIndex ++ addU32 d.generation ++ addBytes d.reuseGuard.toBytes

/-- groupContext.unmarshal (key_schedule.go:20-44). -/
def GroupContext.dec : P GroupContext := do
  let version ← readU16
  let cipherSuite ← readU16
  let groupID ← readOpaqueVec
  let epoch ← readU64
  let treeHash ← readOpaqueVec
  let confirmedTranscriptHash ← readOpaqueVec
  if version != 1 then P.fail
  else
    let extensions ← decExtensions
    return { version, cipherSuite, groupID, epoch, treeHash, confirmedTranscriptHash, extensions }

/-- groupContext.marshal (key_schedule.go:46-54). -/
def GroupContext.enc (c : GroupContext) : Enc :=
  addU16 c.version ++ addU16 c.cipherSuite ++ writeOpaqueVec c.groupID ++ addU64 c.epoch ++
    writeOpaqueVec c.treeHash ++ writeOpaqueVec c.confirmedTranscriptHash ++
    encExtensions c.extensions

/-- groupInfo.unmarshal (group.go:902-920). As in `KeyPackage.dec`, a failed read
of the last three fields (line 915) returns a nil error: the fields read so far are
kept, the others are zero. -/
def GroupInfo.dec : P GroupInfo := do
  let groupContext ← GroupContext.dec
  let extensions ← decExtensions
  match ← P.attempt readOpaqueVec with
  | none => return { groupContext, extensions, confirmationTag := [], signer := 0, signature := [] }
  | some confirmationTag =>
    match ← P.attempt readU32 with
    | none => return { groupContext, extensions, confirmationTag, signer := 0, signature := [] }
    | some signer =>
      match ← P.attempt readOpaqueVec with
      | none => return { groupContext, extensions, confirmationTag, signer, signature := [] }
      | some signature => return { groupContext, extensions, confirmationTag, signer, signature }

/-- groupInfoTBS.marshal (group.go:996-1001). -/
def GroupInfo.encTBS (i : GroupInfo) : Enc :=
  i.groupContext.enc ++ encExtensions i.extensions ++ writeOpaqueVec i.confirmationTag ++
    addU32 i.signer

/-- groupInfo.marshal (group.go:922-925). -/
def GroupInfo.enc (i : GroupInfo) : Enc := i.encTBS ++ writeOpaqueVec i.signature

/-- groupSecrets.unmarshal (group.go:1009-1031). -/
def GroupSecrets.dec : P GroupSecrets := do
  let joinerSecret ← readOpaqueVec
  let hasPathSecret ← readOptional
  let pathSecret ← (if hasPathSecret then do
      let s ← readOpaqueVec
      return some s
    else return none)
  let psks ← readVector PreSharedKeyID.dec
  return { joinerSecret, pathSecret, psks }

/-- groupSecrets.marshal (group.go:1033-1044). -/
def GroupSecrets.enc (g : GroupSecrets) : Enc :=
  writeOpaqueVec g.joinerSecret ++
    (match g.pathSecret with
      | some s => writeOptional true ++ writeOpaqueVec s
      | none => writeOptional false) ++
    writeVector PreSharedKeyID.enc g.psks

/-- encryptedGroupSecrets.unmarshal (group.go:1225-1234). -/
def EncryptedGroupSecrets.dec : P EncryptedGroupSecrets := do
  let newMember ← readOpaqueVec
  let encryptedGroupSecrets ← HpkeCiphertext.dec
  return { newMember, encryptedGroupSecrets }

/-- encryptedGroupSecrets.marshal (group.go:1236-1239). -/
def EncryptedGroupSecrets.enc (s : EncryptedGroupSecrets) : Enc :=
  writeOpaqueVec s.newMember ++ s.encryptedGroupSecrets.enc

/-- Welcome.unmarshal (group.go:1112-1136). -/
def Welcome.dec : P Welcome := do
  let cipherSuite ← readU16
  let secrets ← readVector EncryptedGroupSecrets.dec
  let encryptedGroupInfo ← readOpaqueVec
  return { cipherSuite, secrets, encryptedGroupInfo }

/-- Welcome.marshal (group.go:1138-1144). -/
def Welcome.enc (w : Welcome) : Enc :=
  addU16 w.cipherSuite ++ writeVector EncryptedGroupSecrets.enc w.secrets ++
    writeOpaqueVec w.encryptedGroupInfo

/-- wireFormat.unmarshal (framing.go:112-122). -/
def wireFormatTag : P UInt16 := do
  let t ← readU16
  if t == 1 || t == 2 || t == 3 || t == 4 || t == 5 then return t else P.fail

/-- wireFormat.marshal (framing.go:124-126). -/
def WireFormat.enc (w : WireFormat) : Enc :=
  match w with
  | .publicMessage => addU16 1
  | .privateMessage => addU16 2
  | .welcome => addU16 3
  | .groupInfo => addU16 4
  | .keyPackage => addU16 5

/-- wireFormat of a message (framing.go:201). -/
def MessageBody.wireFormat : MessageBody → WireFormat
  | .publicMessage _ => .publicMessage
  | .privateMessage _ => .privateMessage
  | .welcome _ => .welcome
  | .groupInfo _ => .groupInfo
  | .keyPackage _ => .keyPackage

/-- mlsMessage.unmarshal (framing.go:209-242). -/
def MlsMessage.dec : P MlsMessage := do
  let version ← readU16
  if version != 1 then P.fail
  else
    let t ← wireFormatTag
    if t == 1 then do let m ← PublicMessage.dec; return { version, body := .publicMessage m }
    else if t == 2 then do let m ← PrivateMessage.dec; return { version, body := .privateMessage m }
    else if t == 3 then do let m ← Welcome.dec; return { version, body := .welcome m }
    else if t == 4 then do let m ← GroupInfo.dec; return { version, body := .groupInfo m }
    else if t == 5 then do let m ← KeyPackage.dec; return { version, body := .keyPackage m }
    else P.panic

/-- mlsMessage.marshal (framing.go:244-261). -/
def MlsMessage.enc (m : MlsMessage) : Enc :=
  addU16 m.version ++ m.body.wireFormat.enc ++
    (match m.body with
      | .publicMessage m => m.enc
      | .privateMessage m => m.enc
      | .welcome m => m.enc
      | .groupInfo m => m.enc
      | .keyPackage m => m.enc)

/-- authenticatedContent.marshal (framing.go:296-300). -/
def AuthenticatedContent.enc (a : AuthenticatedContent) : Enc :=
  a.wireFormat.enc ++ a.content.enc ++ a.auth.enc a.content.content.ty

/-- framedContentTBS.marshal (framing.go:402-410), version being
protocolVersionMLS10 as set by framedContentTBS() (framing.go:310-317). -/
def encFramedContentTBS (wf : WireFormat) (c : FramedContent) (ctx : GroupContext) : Enc :=
  match c.sender with
  | .member _ | .newMemberCommit => addU16 1 ++ wf.enc ++ c.enc ++ ctx.enc
  | _ => addU16 1 ++ wf.enc ++ c.enc

/-- authenticatedContentTBM.marshal (framing.go:500-503) of what publicMessage.authenticatedContentTBM (framing.go:465-470) makes. -/
def PublicMessage.encTBM (m : PublicMessage) (ctx : GroupContext) : Enc :=
  encFramedContentTBS .publicMessage m.content ctx ++ m.auth.enc m.content.content.ty

/-- confirmedTranscriptHashInput.marshal (key_schedule.go:139-147) of what authenticatedContent.confirmedTranscriptHashInput
(framing.go:302-308) makes. -/
def encConfirmedTranscriptHashInput (wf : WireFormat) (c : FramedContent) (signature : Bytes) : Enc :=
  if c.content.ty = .commit then wf.enc ++ c.enc ++ writeOpaqueVec signature
  else .err

/-- pskLabel.marshal (key_schedule.go:320-324). -/
def encPskLabel (id : PreSharedKeyID) (index count : UInt16) : Enc :=
  id.enc ++ addU16 index ++ addU16 count

/-- UnmarshalKeyPackage (key_package.go:26-34). -/
def unmarshalKeyPackage (raw : Bytes) : Res KeyPackage := do
  let msg ← unmarshal MlsMessage.dec raw
  match msg.body with
  | .keyPackage k => return k
  | _ => .err

/-- KeyPackage.Bytes (key_package.go:37-48): panics if it cannot be encoded. -/
def KeyPackage.bytes (k : KeyPackage) : Res Bytes :=
  match MlsMessage.enc { version := 1, body := .keyPackage k } with
  | .ok raw => .ok raw
  | _ => .panic

/-- UnmarshalWelcome (group.go:1088-1096). -/
def unmarshalWelcome (raw : Bytes) : Res Welcome := do
  let msg ← unmarshal MlsMessage.dec raw
  match msg.body with
  | .welcome w => return w
  | _ => .err

/-- Welcome.Bytes (group.go:1099-1110). -/
def Welcome.bytes (w : Welcome) : Res Bytes :=
  match MlsMessage.enc { version := 1, body := .welcome w } with
  | .ok raw => .ok raw
  | _ => .panic

end Mls
