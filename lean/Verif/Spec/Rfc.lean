import Verif.Model.Types
import Verif.Spec.Wire
/-
The presentation language of RFC 9420 (section 2.1, after RFC 8446 section 3) and, in it, every
structure of the protocol that the library writes, reads, signs, hashes or authenticates.

`Item` is a value of the presentation language and `Item.bytes` its one encoding. Each definition
after that transcribes one structure of the RFC: the fields in the order of the RFC, the numbers of
the enumerations from the RFC. The text of the RFC is quoted above it. Nothing of the model's
encoders or decoders is used, only its data types.
-/
namespace Mls.Spec.Rfc

/-- A value of the presentation language. -/
inductive Item where
  /-- `uint8` ... `uint64` and enumerations: `size` bytes in network byte order. -/
  | num (size value : Nat)
  /-- `opaque x[n]`: bytes of fixed length. -/
  | fixed (b : Bytes)
  /-- `opaque x<V>`. -/
  | «opaque» (b : Bytes)
  /-- `T x<V>`. -/
  | vector (elements : List Item)
  /-- `struct { ... }`: one field after the other. -/
  | struct (fields : List Item)
  /-- A value that has no encoding. -/
  | undefined

/-- The digits of `v` to the base 256, `k` of them, the last one being the lowest. -/
def digits : Nat → Nat → Bytes
  | 0, _ => []
  | k + 1, v => digits k (v / 256) ++ [UInt8.ofNat (v % 256)]

mutual
/-- RFC 9420 section 2.1, RFC 8446 section 3: the encoding of a value. A number has to fit its size. -/
def Item.bytes : Item → Option Bytes
  | .num k v => if v < 256 ^ k then some (digits k v) else none
  | .fixed b => some b
  | .opaque b => opaqueVec b
  | .vector l => (concat l).bind opaqueVec
  | .struct l => concat l
  | .undefined => none
/-- One value after the other. -/
def concat : List Item → Option Bytes
  | [] => some []
  | i :: l => i.bytes.bind fun a => (concat l).map (a ++ ·)
end

/-- `uint8`. -/
def uint8 (v : Nat) : Item := .num 1 v
/-- `uint16`. -/
def uint16 (v : Nat) : Item := .num 2 v
/-- `uint32`. -/
def uint32 (v : Nat) : Item := .num 4 v
/-- `uint64`. -/
def uint64 (v : Nat) : Item := .num 8 v

/-- Section 2.1.1: `struct { uint8 present; select (present) { case 0: struct{}; case 1: T value; }; } optional<T>;` -/
def optional {α : Type} (f : α → Item) : Option α → Item
  | none => .struct [uint8 0]
  | some a => .struct [uint8 1, f a]

/-! ### Section 5 -/

/-- Section 5.3: `opaque cert_data<V>; struct { CredentialType credential_type; select (...) { case basic:
opaque identity<V>; case x509: Certificate certificates<V>; }; } Credential;` with basic(1), x509(2)
(section 17.5); other types have no encoding here. -/
def credential : Credential → Item
  | .basic identity => .struct [uint16 1, .opaque identity]
  | .x509 certificates => .struct [uint16 2, .vector (certificates.map fun c => .struct [.opaque c])]
  | .other _ => .undefined

/-- Section 5.1.2: `struct { opaque label<V>; opaque content<V>; } SignContent;` with label = "MLS 1.0 " + Label. -/
def signContent (label content : Bytes) : Item := .struct [.opaque label, .opaque content]

/-- Section 5.1.3: `struct { opaque label<V>; opaque context<V>; } EncryptContext;` with label = "MLS 1.0 " + Label. -/
def encryptContext (label context : Bytes) : Item := .struct [.opaque label, .opaque context]

/-- Section 5.1.3: `struct { opaque kem_output<V>; opaque ciphertext<V>; } HPKECiphertext;` -/
def hpkeCiphertext (c : HpkeCiphertext) : Item := .struct [.opaque c.kemOutput, .opaque c.ciphertext]

/-- Section 5.2: `struct { opaque label<V>; opaque value<V>; } RefHashInput;` -/
def refHashInput (label value : Bytes) : Item := .struct [.opaque label, .opaque value]

/-! ### Sections 7, 10 and 12.4.3.3: the tree -/

/-- Section 7.2: `struct { ProtocolVersion versions<V>; CipherSuite cipher_suites<V>; ExtensionType extensions<V>;
ProposalType proposals<V>; CredentialType credentials<V>; } Capabilities;`, all five being uint16. -/
def capabilities (c : Capabilities) : Item :=
  .struct [.vector (c.versions.map fun v => uint16 v.toNat), .vector (c.cipherSuites.map fun v => uint16 v.toNat),
    .vector (c.extensions.map fun v => uint16 v.toNat), .vector (c.proposals.map fun v => uint16 v.toNat),
    .vector (c.credentials.map fun v => uint16 v.toNat)]

/-- Section 7.2: `struct { uint64 not_before; uint64 not_after; } Lifetime;` -/
def lifetime (l : Lifetime) : Item := .struct [uint64 l.notBefore.toNat, uint64 l.notAfter.toNat]

/-- Section 7.2: `struct { ExtensionType extension_type; opaque extension_data<V>; } Extension;` -/
def extension (e : Extension) : Item := .struct [uint16 e.ty.toNat, .opaque e.data]

/-- `Extension extensions<V>;` -/
def extensions (l : List Extension) : Item := .vector (l.map extension)

/-- Section 7.2: `LeafNodeSource leaf_node_source; select (leaf_node_source) { case key_package: Lifetime lifetime;
case update: struct{}; case commit: opaque parent_hash<V>; };` with key_package(1), update(2), commit(3) as uint8. -/
def leafNodeSource : LeafNodeSource → List Item
  | .keyPackage l => [uint8 1, lifetime l]
  | .update => [uint8 2, .struct []]
  | .commit h => [uint8 3, .opaque h]

/-- Section 7.2: `struct { HPKEPublicKey encryption_key; SignaturePublicKey signature_key; Credential credential;
Capabilities capabilities; LeafNodeSource leaf_node_source; select (...) {...}; Extension extensions<V>;` -/
def leafNodeFields (n : LeafNode) : List Item :=
  [.opaque n.encryptionKey, .opaque n.signatureKey, credential n.credential, capabilities n.capabilities] ++
    leafNodeSource n.source ++ [extensions n.extensions]

/-- Section 7.2: `... opaque signature<V>; } LeafNode;` -/
def leafNode (n : LeafNode) : Item := .struct (leafNodeFields n ++ [.opaque n.signature])

/-- Section 7.2: `... select (LeafNodeTBS.leaf_node_source) { case key_package: struct{}; case update: opaque group_id<V>;
uint32 leaf_index; case commit: opaque group_id<V>; uint32 leaf_index; }; } LeafNodeTBS;` -/
def leafNodeTBS (n : LeafNode) (groupID : Bytes) (leafIndex : Nat) : Item :=
  .struct (leafNodeFields n ++
    match n.source with
    | .keyPackage _ => [.struct []]
    | .update => [.opaque groupID, uint32 leafIndex]
    | .commit _ => [.opaque groupID, uint32 leafIndex])

/-- Section 7.1: `struct { HPKEPublicKey encryption_key; opaque parent_hash<V>; uint32 unmerged_leaves<V>; } ParentNode;` -/
def parentNode (n : ParentNode) : Item :=
  .struct [.opaque n.encryptionKey, .opaque n.parentHash, .vector (n.unmergedLeaves.map fun i => uint32 i.toNat)]

/-- Section 7.6: `struct { HPKEPublicKey encryption_key; HPKECiphertext encrypted_path_secret<V>; } UpdatePathNode;` -/
def updatePathNode (n : UpdatePathNode) : Item :=
  .struct [.opaque n.encryptionKey, .vector (n.encryptedPathSecret.map hpkeCiphertext)]

/-- Section 7.6: `struct { LeafNode leaf_node; UpdatePathNode nodes<V>; } UpdatePath;` -/
def updatePath (u : UpdatePath) : Item := .struct [leafNode u.leafNode, .vector (u.nodes.map updatePathNode)]

/-- Section 7.8: `struct { uint32 leaf_index; optional<LeafNode> leaf_node; } LeafNodeHashInput;` inside
`struct { NodeType node_type; select (...) {...}; } TreeHashInput;` with leaf(1) as uint8. -/
def leafHashInput (leafIndex : Nat) (n : Option LeafNode) : Item :=
  .struct [uint8 1, .struct [uint32 leafIndex, optional leafNode n]]

/-- Section 7.8: `struct { optional<ParentNode> parent_node; opaque left_hash<V>; opaque right_hash<V>; } ParentNodeHashInput;`
inside TreeHashInput with parent(2). -/
def parentHashInput (n : Option ParentNode) (left right : Bytes) : Item :=
  .struct [uint8 2, .struct [optional parentNode n, .opaque left, .opaque right]]

/-- Section 7.9: `struct { HPKEPublicKey encryption_key; opaque parent_hash<V>; opaque original_sibling_tree_hash<V>; } ParentHashInput;` -/
def parentHash (encryptionKey parentHash siblingHash : Bytes) : Item :=
  .struct [.opaque encryptionKey, .opaque parentHash, .opaque siblingHash]

/-- Section 12.4.3.3: `struct { NodeType nodeType; select (Node.nodeType) { case leaf: LeafNode leafNode; case parent:
ParentNode parentNode; }; } Node;` with leaf(1), parent(2) as uint8. -/
def node : Node → Item
  | .leaf n => .struct [uint8 1, leafNode n]
  | .parent n => .struct [uint8 2, parentNode n]

/-- Section 12.4.3.3: `optional<Node> ratchet_tree<V>;` -/
def ratchetTree (t : List (Option Node)) : Item := .vector (t.map (optional node))

/-- Section 10: `struct { ProtocolVersion version; CipherSuite cipher_suite; HPKEPublicKey init_key; LeafNode leaf_node;
Extension extensions<V>; } KeyPackageTBS;` -/
def keyPackageFields (k : KeyPackage) : List Item :=
  [uint16 k.version.toNat, uint16 k.cipherSuite.toNat, .opaque k.initKey, leafNode k.leafNode, extensions k.extensions]

/-- Section 10: KeyPackageTBS. -/
def keyPackageTBS (k : KeyPackage) : Item := .struct (keyPackageFields k)

/-- Section 10: `... opaque signature<V>; } KeyPackage;` -/
def keyPackage (k : KeyPackage) : Item := .struct (keyPackageFields k ++ [.opaque k.signature])

/-! ### Section 8: the key schedule -/

/-- Section 8: `struct { uint16 length; opaque label<V>; opaque context<V>; } KDFLabel;` with label = "MLS 1.0 " + Label. -/
def kdfLabel (length : Nat) (label context : Bytes) : Item := .struct [uint16 length, .opaque label, .opaque context]

/-- Section 8.1: `struct { ProtocolVersion version; CipherSuite cipher_suite; opaque group_id<V>; uint64 epoch;
opaque tree_hash<V>; opaque confirmed_transcript_hash<V>; Extension extensions<V>; } GroupContext;` -/
def groupContext (c : GroupContext) : Item :=
  .struct [uint16 c.version.toNat, uint16 c.cipherSuite.toNat, .opaque c.groupID, uint64 c.epoch.toNat,
    .opaque c.treeHash, .opaque c.confirmedTranscriptHash, extensions c.extensions]

/-- Section 8.4: `enum { reserved(0), application(1), reinit(2), branch(3), (255) } ResumptionPSKUsage;` -/
def pskUsage : PskUsage → Item
  | .application => uint8 1
  | .reinit => uint8 2
  | .branch => uint8 3

/-- Section 8.4: `struct { PSKType psktype; select (psktype) { case external: opaque psk_id<V>; case resumption:
ResumptionPSKUsage usage; opaque psk_group_id<V>; uint64 psk_epoch; }; opaque psk_nonce<V>; } PreSharedKeyID;`
with external(1), resumption(2) as uint8. -/
def preSharedKeyID (id : PreSharedKeyID) : Item :=
  match id.kind with
  | .external pskID => .struct [uint8 1, .opaque pskID, .opaque id.nonce]
  | .resumption usage groupID epoch =>
    .struct [uint8 2, pskUsage usage, .opaque groupID, uint64 epoch.toNat, .opaque id.nonce]

/-- Section 8.4: `struct { PreSharedKeyID id; uint16 index; uint16 count; } PSKLabel;` -/
def pskLabel (id : PreSharedKeyID) (index count : Nat) : Item :=
  .struct [preSharedKeyID id, uint16 index, uint16 count]

/-! ### Section 12: proposals, commits, group infos, welcomes -/

/-- Section 12.1.5: `struct { opaque group_id<V>; ProtocolVersion version; CipherSuite cipher_suite;
Extension extensions<V>; } ReInit;` -/
def reInit (r : ReInit) : Item :=
  .struct [.opaque r.groupID, uint16 r.version.toNat, uint16 r.cipherSuite.toNat, extensions r.extensions]

/-- Section 12.1: `struct { ProposalType proposal_type; select (...) { case add: Add add; case update: Update update;
case remove: Remove remove; case psk: PreSharedKey psk; case reinit: ReInit reinit; case external_init: ExternalInit
external_init; case group_context_extensions: GroupContextExtensions group_context_extensions; }; } Proposal;`
with add(1), update(2), remove(3), psk(4), reinit(5), external_init(6), group_context_extensions(7) as uint16
(section 17.4); sections 12.1.1 to 12.1.7 for the variants. -/
def proposal : Proposal → Item
  | .add k => .struct [uint16 1, .struct [keyPackage k]]
  | .update n => .struct [uint16 2, .struct [leafNode n]]
  | .remove r => .struct [uint16 3, .struct [uint32 r.toNat]]
  | .psk id => .struct [uint16 4, .struct [preSharedKeyID id]]
  | .reInit r => .struct [uint16 5, reInit r]
  | .externalInit k => .struct [uint16 6, .struct [.opaque k]]
  | .groupContextExtensions e => .struct [uint16 7, .struct [extensions e]]

/-- Section 12.4: `struct { ProposalOrRefType type; select (type) { case proposal: Proposal proposal; case reference:
ProposalRef reference; }; } ProposalOrRef;` with proposal(1), reference(2) as uint8; ProposalRef is opaque<V> (5.2). -/
def proposalOrRef : ProposalOrRef → Item
  | .proposal p => .struct [uint8 1, proposal p]
  | .reference r => .struct [uint8 2, .opaque r]

/-- Section 12.4: `struct { ProposalOrRef proposals<V>; optional<UpdatePath> path; } Commit;` -/
def commit (c : Commit) : Item := .struct [.vector (c.proposals.map proposalOrRef), optional updatePath c.path]

/-- Section 12.4.3: `struct { GroupContext group_context; Extension extensions<V>; MAC confirmation_tag; uint32 signer;` -/
def groupInfoFields (i : GroupInfo) : List Item :=
  [groupContext i.groupContext, extensions i.extensions, .opaque i.confirmationTag, uint32 i.signer.toNat]

/-- Section 12.4.3: GroupInfoTBS. -/
def groupInfoTBS (i : GroupInfo) : Item := .struct (groupInfoFields i)

/-- Section 12.4.3: `... opaque signature<V>; } GroupInfo;` -/
def groupInfo (i : GroupInfo) : Item := .struct (groupInfoFields i ++ [.opaque i.signature])

/-- Section 12.4.3.1: `struct { opaque path_secret<V>; } PathSecret; struct { opaque joiner_secret<V>;
optional<PathSecret> path_secret; PreSharedKeyID psks<V>; } GroupSecrets;` -/
def groupSecrets (g : GroupSecrets) : Item :=
  .struct [.opaque g.joinerSecret, optional (fun s => .struct [.opaque s]) g.pathSecret, .vector (g.psks.map preSharedKeyID)]

/-- Section 12.4.3.1: `struct { KeyPackageRef new_member; HPKECiphertext encrypted_group_secrets; } EncryptedGroupSecrets;` -/
def encryptedGroupSecrets (s : EncryptedGroupSecrets) : Item :=
  .struct [.opaque s.newMember, hpkeCiphertext s.encryptedGroupSecrets]

/-- Section 12.4.3.1: `struct { CipherSuite cipher_suite; EncryptedGroupSecrets secrets<V>; opaque encrypted_group_info<V>; } Welcome;` -/
def welcome (w : Welcome) : Item :=
  .struct [uint16 w.cipherSuite.toNat, .vector (w.secrets.map encryptedGroupSecrets), .opaque w.encryptedGroupInfo]

/-! ### Section 6: framing -/

/-- Section 6: `enum { reserved(0), application(1), proposal(2), commit(3), (255) } ContentType;` -/
def contentType : ContentType → Item
  | .application => uint8 1
  | .proposal => uint8 2
  | .commit => uint8 3

/-- Section 6: `struct { SenderType sender_type; select (...) { case member: uint32 leaf_index; case external: uint32
sender_index; case new_member_commit: case new_member_proposal: struct{}; }; } Sender;` with member(1), external(2),
new_member_proposal(3), new_member_commit(4) as uint8. -/
def sender : Sender → Item
  | .member i => .struct [uint8 1, uint32 i.toNat]
  | .external i => .struct [uint8 2, uint32 i.toNat]
  | .newMemberProposal => .struct [uint8 3, .struct []]
  | .newMemberCommit => .struct [uint8 4, .struct []]

/-- Section 6: `select (content_type) { case application: opaque application_data<V>; case proposal: Proposal proposal;
case commit: Commit commit; };` -/
def content : Content → Item
  | .application d => .opaque d
  | .proposal p => proposal p
  | .commit c => commit c

/-- Section 6: `struct { opaque group_id<V>; uint64 epoch; Sender sender; opaque authenticated_data<V>;
ContentType content_type; select (...) {...}; } FramedContent;` -/
def framedContent (c : FramedContent) : Item :=
  .struct [.opaque c.groupID, uint64 c.epoch.toNat, sender c.sender, .opaque c.authenticatedData,
    (match c.content with
      | .application _ => contentType .application
      | .proposal _ => contentType .proposal
      | .commit _ => contentType .commit),
    content c.content]

/-- Section 6: `enum { mls_public_message(1), mls_private_message(2), mls_welcome(3), mls_group_info(4),
mls_key_package(5) } WireFormat;` as uint16 (section 17.2). -/
def wireFormat : WireFormat → Item
  | .publicMessage => uint16 1
  | .privateMessage => uint16 2
  | .welcome => uint16 3
  | .groupInfo => uint16 4
  | .keyPackage => uint16 5

/-- Section 6.1: `struct { opaque signature<V>; select (FramedContent.content_type) { case commit: MAC confirmation_tag;
case application: case proposal: struct{}; }; } FramedContentAuthData;` where `opaque MAC<V>` -/
def authData (a : AuthData) : Content → Item
  | .commit _ => .struct [.opaque a.signature, .opaque a.confirmationTag]
  | _ => .struct [.opaque a.signature, .struct []]

/-- Section 6: `struct { WireFormat wire_format; FramedContent content; FramedContentAuthData auth; } AuthenticatedContent;` -/
def authenticatedContent (a : AuthenticatedContent) : Item :=
  .struct [wireFormat a.wireFormat, framedContent a.content, authData a.auth a.content.content]

/-- Section 6.1: `struct { ProtocolVersion version = mls10; WireFormat wire_format; FramedContent content;
select (FramedContentTBS.content.sender.sender_type) { case member: case new_member_commit: GroupContext context;
case external: case new_member_proposal: struct{}; }; } FramedContentTBS;` with mls10(1). -/
def framedContentTBS (w : WireFormat) (c : FramedContent) (context : GroupContext) : Item :=
  .struct [uint16 1, wireFormat w, framedContent c,
    match c.sender with
    | .member _ => groupContext context
    | .newMemberCommit => groupContext context
    | .external _ => .struct []
    | .newMemberProposal => .struct []]

/-- Section 6.2: `struct { FramedContentTBS content_tbs; FramedContentAuthData auth; } AuthenticatedContentTBM;` -/
def authenticatedContentTBM (w : WireFormat) (c : FramedContent) (a : AuthData) (context : GroupContext) : Item :=
  .struct [framedContentTBS w c context, authData a c.content]

/-- Section 6.2: `struct { FramedContent content; FramedContentAuthData auth; select (PublicMessage.content.sender.sender_type)
{ case member: MAC membership_tag; case external: case new_member_commit: case new_member_proposal: struct{}; }; } PublicMessage;` -/
def publicMessage (m : PublicMessage) : Item :=
  .struct [framedContent m.content, authData m.auth m.content.content,
    match m.content.sender with
    | .member _ => .opaque m.membershipTag
    | _ => .struct []]

/-- Section 6.3: `struct { opaque group_id<V>; uint64 epoch; ContentType content_type; opaque authenticated_data<V>;
opaque encrypted_sender_data<V>; opaque ciphertext<V>; } PrivateMessage;` -/
def privateMessage (m : PrivateMessage) : Item :=
  .struct [.opaque m.groupID, uint64 m.epoch.toNat, contentType m.contentType, .opaque m.authenticatedData,
    .opaque m.encryptedSenderData, .opaque m.ciphertext]

/-- Section 6.3.1: `struct { select (PrivateMessage.content_type) {...}; FramedContentAuthData auth;
opaque padding[length_of_padding]; } PrivateMessageContent;` -/
def privateMessageContent (c : PrivateMessageContent) (padding : Bytes) : Item :=
  .struct [content c.content, authData c.auth c.content, .fixed padding]

/-- Section 6.3.1: `struct { opaque group_id<V>; uint64 epoch; ContentType content_type; opaque authenticated_data<V>; } PrivateContentAAD;` -/
def privateContentAAD (groupID : Bytes) (epoch : Nat) (ct : ContentType) (authenticatedData : Bytes) : Item :=
  .struct [.opaque groupID, uint64 epoch, contentType ct, .opaque authenticatedData]

/-- Section 6.3.2: `struct { uint32 leaf_index; uint32 generation; opaque reuse_guard[4]; } SenderData;` -/
def senderData (d : SenderData) : Item :=
  .struct [uint32 d.leafIndex.toNat, uint32 d.generation.toNat,
    .fixed [d.reuseGuard.b0, d.reuseGuard.b1, d.reuseGuard.b2, d.reuseGuard.b3]]

/-- Section 6.3.2: `struct { opaque group_id<V>; uint64 epoch; ContentType content_type; } SenderDataAAD;` -/
def senderDataAAD (groupID : Bytes) (epoch : Nat) (ct : ContentType) : Item :=
  .struct [.opaque groupID, uint64 epoch, contentType ct]

/-- Section 8.2: `struct { WireFormat wire_format; FramedContent content; opaque signature<V>; } ConfirmedTranscriptHashInput;`
"with content.content_type == commit". -/
def confirmedTranscriptHashInput (w : WireFormat) (c : FramedContent) (signature : Bytes) : Item :=
  match c.content with
  | .commit _ => .struct [wireFormat w, framedContent c, .opaque signature]
  | _ => .undefined

/-- Section 8.2: `struct { MAC confirmation_tag; } InterimTranscriptHashInput;` -/
def interimTranscriptHashInput (confirmationTag : Bytes) : Item := .struct [.opaque confirmationTag]

/-- Section 6: `struct { ProtocolVersion version = mls10; WireFormat wire_format; select (MLSMessage.wire_format) { case
mls_public_message: PublicMessage public_message; case mls_private_message: PrivateMessage private_message; case mls_welcome:
Welcome welcome; case mls_group_info: GroupInfo group_info; case mls_key_package: KeyPackage key_package; }; } MLSMessage;` -/
def mlsMessage (m : MlsMessage) : Item :=
  .struct (uint16 m.version.toNat ::
    match m.body with
    | .publicMessage m => [wireFormat .publicMessage, publicMessage m]
    | .privateMessage m => [wireFormat .privateMessage, privateMessage m]
    | .welcome m => [wireFormat .welcome, welcome m]
    | .groupInfo m => [wireFormat .groupInfo, groupInfo m]
    | .keyPackage m => [wireFormat .keyPackage, keyPackage m])

end Mls.Spec.Rfc
