import Verif.Spec.Rfc
import Verif.Proofs.Wire
import Verif.Model.Tree
/-
The encoders of the model produce what the presentation language prescribes.
-/
namespace Mls

open Spec.Rfc (Item digits)

/-- The bytes of an encoder that succeeded. -/
def Enc.val : Enc → Option Bytes
  | .ok b => some b
  | _ => none

/-- One encoding after the other. -/
def optCat (a b : Option Bytes) : Option Bytes := a.bind fun x => b.map (x ++ ·)

theorem optCat_assoc (a b c : Option Bytes) : optCat (optCat a b) c = optCat a (optCat b c) := by
  cases a <;> cases b <;> cases c <;> simp [optCat]

theorem optCat_nil (a : Option Bytes) : optCat a (some []) = a := by cases a <;> simp [optCat]

theorem nil_optCat (a : Option Bytes) : optCat (some []) a = a := by cases a <;> simp [optCat]

theorem Enc.val_ok_iff {e : Enc} {b : Bytes} : e = .ok b ↔ e.val = some b := by
  cases e <;> simp [Enc.val]

theorem Enc.val_ok (b : Bytes) : Enc.val (.ok b) = some b := rfl

theorem Enc.val_err : Enc.val .err = none := rfl

theorem Enc.val_append (a b : Enc) : (a ++ b).val = optCat a.val b.val := by
  show (Enc.append a b).val = _
  cases a <;> cases b <;> simp [Enc.append, Enc.val, optCat]

theorem Enc.val_ite (c : Prop) [Decidable c] (a b : Enc) : (if c then a else b).val = if c then a.val else b.val := by
  split <;> rfl

theorem writeOpaqueVec_val (b : Bytes) : (writeOpaqueVec b).val = Spec.opaqueVec b := by
  rw [writeOpaqueVec_eq_spec]
  cases Spec.opaqueVec b <;> rfl

theorem beBytes_eq_digits (k v : Nat) (h : v < 256 ^ k) : beBytes k v = digits k v := by
  induction k generalizing v with
  | zero => rfl
  | succ k ih =>
    have key : ∀ j v, j ≤ k → beBytes (j + 1) v = beBytes j (v / 256) ++ [UInt8.ofNat v] := by
      intro j
      induction j with
      | zero => intro v _; simp [beBytes]
      | succ j ihj =>
        intro v hj
        rw [beBytes, ihj v (by omega), beBytes]
        simp only [List.cons_append]
        congr 2
        rw [Nat.div_div_eq_div_mul, Nat.pow_succ, Nat.mul_comm]
    rw [key k v (Nat.le_refl _), ih, digits]
    · congr 2
      apply UInt8.toNat_inj.1
      simp
    · rw [Nat.pow_succ] at h
      exact Nat.div_lt_of_lt_mul (by rwa [Nat.mul_comm])

theorem item_num (k v : Nat) (h : v < 256 ^ k) : (Item.num k v).bytes = some (beBytes k v) := by
  rw [Item.bytes, if_pos h, beBytes_eq_digits k v h]

theorem addU8_val (v : UInt8) : (addU8 v).val = (Spec.Rfc.uint8 v.toNat).bytes := by
  rw [Spec.Rfc.uint8, item_num _ _ (by have := v.toNat_lt; omega)]; rfl

theorem addU16_val (v : UInt16) : (addU16 v).val = (Spec.Rfc.uint16 v.toNat).bytes := by
  rw [Spec.Rfc.uint16, item_num _ _ (by have := v.toNat_lt; omega)]; rfl

theorem addU32_val (v : UInt32) : (addU32 v).val = (Spec.Rfc.uint32 v.toNat).bytes := by
  rw [Spec.Rfc.uint32, item_num _ _ (by have := v.toNat_lt; omega)]; rfl

theorem addU64_val (v : UInt64) : (addU64 v).val = (Spec.Rfc.uint64 v.toNat).bytes := by
  rw [Spec.Rfc.uint64, item_num _ _ (by have := v.toNat_lt; omega)]; rfl

theorem concat_nil : Spec.Rfc.concat [] = some [] := by simp [Spec.Rfc.concat]

theorem concat_cons (i : Item) (l : List Item) : Spec.Rfc.concat (i :: l) = optCat i.bytes (Spec.Rfc.concat l) := by
  simp [Spec.Rfc.concat, optCat]

theorem concat_append (l m : List Item) : Spec.Rfc.concat (l ++ m) = optCat (Spec.Rfc.concat l) (Spec.Rfc.concat m) := by
  induction l with
  | nil => rw [List.nil_append, concat_nil, nil_optCat]
  | cons i l ih => rw [List.cons_append, concat_cons, concat_cons, ih, optCat_assoc]

theorem struct_bytes (l : List Item) : (Item.struct l).bytes = Spec.Rfc.concat l := by rw [Item.bytes]

theorem opaque_bytes (b : Bytes) : (Item.opaque b).bytes = Spec.opaqueVec b := by rw [Item.bytes]

theorem fixed_bytes (b : Bytes) : (Item.fixed b).bytes = some b := by rw [Item.bytes]

theorem undefined_bytes : Item.undefined.bytes = none := by rw [Item.bytes]

theorem concat_map_val {α : Type} {f : α → Enc} {g : α → Item} (h : ∀ a, (f a).val = (g a).bytes) (l : List α) :
    (Enc.concat (l.map f)).val = Spec.Rfc.concat (l.map g) := by
  induction l with
  | nil => simp [Enc.concat, Enc.nil, Enc.val, concat_nil]
  | cons a l ih => rw [List.map_cons, List.map_cons, concat_cons, Enc.concat, Enc.val_append, h, ih]

theorem writeVector_val {α : Type} {f : α → Enc} {g : α → Item} (h : ∀ a, (f a).val = (g a).bytes) (l : List α) :
    (writeVector f l).val = (Item.vector (l.map g)).bytes := by
  have := concat_map_val h l
  rw [Item.bytes, ← this, writeVector]
  cases Enc.concat (l.map f) <;> simp [Enc.val]
  exact writeOpaqueVec_val _

theorem writeOptional_true : (writeOptional true).val = (Spec.Rfc.uint8 1).bytes := addU8_val 1
theorem writeOptional_false : (writeOptional false).val = (Spec.Rfc.uint8 0).bytes := addU8_val 0

/-- The rules that bring an encoder and a structure to the same form. -/
macro "rfc" "[" ls:Lean.Parser.Tactic.simpLemma,* "]" : tactic =>
  `(tactic| simp [Enc.val_append, Enc.val_ite, writeOpaqueVec_val, addU8_val, addU16_val, addU32_val, addU64_val, struct_bytes,
      opaque_bytes, fixed_bytes, undefined_bytes, concat_cons, concat_nil, concat_append, optCat_assoc, optCat_nil, nil_optCat,
      writeOptional_true, writeOptional_false, addBytes, Enc.val_ok, $ls,*])

theorem credential_val (c : Credential) : c.enc.val = (Spec.Rfc.credential c).bytes := by
  cases c with
  | basic i => rfc [Credential.enc, Spec.Rfc.credential]
  | x509 l =>
    have := writeVector_val (f := writeOpaqueVec) (g := fun c => .struct [.opaque c])
      (fun a => by rfc []) l
    rfc [Credential.enc, Spec.Rfc.credential, this]
  | other t => rfc [Credential.enc, Spec.Rfc.credential, Enc.val]

theorem hpkeCiphertext_val (c : HpkeCiphertext) : c.enc.val = (Spec.Rfc.hpkeCiphertext c).bytes := by
  rfc [HpkeCiphertext.enc, Spec.Rfc.hpkeCiphertext]

theorem u16s_val (l : List UInt16) : (writeVector addU16 l).val =
    (Item.vector (l.map fun v => Spec.Rfc.uint16 v.toNat)).bytes := writeVector_val addU16_val l

theorem u32s_val (l : List UInt32) : (writeVector addU32 l).val =
    (Item.vector (l.map fun v => Spec.Rfc.uint32 v.toNat)).bytes := writeVector_val addU32_val l

theorem parentNode_val (n : ParentNode) : n.enc.val = (Spec.Rfc.parentNode n).bytes := by
  rfc [ParentNode.enc, Spec.Rfc.parentNode, u32s_val]

theorem capabilities_val (c : Capabilities) : c.enc.val = (Spec.Rfc.capabilities c).bytes := by
  rfc [Capabilities.enc, Spec.Rfc.capabilities, u16s_val]

theorem lifetime_val (l : Lifetime) : l.enc.val = (Spec.Rfc.lifetime l).bytes := by
  rfc [Lifetime.enc, Spec.Rfc.lifetime]

theorem extension_val (e : Extension) : e.enc.val = (Spec.Rfc.extension e).bytes := by
  rfc [Extension.enc, Spec.Rfc.extension]

theorem extensions_val (l : List Extension) : (encExtensions l).val = (Spec.Rfc.extensions l).bytes :=
  writeVector_val extension_val l

theorem leafNodeSource_val (s : LeafNodeSource) : s.enc.val = Spec.Rfc.concat (Spec.Rfc.leafNodeSource s) := by
  cases s <;> rfc [LeafNodeSource.enc, Spec.Rfc.leafNodeSource, lifetime_val]

theorem leafBase_val (n : LeafNode) : n.encBase.val = Spec.Rfc.concat (Spec.Rfc.leafNodeFields n) := by
  rfc [LeafNode.encBase, Spec.Rfc.leafNodeFields, credential_val, capabilities_val, leafNodeSource_val, extensions_val]

theorem leafNode_val (n : LeafNode) : n.enc.val = (Spec.Rfc.leafNode n).bytes := by
  rfc [LeafNode.enc, Spec.Rfc.leafNode, leafBase_val]

theorem leafNodeTBS_val (n : LeafNode) (g : Bytes) (i : UInt32) :
    (n.encTBS g i).val = (Spec.Rfc.leafNodeTBS n g i.toNat).bytes := by
  unfold LeafNode.encTBS Spec.Rfc.leafNodeTBS
  cases n.source <;> rfc [leafBase_val]

theorem updatePathNode_val (n : UpdatePathNode) : n.enc.val = (Spec.Rfc.updatePathNode n).bytes := by
  rfc [UpdatePathNode.enc, Spec.Rfc.updatePathNode, writeVector_val hpkeCiphertext_val]

theorem updatePath_val (u : UpdatePath) : u.enc.val = (Spec.Rfc.updatePath u).bytes := by
  rfc [UpdatePath.enc, Spec.Rfc.updatePath, writeVector_val updatePathNode_val, leafNode_val]

theorem node_val (n : Node) : n.enc.val = (Spec.Rfc.node n).bytes := by
  cases n <;> rfc [Node.enc, Spec.Rfc.node, leafNode_val, parentNode_val]

theorem optNode_val (n : Option Node) : (encOptNode n).val = (Spec.Rfc.optional Spec.Rfc.node n).bytes := by
  cases n <;> rfc [encOptNode, Spec.Rfc.optional, node_val]

theorem keyPackageTBS_val (k : KeyPackage) : k.encTBS.val = (Spec.Rfc.keyPackageTBS k).bytes := by
  rfc [KeyPackage.encTBS, Spec.Rfc.keyPackageTBS, Spec.Rfc.keyPackageFields, leafNode_val, extensions_val]

theorem keyPackage_val (k : KeyPackage) : k.enc.val = (Spec.Rfc.keyPackage k).bytes := by
  rfc [KeyPackage.enc, keyPackageTBS_val, Spec.Rfc.keyPackageTBS, Spec.Rfc.keyPackage]

theorem pskUsage_val (u : PskUsage) : u.enc.val = (Spec.Rfc.pskUsage u).bytes := by
  cases u <;> rfc [PskUsage.enc, Spec.Rfc.pskUsage]

theorem preSharedKeyID_val (id : PreSharedKeyID) : id.enc.val = (Spec.Rfc.preSharedKeyID id).bytes := by
  unfold PreSharedKeyID.enc Spec.Rfc.preSharedKeyID
  cases id.kind <;> rfc [pskUsage_val]

theorem pskLabel_val (id : PreSharedKeyID) (i c : UInt16) :
    (encPskLabel id i c).val = (Spec.Rfc.pskLabel id i.toNat c.toNat).bytes := by
  rfc [encPskLabel, Spec.Rfc.pskLabel, preSharedKeyID_val]

theorem reInit_val (r : ReInit) : r.enc.val = (Spec.Rfc.reInit r).bytes := by
  rfc [ReInit.enc, Spec.Rfc.reInit, extensions_val]

theorem proposal_val (p : Proposal) : p.enc.val = (Spec.Rfc.proposal p).bytes := by
  cases p <;> rfc [Proposal.enc, Spec.Rfc.proposal, keyPackage_val, leafNode_val, preSharedKeyID_val, reInit_val, extensions_val]

theorem proposalOrRef_val (p : ProposalOrRef) : p.enc.val = (Spec.Rfc.proposalOrRef p).bytes := by
  cases p <;> rfc [ProposalOrRef.enc, Spec.Rfc.proposalOrRef, proposal_val]

theorem commit_val (c : Commit) : c.enc.val = (Spec.Rfc.commit c).bytes := by
  unfold Commit.enc Spec.Rfc.commit
  cases c.path <;> rfc [Spec.Rfc.optional, writeVector_val proposalOrRef_val, updatePath_val]

theorem contentType_val (c : ContentType) : c.enc.val = (Spec.Rfc.contentType c).bytes := by
  cases c <;> rfc [ContentType.enc, Spec.Rfc.contentType]

theorem sender_val (s : Sender) : s.enc.val = (Spec.Rfc.sender s).bytes := by
  cases s <;> rfc [Sender.enc, Spec.Rfc.sender]

theorem content_val (c : Content) : c.enc.val = (Spec.Rfc.content c).bytes := by
  cases c <;> rfc [Content.enc, Spec.Rfc.content, proposal_val, commit_val]

theorem framedContent_val (c : FramedContent) : c.enc.val = (Spec.Rfc.framedContent c).bytes := by
  unfold FramedContent.enc Spec.Rfc.framedContent
  cases c.content <;> rfc [sender_val, contentType_val, content_val, Content.ty]

theorem wireFormat_val (w : WireFormat) : w.enc.val = (Spec.Rfc.wireFormat w).bytes := by
  cases w <;> rfc [WireFormat.enc, Spec.Rfc.wireFormat]

theorem authData_val (a : AuthData) (c : Content) : (a.enc c.ty).val = (Spec.Rfc.authData a c).bytes := by
  cases c <;> rfc [AuthData.enc, Spec.Rfc.authData, Content.ty]

theorem groupContext_val (c : GroupContext) : c.enc.val = (Spec.Rfc.groupContext c).bytes := by
  rfc [GroupContext.enc, Spec.Rfc.groupContext, extensions_val]

theorem authenticatedContent_val (a : AuthenticatedContent) : a.enc.val = (Spec.Rfc.authenticatedContent a).bytes := by
  rfc [AuthenticatedContent.enc, Spec.Rfc.authenticatedContent, wireFormat_val, framedContent_val, authData_val]

theorem framedContentTBS_val (w : WireFormat) (c : FramedContent) (ctx : GroupContext) :
    (encFramedContentTBS w c ctx).val = (Spec.Rfc.framedContentTBS w c ctx).bytes := by
  unfold encFramedContentTBS Spec.Rfc.framedContentTBS
  cases c.sender <;> rfc [wireFormat_val, framedContent_val, groupContext_val]

theorem authenticatedContentTBM_val (m : PublicMessage) (ctx : GroupContext) :
    (m.encTBM ctx).val = (Spec.Rfc.authenticatedContentTBM .publicMessage m.content m.auth ctx).bytes := by
  rfc [PublicMessage.encTBM, Spec.Rfc.authenticatedContentTBM, framedContentTBS_val, authData_val]

theorem publicMessage_val (m : PublicMessage) : m.enc.val = (Spec.Rfc.publicMessage m).bytes := by
  unfold PublicMessage.enc Spec.Rfc.publicMessage
  cases m.content.sender <;> rfc [framedContent_val, authData_val]

theorem privateMessage_val (m : PrivateMessage) : m.enc.val = (Spec.Rfc.privateMessage m).bytes := by
  rfc [PrivateMessage.enc, Spec.Rfc.privateMessage, contentType_val]

theorem privateMessageContent_val (c : PrivateMessageContent) (pad : Bytes) :
    (c.enc ++ addBytes pad).val = (Spec.Rfc.privateMessageContent c pad).bytes := by
  rfc [PrivateMessageContent.enc, Spec.Rfc.privateMessageContent, content_val, authData_val]

theorem senderDataAAD_val (g : Bytes) (e : UInt64) (ct : ContentType) :
    (encSenderDataAAD g e ct).val = (Spec.Rfc.senderDataAAD g e.toNat ct).bytes := by
  rfc [encSenderDataAAD, Spec.Rfc.senderDataAAD, contentType_val]

theorem privateContentAAD_val (g : Bytes) (e : UInt64) (ct : ContentType) (a : Bytes) :
    (encPrivateContentAAD g e ct a).val = (Spec.Rfc.privateContentAAD g e.toNat ct a).bytes := by
  rfc [encPrivateContentAAD, Spec.Rfc.privateContentAAD, contentType_val]

theorem senderData_val (d : SenderData) : d.enc.val = (Spec.Rfc.senderData d).bytes := by
  rfc [SenderData.enc, Spec.Rfc.senderData, Bytes4.toBytes]

theorem groupInfoTBS_val (i : GroupInfo) : i.encTBS.val = (Spec.Rfc.groupInfoTBS i).bytes := by
  rfc [GroupInfo.encTBS, Spec.Rfc.groupInfoTBS, Spec.Rfc.groupInfoFields, groupContext_val, extensions_val]

theorem groupInfo_val (i : GroupInfo) : i.enc.val = (Spec.Rfc.groupInfo i).bytes := by
  rfc [GroupInfo.enc, groupInfoTBS_val, Spec.Rfc.groupInfoTBS, Spec.Rfc.groupInfo]

theorem groupSecrets_val (g : GroupSecrets) : g.enc.val = (Spec.Rfc.groupSecrets g).bytes := by
  unfold GroupSecrets.enc Spec.Rfc.groupSecrets
  cases g.pathSecret <;> rfc [Spec.Rfc.optional, writeVector_val preSharedKeyID_val]

theorem encryptedGroupSecrets_val (s : EncryptedGroupSecrets) : s.enc.val = (Spec.Rfc.encryptedGroupSecrets s).bytes := by
  rfc [EncryptedGroupSecrets.enc, Spec.Rfc.encryptedGroupSecrets, hpkeCiphertext_val]

theorem welcome_val (w : Welcome) : w.enc.val = (Spec.Rfc.welcome w).bytes := by
  rfc [Welcome.enc, Spec.Rfc.welcome, writeVector_val encryptedGroupSecrets_val]

theorem mlsMessage_val (m : MlsMessage) : m.enc.val = (Spec.Rfc.mlsMessage m).bytes := by
  unfold MlsMessage.enc Spec.Rfc.mlsMessage
  cases m.body <;> rfc [MessageBody.wireFormat, wireFormat_val, publicMessage_val, privateMessage_val, welcome_val,
    groupInfo_val, keyPackage_val]

theorem confirmedTranscriptHashInput_val (w : WireFormat) (c : FramedContent) (s : Bytes) :
    (encConfirmedTranscriptHashInput w c s).val = (Spec.Rfc.confirmedTranscriptHashInput w c s).bytes := by
  unfold encConfirmedTranscriptHashInput Spec.Rfc.confirmedTranscriptHashInput
  cases c.content <;> rfc [Content.ty, Enc.val_err, wireFormat_val, framedContent_val]

theorem leafHashInput_val (i : Nat) (hi : i < 2 ^ 32) (n : Option LeafNode) :
    (encLeafNodeHashInput i n).val = (Spec.Rfc.leafHashInput i n).bytes := by
  cases n <;> rfc [encLeafNodeHashInput, Spec.Rfc.leafHashInput, Spec.Rfc.optional, leafNode_val, Nat.mod_eq_of_lt hi]

theorem parentHashInput_val (n : Option ParentNode) (l r : Bytes) :
    (encParentNodeHashInput n l r).val = (Spec.Rfc.parentHashInput n l r).bytes := by
  cases n <;> rfc [encParentNodeHashInput, Spec.Rfc.parentHashInput, Spec.Rfc.optional, parentNode_val]

theorem parentHash_val (k h s : Bytes) : (encParentHashInput k h s).val = (Spec.Rfc.parentHash k h s).bytes := by
  rfc [encParentHashInput, Spec.Rfc.parentHash]

/-! The encodings of the RFC, in terms of the encoders. -/

theorem leafTBS_some {n : LeafNode} {g : Bytes} {i : UInt32} {b : Bytes} :
    (Spec.Rfc.leafNodeTBS n g i.toNat).bytes = some b ↔ n.encTBS g i = .ok b := by
  rw [← leafNodeTBS_val, Enc.val_ok_iff]

theorem packageTBS_some {k : KeyPackage} {b : Bytes} : (Spec.Rfc.keyPackageTBS k).bytes = some b ↔ k.encTBS = .ok b := by
  rw [← keyPackageTBS_val, Enc.val_ok_iff]

theorem contentTBS_some {w : WireFormat} {c : FramedContent} {ctx : GroupContext} {b : Bytes} :
    (Spec.Rfc.framedContentTBS w c ctx).bytes = some b ↔ encFramedContentTBS w c ctx = .ok b := by
  rw [← framedContentTBS_val, Enc.val_ok_iff]

theorem contentTBM_some {m : PublicMessage} {ctx : GroupContext} {b : Bytes} :
    (Spec.Rfc.authenticatedContentTBM .publicMessage m.content m.auth ctx).bytes = some b ↔ m.encTBM ctx = .ok b := by
  rw [← authenticatedContentTBM_val, Enc.val_ok_iff]

theorem infoTBS_some {i : GroupInfo} {b : Bytes} : (Spec.Rfc.groupInfoTBS i).bytes = some b ↔ i.encTBS = .ok b := by
  rw [← groupInfoTBS_val, Enc.val_ok_iff]

theorem context_some {c : GroupContext} {b : Bytes} : (Spec.Rfc.groupContext c).bytes = some b ↔ c.enc = .ok b := by
  rw [← groupContext_val, Enc.val_ok_iff]

theorem transcriptInput_some {w : WireFormat} {c : FramedContent} {s b : Bytes} :
    (Spec.Rfc.confirmedTranscriptHashInput w c s).bytes = some b ↔ encConfirmedTranscriptHashInput w c s = .ok b := by
  rw [← confirmedTranscriptHashInput_val, Enc.val_ok_iff]

theorem package_some {k : KeyPackage} {b : Bytes} : (Spec.Rfc.keyPackage k).bytes = some b ↔ k.enc = .ok b := by
  rw [← keyPackage_val, Enc.val_ok_iff]

theorem authContent_some {a : AuthenticatedContent} {b : Bytes} : (Spec.Rfc.authenticatedContent a).bytes = some b ↔ a.enc = .ok b := by
  rw [← authenticatedContent_val, Enc.val_ok_iff]

end Mls
