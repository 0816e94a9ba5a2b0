import Verif.Proofs.Fine
import Verif.Props.Schedule
/-
Which calls can panic: labelled primitives, the key schedule, the secret tree, signatures and framing.
-/
namespace Mls

variable {pr : Prims}

theorem orFalse_fine {α : Type} {x : Res α} {f : α → Res Bool} (hx : x.Fine) (hf : ∀ a, x = .ok a → (f a).Fine) :
    (orFalse x f).Fine := by
  unfold orFalse
  cases hr : x with
  | ok a => exact hf a hr
  | err => exact Res.fine_ok _
  | panic => exact absurd hr hx.1
  | hang => exact absurd hr hx.2

theorem idx_fine {α : Type} {l : List α} {i : Nat} (h : i < l.length) : (Res.idx l i).Fine :=
  .of_ok (Res.idx_of_lt h)

theorem setIdx_fine {α : Type} {l : List α} {i : Nat} {a : α} (h : i < l.length) : (Res.setIdx l i a).Fine :=
  .of_ok (Res.setIdx_of_lt a h)

section
variable {cs : UInt16} {d : SuiteDesc} (hd : suite cs = .ok d)
include hd

theorem suite_fine : (suite cs).Fine := .of_ok hd

theorem signMAC_fine (k m : Bytes) : (signMAC pr cs k m).Fine := by
  unfold signMAC
  rw [hd]
  exact Res.fine_ok _

theorem verifyMAC_fine (k m t : Bytes) : (verifyMAC pr cs k m t).Fine :=
  (signMAC_fine hd k m).bind fun _ _ => Res.fine_ok _

theorem refHash_fine (l v : Bytes) : (refHash pr cs l v).Fine := by
  unfold refHash
  refine Res.Fine.bind (by unfold encRefHashInput; enc_fine) fun _ _ => ?_
  rw [hd]
  exact Res.fine_ok _

theorem expandWithLabel_fine (s l c : Bytes) {n : UInt16} (hn : n.toNat ≤ 255 * d.kdf.size) :
    (expandWithLabel pr cs s l c n).Fine := by
  unfold expandWithLabel
  refine Res.Fine.bind (by unfold encKdfLabel; enc_fine) fun _ _ => ?_
  rw [hd]
  simp only [Res.ok_bind]
  rw [if_neg (by omega)]
  exact Res.fine_ok _

theorem expand_nh_fine (s l c : Bytes) : (expandWithLabel pr cs s l c d.nh).Fine := by
  refine expandWithLabel_fine hd s l c ?_
  have := (suite_sizes hd).1
  omega

theorem expand_aead_fine (s l c : Bytes) {k : Nat} (hk : k ≤ 32) : (expandWithLabel pr cs s l c (UInt16.ofNat k)).Fine := by
  refine expandWithLabel_fine hd s l c ?_
  have h1 : 32 ≤ d.kdf.size := by cases d.kdf <;> decide
  have h2 : (UInt16.ofNat k).toNat ≤ k := by
    rw [UInt16.toNat_ofNat']
    exact Nat.mod_le _ _
  omega

theorem deriveSecret_fine (s l : Bytes) : (deriveSecret pr cs s l).Fine := by
  unfold deriveSecret
  rw [hd]
  exact expand_nh_fine hd s l []

theorem signWithLabel_fine (k l c r : Bytes) : (signWithLabel pr cs k l c r).Fine :=
  C41_sign_fine pr cs ((C41_known cs).1 ⟨d, hd⟩) k l c r

theorem verifyWithLabel_fine {k : Bytes} (hk : Spec.Readable pr cs k) (l c s : Bytes) : (verifyWithLabel pr cs k l c s).Fine :=
  C41_verify_fine pr cs ((C41_known cs).1 ⟨d, hd⟩) k l c s hk

theorem encryptWithLabel_fine (k l c p r : Bytes) : (encryptWithLabel pr cs k l c p r).Fine := by
  unfold encryptWithLabel
  refine Res.Fine.bind (by unfold encEncryptContext; enc_fine) fun _ _ => ?_
  rw [hd]
  exact (fine_orErr _).bind fun _ _ => Res.fine_ok _

theorem decryptWithLabel_fine (k l c : Bytes) (ct : HpkeCiphertext) : (decryptWithLabel pr cs k l c ct).Fine := by
  unfold decryptWithLabel
  refine Res.Fine.bind (by unfold encEncryptContext; enc_fine) fun _ _ => ?_
  rw [hd]
  exact fine_orErr _

theorem aeadSeal_fine (k n p a : Bytes) : (aeadSeal pr cs k n p a).Fine := by
  unfold aeadSeal
  rw [hd]
  exact fine_orErr _

theorem aeadOpen_fine (k n c a : Bytes) : (aeadOpen pr cs k n c a).Fine := by
  unfold aeadOpen
  rw [hd]
  exact fine_orErr _

/-! ### The key schedule -/

theorem confirmedTranscriptHash_fine {c : FramedContent} (h : c.content.Known) (w : WireFormat) (sig itm : Bytes) :
    (confirmedTranscriptHash pr cs w c sig itm).Fine := by
  unfold confirmedTranscriptHash
  refine Res.Fine.bind (confirmedInput_fine h w sig) fun _ _ => ?_
  rw [hd]
  exact Res.fine_ok _

theorem nextInterim_fine (cth tag : Bytes) : (nextInterimTranscriptHash pr cs cth tag).Fine := by
  unfold nextInterimTranscriptHash
  refine (writeOpaqueVec_fine tag).bind fun _ _ => ?_
  rw [hd]
  exact Res.fine_ok _

theorem extractPSKSecret_nil_fine : (extractPSKSecret pr cs [] []).Fine := by
  unfold extractPSKSecret
  rw [hd]
  exact Res.fine_ok _

theorem extractWelcomeSecret_fine (js : Bytes) (ps : Option Bytes) : (extractWelcomeSecret pr cs js ps).Fine := by
  unfold extractWelcomeSecret
  rw [hd]
  exact deriveSecret_fine hd _ _

theorem welcomeKeyAndNonce_fine (js ps : Bytes) : (welcomeKeyAndNonce pr cs js ps).Fine := by
  unfold welcomeKeyAndNonce
  rw [hd]
  simp only [Res.ok_bind]
  refine (extractWelcomeSecret_fine hd _ _).bind fun _ _ => (expand_aead_fine hd _ _ _ ?_).bind fun _ _ =>
    (expand_aead_fine hd _ _ _ (keySize_le _)).bind fun _ _ => Res.fine_ok _
  rw [nonceSize_eq]
  decide

omit hd in
theorem extractJoinerSecret_fine {ctx : GroupContext} (hd : suite ctx.cipherSuite = .ok d) (i c : Bytes) :
    (ctx.extractJoinerSecret pr i c).Fine := by
  unfold GroupContext.extractJoinerSecret
  rw [hd]
  simp only [Res.ok_bind]
  exact Res.Fine.bind (groupContext_enc_fine ctx) fun _ _ => expand_nh_fine hd _ _ _

omit hd in
theorem extractEpochSecret_fine {ctx : GroupContext} (hd : suite ctx.cipherSuite = .ok d) (j : Bytes) (p : Option Bytes) :
    (ctx.extractEpochSecret pr j p).Fine := by
  unfold GroupContext.extractEpochSecret
  rw [hd]
  simp only [Res.ok_bind]
  exact Res.Fine.bind (groupContext_enc_fine ctx) fun _ _ => expand_nh_fine hd _ _ _

omit hd in
theorem signConfirmationTag_fine {ctx : GroupContext} (hd : suite ctx.cipherSuite = .ok d) (e : Bytes) :
    (ctx.signConfirmationTag pr e).Fine :=
  (deriveSecret_fine hd _ _).bind fun _ _ => signMAC_fine hd _ _

/-! ### Framing -/

omit hd in
theorem contentSignature_fine {a : AuthenticatedContent} {ctx : GroupContext} (hd : suite ctx.cipherSuite = .ok d)
    (h : a.content.content.Known) {k : Bytes} (hk : Spec.Readable pr ctx.cipherSuite k) : (a.verifySignature pr k ctx).Fine :=
  orFalse_fine (framedContentTBS_fine h _ ctx) fun _ _ => verifyWithLabel_fine hd hk _ _ _

omit hd in
theorem membershipTag_fine {m : PublicMessage} {ctx : GroupContext} (hd : suite ctx.cipherSuite = .ok d)
    (h : m.content.content.Known) (k : Bytes) : (m.verifyMembershipTag pr k ctx).Fine := by
  unfold PublicMessage.verifyMembershipTag
  split
  · exact orFalse_fine (encTBM_fine h ctx) fun _ _ => verifyMAC_fine hd _ _ _
  · exact Res.fine_ok _

theorem signAuthenticatedContent_fine {c : FramedContent} (h : c.content.Known) (k : Bytes) (w : WireFormat)
    (ctx : GroupContext) (r : Bytes) : (signAuthenticatedContent pr cs k w c ctx r).Fine :=
  Res.Fine.bind (framedContentTBS_fine h w ctx) fun _ _ => (signWithLabel_fine hd _ _ _ _).bind fun _ _ => Res.fine_ok _

theorem signPrivateMessageContent_fine {c : FramedContent} (h : c.content.Known) (k : Bytes)
    (ctx : GroupContext) (r : Bytes) : (signPrivateMessageContent pr cs k c ctx r).Fine :=
  (signAuthenticatedContent_fine hd h k _ ctx r).bind fun _ _ => Res.fine_ok _

theorem sampleCiphertext_fine (c : Bytes) : (sampleCiphertext cs c).Fine := by
  unfold sampleCiphertext
  rw [hd]
  simp only [Res.ok_bind]
  split <;> exact Res.fine_ok _

theorem senderDataKey_fine (s c : Bytes) : (expandSenderDataKey pr cs s c).Fine := by
  unfold expandSenderDataKey
  rw [hd]
  exact (sampleCiphertext_fine hd c).bind fun _ _ => expand_aead_fine hd _ _ _ (keySize_le _)

theorem senderDataNonce_fine (s c : Bytes) : (expandSenderDataNonce pr cs s c).Fine := by
  unfold expandSenderDataNonce
  rw [hd]
  refine (sampleCiphertext_fine hd c).bind fun _ _ => expand_aead_fine hd _ _ _ ?_
  rw [nonceSize_eq]
  decide

theorem decryptSenderData_fine (m : PrivateMessage) (s : Bytes) : (m.decryptSenderData pr cs s).Fine :=
  (senderDataKey_fine hd _ _).bind fun _ _ => (senderDataNonce_fine hd _ _).bind fun _ _ =>
    Res.Fine.bind (senderDataAAD_fine _ _ _) fun _ _ => (aeadOpen_fine hd _ _ _ _).bind fun _ _ =>
      unmarshal_safe senderData_safe _

theorem deriveKey_fine (s : RatchetSecret) : (s.deriveKey pr cs).Fine := by
  unfold RatchetSecret.deriveKey deriveTreeSecret
  rw [hd]
  simp only [Res.ok_bind]
  exact expand_aead_fine hd _ _ _ (keySize_le _)

theorem deriveNonce_fine (s : RatchetSecret) : (s.deriveNonce pr cs).Fine := by
  unfold RatchetSecret.deriveNonce deriveTreeSecret
  rw [hd]
  simp only [Res.ok_bind]
  refine expand_aead_fine hd _ _ _ ?_
  rw [nonceSize_eq]
  decide

theorem keyAndNonce_fine (hc : pr.Correct) (s : RatchetSecret) (g : Bytes4) :
    (derivePrivateMessageKeyAndNonce pr cs s g).Fine := by
  unfold derivePrivateMessageKeyAndNonce
  refine (deriveKey_fine hd s).bind fun _ _ => (deriveNonce_fine hd s).bind fun n hn => ?_
  have hl : n.length = 12 := by
    unfold RatchetSecret.deriveNonce deriveTreeSecret expandWithLabel at hn
    rw [hd] at hn
    simp only [Res.ok_bind, Res.bind_ok_iff] at hn
    obtain ⟨_, _, hn⟩ := hn
    split at hn
    · cases hn
    · cases hn
      have e : d.aead.nonceSize.toUInt16.toNat = 12 := by rw [nonceSize_eq]; rfl
      rw [hc.expand_length _ _ _ _ (by rw [e, ← nonceSize_eq d.aead]; exact expandable_nonce _ _), e]
  refine Res.Fine.bind ?_ fun _ _ => Res.fine_ok _
  unfold xorGuard
  match n, hl with
  | _ :: _ :: _ :: _ :: _, _ => exact Res.fine_ok _

theorem encryptContent_fine (hc : pr.Correct) (s : RatchetSecret) (content : FramedContent) {c : PrivateMessageContent}
    (h : c.content.Known) (g : Bytes4) : (encryptPrivateMessageContent pr cs s content c g).Fine :=
  Res.Fine.bind (privateMessageContent_enc_fine h) fun _ _ => (keyAndNonce_fine hd hc s g).bind fun _ _ =>
    Res.Fine.bind (privateContentAAD_fine _ _ _ _) fun _ _ => aeadSeal_fine hd _ _ _ _

theorem encryptSenderData_fine (s : Bytes) (sd : SenderData) (content : FramedContent) (ct : Bytes) :
    (encryptSenderData pr cs s sd content ct).Fine :=
  (senderDataKey_fine hd _ _).bind fun _ _ => (senderDataNonce_fine hd _ _).bind fun _ _ =>
    Res.Fine.bind (senderDataAAD_fine _ _ _) fun _ _ => Res.Fine.bind (senderData_enc_fine sd) fun _ _ =>
      aeadSeal_fine hd _ _ _ _

theorem encryptPrivateMessage_fine (hc : pr.Correct) (s : RatchetSecret) (sds : Bytes) (content : FramedContent)
    {c : PrivateMessageContent} (h : c.content.Known) (sd : SenderData) :
    (encryptPrivateMessage pr cs s sds content c sd).Fine :=
  (encryptContent_fine hd hc s content h _).bind fun _ _ => (encryptSenderData_fine hd _ _ _ _).bind fun _ _ => Res.fine_ok _

/-! ### Leaf nodes and key packages -/

theorem leafNode_verify_fine {n : LeafNode} (h : n.credential.Known) (hr : Spec.Readable pr cs n.signatureKey) {o : VerifyOptions}
    (ho : o.cipherSuite = cs) : (n.verify pr o).Fine := by
  subst ho
  unfold LeafNode.verify
  refine Res.Fine.bind (orFalse_fine (leafNode_encTBS_fine h _ _) fun _ _ => verifyWithLabel_fine hd hr _ _ _) fun _ _ => ?_
  exact (Res.fine_guardErr _).bind fun _ _ => (Res.fine_guardErr _).bind fun _ _ => (Res.fine_guardErr _).bind fun _ _ =>
    (Res.fine_guardErr _).bind fun _ _ => (Res.fine_guardErr _).bind fun _ _ => Res.fine_guardErr _

omit hd in
theorem keyPackage_verify_fine {k : KeyPackage} {ctx : GroupContext} (hd : suite ctx.cipherSuite = .ok d)
    (h : k.leafNode.credential.Known) (hr : Spec.Readable pr ctx.cipherSuite k.leafNode.signatureKey) : (k.verify pr ctx).Fine := by
  unfold KeyPackage.verify
  refine (Res.fine_guardErr _).bind fun _ _ => (Res.fine_guardErr _).bind fun _ hcs => (Res.fine_guardErr _).bind fun _ _ => ?_
  rw [Res.guardErr_ok_iff, beq_iff_eq] at hcs
  refine Res.Fine.bind (orFalse_fine (keyPackage_encTBS_fine h) fun _ _ => ?_) fun _ _ =>
    (Res.fine_guardErr _).bind fun _ _ => Res.fine_guardErr _
  rw [hcs]
  exact verifyWithLabel_fine hd hr _ _ _

end

end Mls
