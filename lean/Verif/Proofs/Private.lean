import Verif.Proofs.Schedule
import Verif.Proofs.Sign
import Verif.Proofs.Codec4
import Verif.Proofs.TreeOps
import Verif.Model.Group
import Verif.Spec.Private
/-
The protection of private messages in the code is that of Spec/Private.lean.
-/
namespace Mls

variable {pr : Prims}

theorem walk_leafPath : ∀ (k base li : Nat), li < 2 ^ k →
    (Spec.ITree.perfect k base).walk (Spec.leafPath k li) = some (base + 2 * li) := by
  intro k
  induction k with
  | zero =>
    intro base li h
    have : li = 0 := by simpa using h
    subst this
    rfl
  | succ k ih =>
    intro base li h
    have hp : 2 ^ (k + 1) = 2 * 2 ^ k := by rw [Nat.pow_succ]; omega
    unfold Spec.leafPath Spec.ITree.perfect
    by_cases hl : 2 ^ k ≤ li
    · simp only [hl, decide_true, if_true, Spec.ITree.walk]
      rw [ih _ _ (by omega)]
      congr 1; omega
    · simp only [hl, decide_false, if_false, Spec.ITree.walk, Bool.false_eq_true]
      rw [ih _ _ (by omega)]

theorem lblEncryption_name : lblPrefix ++ lblEncryption = Spec.ascii ("MLS 1.0 " ++ "encryption") := by decide
theorem lblSenderData_name : lblPrefix ++ lblSenderData = Spec.ascii ("MLS 1.0 " ++ "sender data") := by decide

theorem ratchetLabel_name (ct : ContentType) :
    lblPrefix ++ ratchetLabel ct = Spec.ascii ("MLS 1.0 " ++ Spec.ratchetName ct) := by
  cases ct <;> decide

theorem ratchetLabel_short (ct : ContentType) : (ratchetLabel ct).length < 2 ^ 20 := by
  cases ct <;> decide

theorem nodeOfLeaf_mod31 (li : Nat) : nodeOfLeaf li = 2 * (li % 2 ^ 31) := by
  unfold nodeOfLeaf; omega

/-- The root of the ratchet of a leaf. -/
theorem ratchetRoot_eq {cs : UInt16} {d : SuiteDesc} (hd : suite cs = .ok d) {depth li : Nat} (hdep : depth ≤ 31)
    (hl : li % 2 ^ 31 < 2 ^ depth) (epochSecret : Bytes) (ct : ContentType) :
    ∃ tree, deriveSecretTree pr cs (2 ^ depth) (Spec.deriveSecret pr d epochSecret "encryption") = .ok tree ∧
      deriveRatchetRoot pr cs tree (nodeOfLeaf li) (ratchetLabel ct) =
        .ok ⟨Spec.messageSecret pr d epochSecret depth (li % 2 ^ 31) ct 0, 0⟩ := by
  have hw := width_pow hdep
  have hpow : 2 ^ (depth + 1) ≤ 2 ^ 32 := Nat.pow_le_pow_right (by decide) (by omega)
  have hpos : 0 < 2 ^ depth := Nat.two_pow_pos _
  have hr := idx_range depth 0
  obtain ⟨tree, h1, h2, h3, _⟩ := deriveChildren_spec (pr := pr) hd depth 0 34
    ((List.replicate (2 ^ (depth + 1) - 1) none).set (idx depth 0)
      (some (Spec.deriveSecret pr d epochSecret "encryption"))) _
    (by omega) (by omega) (by simp) (by simp; omega)
    (by rw [List.getElem?_set_self]; simp; omega)
  refine ⟨tree, ?_, ?_⟩
  · unfold deriveSecretTree
    rw [hw, root_idx hdep, Res.setIdx_of_lt _ (by simp; omega)]
    exact h1
  · have hsz := (suite_sizes hd).1
    have := walk_leafPath depth 0 (li % 2 ^ 31) hl
    have h := h3 _ _ (by simpa using this)
    unfold deriveRatchetRoot
    rw [hd, nodeOfLeaf_mod31, secretTreeGet_of (by simpa using h)]
    simp only [Res.ok_bind]
    rw [expandWithLabel_eq hd _ _ (ratchetLabel_name ct) (ratchetLabel_short ct) (by decide) _ (by omega), hsz]
    rfl

/-- The secret tree of a group has no leaf outside it. -/
theorem ratchetRoot_outside {cs : UInt16} {d : SuiteDesc} (hd : suite cs = .ok d) {depth li : Nat} (hdep : depth ≤ 31)
    (hl : 2 ^ depth ≤ li % 2 ^ 31) (secret : Bytes) (ct : ContentType) :
    ∃ tree, deriveSecretTree pr cs (2 ^ depth) secret = .ok tree ∧
      deriveRatchetRoot pr cs tree (nodeOfLeaf li) (ratchetLabel ct) = .panic := by
  have hw := width_pow hdep
  have hpow : 2 ^ (depth + 1) ≤ 2 ^ 32 := Nat.pow_le_pow_right (by decide) (by omega)
  have hp : 2 ^ (depth + 1) = 2 * 2 ^ depth := by rw [Nat.pow_succ]; omega
  have hpos : 0 < 2 ^ depth := Nat.two_pow_pos _
  have hr := idx_range depth 0
  obtain ⟨tree, h1, h2, h3, _⟩ := deriveChildren_spec (pr := pr) hd depth 0 34
    ((List.replicate (2 ^ (depth + 1) - 1) none).set (idx depth 0) (some secret)) _
    (by omega) (by omega) (by simp) (by simp; omega)
    (by rw [List.getElem?_set_self]; simp; omega)
  refine ⟨tree, ?_, ?_⟩
  · unfold deriveSecretTree
    rw [hw, root_idx hdep, Res.setIdx_of_lt _ (by simp; omega)]
    exact h1
  · unfold deriveRatchetRoot
    rw [hd, nodeOfLeaf_mod31]
    simp only [Res.ok_bind]
    have hn : tree[2 * (li % 2 ^ 31)]? = none := by
      rw [List.getElem?_eq_none_iff, h2]; simp; omega
    unfold secretTreeGet Res.idx
    rw [hn]; rfl

theorem xorGuard_mask {nonce : Bytes} (h : 4 ≤ nonce.length) (g : Bytes4) :
    xorGuard nonce g = .ok (Spec.mask nonce g.toBytes) := by
  match nonce, h with
  | n0 :: n1 :: n2 :: n3 :: rest, _ =>
    simp [xorGuard, Spec.mask, Bytes4.toBytes]

/-- Key and nonce of a private message from its ratchet secret. -/
theorem keyAndNonce_eq (hc : pr.Correct) {cs : UInt16} {d : SuiteDesc} (hd : suite cs = .ok d) (s : Bytes)
    (gen : UInt32) (g : Bytes4) :
    derivePrivateMessageKeyAndNonce pr cs ⟨s, gen⟩ g =
      .ok (Spec.deriveTreeSecret pr d s "key" gen.toNat d.aead.keySize,
        Spec.mask (Spec.deriveTreeSecret pr d s "nonce" gen.toNat d.aead.nonceSize) g.toBytes) := by
  have h1 : (UInt16.ofNat d.aead.keySize).toNat = d.aead.keySize := by cases d.aead <;> rfl
  have h2 : d.aead.keySize ≤ 255 * d.kdf.size := by cases d.aead <;> cases d.kdf <;> decide
  have h3 : (UInt16.ofNat d.aead.nonceSize).toNat = d.aead.nonceSize := by cases d.aead <;> rfl
  have h4 : d.aead.nonceSize ≤ 255 * d.kdf.size := by cases d.aead <;> cases d.kdf <;> decide
  have hn := nonceSize_eq d.aead
  unfold derivePrivateMessageKeyAndNonce RatchetSecret.deriveKey RatchetSecret.deriveNonce
  rw [hd]
  simp only [Res.ok_bind]
  rw [deriveTreeSecret_eq hd _ lblKey_name (by decide) _ _ (by omega), h1,
    deriveTreeSecret_eq hd _ lblNonce_name (by decide) _ _ (by omega), h3]
  simp only [Res.ok_bind]
  rw [xorGuard_mask (by
    unfold Spec.deriveTreeSecret Spec.expandWithLabel
    rw [hc.expand_length _ _ _ _ (expandable_nonce _ _)]; omega)]
  rfl

theorem sampleCiphertext_eq {cs : UInt16} {d : SuiteDesc} (hd : suite cs = .ok d) (ct : Bytes) :
    sampleCiphertext cs ct = .ok (ct.take d.kdf.size) := by
  unfold sampleCiphertext
  rw [hd]
  simp only [Res.ok_bind]
  split
  · rw [List.take_of_length_le (by omega)]; rfl
  · rfl

theorem senderDataKey_eq {cs : UInt16} {d : SuiteDesc} (hd : suite cs = .ok d) (epochSecret ct : Bytes) :
    expandSenderDataKey pr cs (Spec.deriveSecret pr d epochSecret "sender data") ct =
      .ok (Spec.senderDataKey pr d epochSecret ct) := by
  have h1 : (UInt16.ofNat d.aead.keySize).toNat = d.aead.keySize := by cases d.aead <;> rfl
  have h2 : d.aead.keySize ≤ 255 * d.kdf.size := by cases d.aead <;> cases d.kdf <;> decide
  have := kdfSize_le d.kdf
  unfold expandSenderDataKey
  rw [hd, sampleCiphertext_eq hd]
  simp only [Res.ok_bind]
  rw [expandWithLabel_eq hd _ _ lblKey_name (by decide) (by rw [List.length_take]; omega) _ (by omega), h1]
  rfl

theorem senderDataNonce_eq {cs : UInt16} {d : SuiteDesc} (hd : suite cs = .ok d) (epochSecret ct : Bytes) :
    expandSenderDataNonce pr cs (Spec.deriveSecret pr d epochSecret "sender data") ct =
      .ok (Spec.senderDataNonce pr d epochSecret ct) := by
  have h1 : (UInt16.ofNat d.aead.nonceSize).toNat = d.aead.nonceSize := by cases d.aead <;> rfl
  have h2 : d.aead.nonceSize ≤ 255 * d.kdf.size := by cases d.aead <;> cases d.kdf <;> decide
  have := kdfSize_le d.kdf
  unfold expandSenderDataNonce
  rw [hd, sampleCiphertext_eq hd]
  simp only [Res.ok_bind]
  rw [expandWithLabel_eq hd _ _ lblNonce_name (by decide) (by rw [List.length_take]; omega) _ (by omega), h1]
  rfl

theorem beBytes8 (n : Nat) : beBytes 8 n = Spec.be8 n := by
  simp only [beBytes, Spec.be8, Spec.be4, List.cons_append, List.nil_append, List.cons.injEq, and_true,
    ← UInt8.toNat_inj, UInt8.toNat_ofNat']
  refine ⟨?_, ?_, ?_, ?_, ?_, ?_, ?_, ?_⟩ <;> omega

theorem contentType_enc (ct : ContentType) : ct.enc = .ok [Spec.contentTypeNumber ct] := by
  cases ct <;> rfl

theorem senderDataAAD_iff (gid : Bytes) (epoch : UInt64) (ct : ContentType) (aad : Bytes) :
    encSenderDataAAD gid epoch ct = .ok aad ↔
      gid.length < 2 ^ 30 ∧ aad = Spec.senderDataAAD gid epoch.toNat ct := by
  unfold encSenderDataAAD Spec.senderDataAAD
  by_cases hg : gid.length < 2 ^ 30
  · rw [writeOpaqueVec_vec hg, contentType_enc, addU64, beBytes8]
    constructor
    · intro h; cases h; exact ⟨hg, rfl⟩
    · rintro ⟨_, rfl⟩; rfl
  · rw [writeOpaqueVec_long hg]
    constructor
    · intro h; simp [Enc.append_ok_iff] at h
    · rintro ⟨h, _⟩; exact absurd h hg

theorem contentAAD_iff (gid : Bytes) (epoch : UInt64) (ct : ContentType) (ad aad : Bytes) :
    encPrivateContentAAD gid epoch ct ad = .ok aad ↔
      gid.length < 2 ^ 30 ∧ ad.length < 2 ^ 30 ∧ aad = Spec.contentAAD gid epoch.toNat ct ad := by
  unfold encPrivateContentAAD Spec.contentAAD
  by_cases hg : gid.length < 2 ^ 30
  · by_cases ha : ad.length < 2 ^ 30
    · rw [writeOpaqueVec_vec hg, writeOpaqueVec_vec ha, contentType_enc, addU64, beBytes8]
      constructor
      · intro h; cases h; exact ⟨hg, ha, rfl⟩
      · rintro ⟨_, _, rfl⟩; rfl
    · rw [writeOpaqueVec_vec hg, writeOpaqueVec_long ha, contentType_enc, addU64]
      constructor
      · intro h; cases h
      · rintro ⟨_, h, _⟩; exact absurd h ha
  · rw [writeOpaqueVec_long hg]
    constructor
    · intro h; simp [Enc.append_ok_iff] at h
    · rintro ⟨h, _⟩; exact absurd h hg

theorem senderData_enc (sd : SenderData) :
    sd.enc = .ok (Spec.senderData sd.leafIndex.toNat sd.generation.toNat sd.reuseGuard.toBytes) := by
  unfold SenderData.enc Spec.senderData
  rw [addU32, addU32, beBytes4, beBytes4]
  rfl

theorem unmarshal_senderData {raw : Bytes} {sd : SenderData} :
    unmarshal SenderData.dec raw = .ok sd ↔
      raw = Spec.senderData sd.leafIndex.toNat sd.generation.toNat sd.reuseGuard.toBytes := by
  constructor
  · intro h
    rw [unmarshal_ok_iff] at h
    obtain ⟨bs, h1, h2⟩ := senderData_canon _ _ _ h trivial
    rw [senderData_enc] at h1
    cases h1
    simpa using h2
  · rintro rfl
    exact unmarshal_rt senderData_rt (senderData_enc sd) trivial

theorem aeadOpen_ok_iff {cs : UInt16} {d : SuiteDesc} (hd : suite cs = .ok d) {k n c a p : Bytes} :
    aeadOpen pr cs k n c a = .ok p ↔ pr.aeadOpen d.aead k n c a = some p := by
  unfold aeadOpen
  rw [hd]
  simp only [Res.ok_bind, orErr_ok_iff]

theorem aeadSeal_ok_iff {cs : UInt16} {d : SuiteDesc} (hd : suite cs = .ok d) {k n c a p : Bytes} :
    aeadSeal pr cs k n c a = .ok p ↔ pr.aeadSeal d.aead k n c a = some p := by
  unfold aeadSeal
  rw [hd]
  simp only [Res.ok_bind, orErr_ok_iff]

theorem decodePadded_iff {ct : ContentType} {raw : Bytes} {c : PrivateMessageContent} :
    decodePadded ct raw = .ok c ↔
      ∃ k, (PrivateMessageContent.dec ct).run raw = (.ok c, List.replicate k 0) := by
  unfold decodePadded
  rcases h : (PrivateMessageContent.dec ct).run raw with ⟨_ | _ | _ | _, rest⟩
  · next c' =>
    simp only [Prod.mk.injEq, Res.ok.injEq]
    split
    · next hr =>
      rw [List.all_eq_true] at hr
      have hr' : rest = List.replicate rest.length 0 :=
        List.eq_replicate_iff.2 ⟨rfl, fun b hb => by simpa using hr b hb⟩
      constructor
      · intro h; cases h; exact ⟨rest.length, rfl, hr'⟩
      · rintro ⟨k, rfl, _⟩; rfl
    · next hr =>
      constructor
      · intro h; cases h
      · rintro ⟨k, rfl, rfl⟩
        exact absurd (by simp) hr
  all_goals simp

/-- The decryption of the sender data. -/
theorem decryptSenderData_iff {cs : UInt16} {d : SuiteDesc} (hd : suite cs = .ok d) (epochSecret : Bytes)
    (m : PrivateMessage) (sd : SenderData) :
    m.decryptSenderData pr cs (Spec.deriveSecret pr d epochSecret "sender data") = .ok sd ↔
      m.groupID.length < 2 ^ 30 ∧
      pr.aeadOpen d.aead (Spec.senderDataKey pr d epochSecret m.ciphertext)
        (Spec.senderDataNonce pr d epochSecret m.ciphertext) m.encryptedSenderData
        (Spec.senderDataAAD m.groupID m.epoch.toNat m.contentType) =
      some (Spec.senderData sd.leafIndex.toNat sd.generation.toNat sd.reuseGuard.toBytes) := by
  unfold PrivateMessage.decryptSenderData
  rw [senderDataKey_eq hd, senderDataNonce_eq hd]
  simp only [Res.ok_bind, Res.bind_ok_iff, senderDataAAD_iff, aeadOpen_ok_iff hd, unmarshal_senderData]
  constructor
  · rintro ⟨_, ⟨h1, rfl⟩, _, h2, rfl⟩; exact ⟨h1, h2⟩
  · rintro ⟨h1, h2⟩; exact ⟨_, ⟨h1, rfl⟩, _, h2, rfl⟩

/-- The decryption of the content. -/
theorem decryptContent_iff (hc : pr.Correct) {cs : UInt16} {d : SuiteDesc} (hd : suite cs = .ok d)
    (m : PrivateMessage) (s : Bytes) (gen : UInt32) (g : Bytes4) (c : PrivateMessageContent) :
    m.decryptContent pr cs ⟨s, gen⟩ g = .ok c ↔
      m.groupID.length < 2 ^ 30 ∧ m.authenticatedData.length < 2 ^ 30 ∧
      ∃ pt k, pr.aeadOpen d.aead (Spec.deriveTreeSecret pr d s "key" gen.toNat d.aead.keySize)
        (Spec.mask (Spec.deriveTreeSecret pr d s "nonce" gen.toNat d.aead.nonceSize) g.toBytes) m.ciphertext
        (Spec.contentAAD m.groupID m.epoch.toNat m.contentType m.authenticatedData) = some pt ∧
        (PrivateMessageContent.dec m.contentType).run pt = (.ok c, List.replicate k 0) := by
  unfold PrivateMessage.decryptContent
  rw [keyAndNonce_eq hc hd]
  simp only [Res.ok_bind, Res.bind_ok_iff, contentAAD_iff, aeadOpen_ok_iff hd, decodePadded_iff]
  constructor
  · rintro ⟨_, ⟨h1, h2, rfl⟩, pt, h3, k, h4⟩; exact ⟨h1, h2, pt, k, h3, h4⟩
  · rintro ⟨h1, h2, pt, k, h3, h4⟩; exact ⟨_, ⟨h1, h2, rfl⟩, pt, h3, k, h4⟩

theorem getLeaf_ok_some_iff {t : VTree} {li : Nat} {l : LeafNode} :
    getLeaf t li = .ok (some l) ↔ t[nodeOfLeaf li]? = some (some (.leaf l)) := by
  unfold getLeaf
  rw [Res.bind_ok_iff]
  simp only [Res.idx_ok_iff]
  constructor
  · rintro ⟨n, hn, h⟩
    cases n with
    | none => cases h
    | some n => cases n <;> cases h; exact hn
  · intro h; exact ⟨_, h, rfl⟩

end Mls
