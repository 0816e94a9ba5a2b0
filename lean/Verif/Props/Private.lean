import Verif.Proofs.Private
import Verif.Proofs.TreeHeap
import Verif.Props.GroupEffects
import Verif.Props.KeyPackages
import Verif.Props.Confirmation
import Verif.Props.Schedule
/-
C46, C61, C62: the protection of private messages. C52, C63: the transcript of a created group.
-/
namespace Mls

/-! ### C61: padding -/

/-- C61: content followed by any number of zero bytes decodes to the content. -/
theorem C61_zero_padding (c : PrivateMessageContent) (bs : Bytes) (k : Nat) (h : c.enc = .ok bs)
    (hw : c.content.WF) (ha : c.auth.WF c.content.ty) :
    decodePadded c.content.ty (bs ++ List.replicate k 0) = .ok c :=
  decodePadded_iff.2 ⟨k, privateContent_rt c bs _ h hw ha⟩

/-- C61: content followed by anything but zero bytes is refused. -/
theorem C61_other_padding (c : PrivateMessageContent) (bs pad : Bytes) (h : c.enc = .ok bs)
    (hw : c.content.WF) (ha : c.auth.WF c.content.ty) (b : UInt8) (hb : b ∈ pad) (hz : b ≠ 0) :
    decodePadded c.content.ty (bs ++ pad) = .err := by
  unfold decodePadded
  rw [privateContent_rt c bs pad h hw ha]
  dsimp only
  rw [if_neg]
  intro hall
  rw [List.all_eq_true] at hall
  exact hz (by simpa using hall b hb)

/-- C61: what is accepted is exactly one content followed by zero bytes, when the content holds no
key package read past its end (see C05). -/
theorem C61_accepted (ct : ContentType) (raw : Bytes) (c : PrivateMessageContent)
    (h : decodePadded ct raw = .ok c) (hs : c.content.Signed) :
    ∃ bs k, c.enc = .ok bs ∧ raw = bs ++ List.replicate k 0 ∧ c.content.ty = ct := by
  obtain ⟨k, hk⟩ := decodePadded_iff.1 h
  obtain ⟨h1, _, _, h4⟩ := privateContent_dec hk
  obtain ⟨bs, h5, h6⟩ := h4 hs
  exact ⟨bs, k, h5, h6, h1⟩

/-- Application data "A" with signature "S": two zero bytes of padding pass, a one does not. -/
example : decodePadded .application [1, 65, 1, 83, 0, 0] = .ok ⟨.application [65], ⟨[83], []⟩⟩ ∧
    decodePadded .application [1, 65, 1, 83, 0, 1] = .err := by decide

/-! ### C62: the keys, nonces and additional data of private messages -/

/-- The private message `m` reaches the group as RFC 9420 section 6.3 has it: it is for the group and
its epoch; under the sender data key and nonce of the epoch its sender data are `li`, `gen`, `guard`;
under the key of generation `gen` of leaf `li`'s ratchet for the content type, and the nonce masked by
the guard, the plaintext is `pt`. -/
structure Spec.Opens (pr : Prims) (d : SuiteDesc) (ctx : GroupContext) (epochSecret : Bytes) (depth : Nat)
    (m : PrivateMessage) (li gen : Nat) (guard : Bytes) (pt : Bytes) : Prop where
  group : m.groupID = ctx.groupID
  epoch : m.epoch = ctx.epoch
  sender : pr.aeadOpen d.aead (Spec.senderDataKey pr d epochSecret m.ciphertext)
    (Spec.senderDataNonce pr d epochSecret m.ciphertext) m.encryptedSenderData
    (Spec.senderDataAAD m.groupID m.epoch.toNat m.contentType) = some (Spec.senderData li gen guard)
  inside : li % 2 ^ 31 < 2 ^ depth
  content : pr.aeadOpen d.aead (Spec.messageKey pr d epochSecret depth (li % 2 ^ 31) m.contentType gen)
    (Spec.messageNonce pr d epochSecret depth (li % 2 ^ 31) m.contentType gen guard) m.ciphertext
    (Spec.contentAAD m.groupID m.epoch.toNat m.contentType m.authenticatedData) = some pt

/-- C62, receiving: a private message yields authenticated content exactly when it opens as the RFC
says, its plaintext is a content of the announced type followed by zero bytes, and the content is
signed by the leaf the sender data name (modulo 2^31, see C47_refuted). -/
theorem C62_received (pr : Prims) (hc : pr.Correct) (st : GroupState) (d : SuiteDesc)
    (hd : suite st.group.groupContext.cipherSuite = .ok d) (depth : Nat) (hdep : depth ≤ 31)
    (hlen : st.group.tree.length = 2 ^ (depth + 1) - 1) (m : PrivateMessage) (a : AuthenticatedContent) :
    decryptPrivateMessage pr st m = .ok a ↔
      m.groupID.length < 2 ^ 30 ∧ m.authenticatedData.length < 2 ^ 30 ∧
      ∃ (li gen : UInt32) (guard : Bytes4) (pt : Bytes) (c : PrivateMessageContent) (k : Nat) (leaf : LeafNode)
        (tbs : Bytes),
        Spec.Opens pr d st.group.groupContext st.group.epochSecret depth m li.toNat gen.toNat guard.toBytes pt ∧
        (PrivateMessageContent.dec m.contentType).run pt = (.ok c, List.replicate k 0) ∧
        a = { wireFormat := .privateMessage,
              content := { groupID := m.groupID, epoch := m.epoch, sender := .member li,
                           authenticatedData := m.authenticatedData, content := c.content },
              auth := c.auth } ∧
        st.vtree[2 * (li.toNat % 2 ^ 31)]? = some (some (.leaf leaf)) ∧
        (Spec.Rfc.framedContentTBS .privateMessage a.content st.group.groupContext).bytes = some tbs ∧
        Spec.ValidSig pr st.group.groupContext.cipherSuite leaf.signatureKey "FramedContentTBS" tbs
          a.auth.signature := by
  have hn := numLeaves_pow hdep hlen
  unfold decryptPrivateMessage
  simp only [hn, deriveSecret_eq hd _ lblSenderData_name (by decide),
    deriveSecret_eq hd _ lblEncryption_name (by decide), Res.ok_bind, Res.bind_ok_iff, Res.guardErr_ok_iff,
    beq_iff_eq, decryptSenderData_iff hd, orErr_ok_iff]
  constructor
  · rintro ⟨_, hg, _, he, sd, ⟨hgl, hsd⟩, tree, htree, s0, hs0, s, hs, c, hcon, o, hl, leaf, ho, sigOk, hsig, _,
      hsig', h⟩
    subst ho; subst hsig'
    simp only [Res.pure_eq, Res.ok.injEq] at h
    by_cases hin : sd.leafIndex.toNat % 2 ^ 31 < 2 ^ depth
    · obtain ⟨tree', ht', hr'⟩ := ratchetRoot_eq (pr := pr) hd hdep hin st.group.epochSecret m.contentType
      rw [ht'] at htree; cases htree
      rw [hr'] at hs0; cases hs0
      have hff := fastForward_eq (pr := pr) hd (Spec.messageSecret pr d st.group.epochSecret depth
        (sd.leafIndex.toNat % 2 ^ 31) m.contentType 0) sd.generation sd.generation.toNat 0 (2 ^ 32) (by omega)
        (by have := sd.generation.toNat_lt; omega)
      rw [show (UInt32.ofNat 0) = 0 from rfl] at hff
      have hff' := hff.symm.trans hs
      cases hff'
      rw [decryptContent_iff hc hd] at hcon
      obtain ⟨_, hal, pt, k, hpt, hdec⟩ := hcon
      rw [content_verifySignature_iff] at hsig
      obtain ⟨tbs, htbs, hv⟩ := hsig
      rw [getLeaf_ok_some_iff, nodeOfLeaf_mod31] at hl
      refine ⟨hgl, hal, sd.leafIndex, sd.generation, sd.reuseGuard, pt, c, k, leaf, tbs,
        ⟨hg, he, hsd, hin, hpt⟩, hdec, h.symm, hl, ?_, ?_⟩
      · rw [← h]; exact htbs
      · rw [← h]; exact hv
    · exfalso
      obtain ⟨tree', ht', hr'⟩ := ratchetRoot_outside (pr := pr) hd hdep (Nat.le_of_not_lt hin)
        (Spec.deriveSecret pr d st.group.epochSecret "encryption") m.contentType
      rw [ht'] at htree; cases htree
      rw [hr'] at hs0; cases hs0
  · rintro ⟨hgl, hal, li, gen, guard, pt, c, k, leaf, tbs, ⟨hg, he, hsd, hin, hpt⟩, hdec, ha, hl, htbs, hv⟩
    obtain ⟨tree, ht, hr⟩ := ratchetRoot_eq (pr := pr) hd hdep hin st.group.epochSecret m.contentType
    have hff := fastForward_eq (pr := pr) hd (Spec.messageSecret pr d st.group.epochSecret depth
      (li.toNat % 2 ^ 31) m.contentType 0) gen gen.toNat 0 (2 ^ 32) (by omega)
      (by have := gen.toNat_lt; omega)
    refine ⟨(), hg, (), he, ⟨li, gen, guard⟩, ⟨hgl, hsd⟩, tree, ht, _, hr, _, hff, c,
      (decryptContent_iff hc hd _ _ _ _ _).2 ⟨hgl, hal, pt, k, hpt, hdec⟩, some leaf, ?_, leaf, rfl, true, ?_, (), rfl,
      ha ▸ rfl⟩
    · rw [getLeaf_ok_some_iff, nodeOfLeaf_mod31]; exact hl
    · rw [content_verifySignature_iff]
      subst ha
      exact ⟨tbs, htbs, hv⟩

/-- A message encrypted by a member: it is a private message that everybody in the epoch opens to the
encoded content, at the member's leaf and generation 0. -/
theorem encrypt_opens {pr : Prims} (hc : pr.Correct) {g : Group} {d : SuiteDesc}
    (hd : suite g.groupContext.cipherSuite = .ok d) {depth : Nat} (hdep : depth ≤ 31)
    (hlen : g.tree.length = 2 ^ (depth + 1) - 1) (hin : g.myLeafIndex.toNat < 2 ^ depth) {content : Content}
    {c : PrivateMessageContent} {guard : Bytes4} {raw : Bytes}
    (h : g.encryptPrivateMessage pr (g.framedContent content) c guard = .ok raw) :
    ∃ m pt, unmarshal MlsMessage.dec raw = .ok ⟨1, .privateMessage m⟩ ∧ c.enc = .ok pt ∧
      m.contentType = content.ty ∧ m.authenticatedData = [] ∧ m.groupID.length < 2 ^ 30 ∧
      Spec.Opens pr d g.groupContext g.epochSecret depth m g.myLeafIndex.toNat 0 guard.toBytes pt ∧
      pr.aeadSeal d.aead (Spec.messageKey pr d g.epochSecret depth g.myLeafIndex.toNat content.ty 0)
        (Spec.messageNonce pr d g.epochSecret depth g.myLeafIndex.toNat content.ty 0 guard.toBytes) pt
        (Spec.contentAAD g.groupContext.groupID g.groupContext.epoch.toNat content.ty []) = some m.ciphertext ∧
      pr.aeadSeal d.aead (Spec.senderDataKey pr d g.epochSecret m.ciphertext)
        (Spec.senderDataNonce pr d g.epochSecret m.ciphertext)
        (Spec.senderData g.myLeafIndex.toNat 0 guard.toBytes)
        (Spec.senderDataAAD g.groupContext.groupID g.groupContext.epoch.toNat content.ty) =
          some m.encryptedSenderData := by
  have hpow : 2 ^ depth ≤ 2 ^ 31 := Nat.pow_le_pow_right (by decide) hdep
  have hmod : g.myLeafIndex.toNat % 2 ^ 31 = g.myLeafIndex.toNat := Nat.mod_eq_of_lt (by omega)
  obtain ⟨tree, ht, hr⟩ := ratchetRoot_eq (pr := pr) hd hdep (li := g.myLeafIndex.toNat) (by omega) g.epochSecret content.ty
  have hn := numLeaves_pow hdep hlen
  unfold Group.encryptPrivateMessage at h
  simp only [hn, deriveSecret_eq hd _ lblSenderData_name (by decide),
    deriveSecret_eq hd _ lblEncryption_name (by decide), Res.ok_bind, ht, Group.framedContent, hr] at h
  rw [hmod] at h
  rw [Res.bind_ok_iff] at h
  obtain ⟨m, hm, hraw⟩ := h
  unfold encryptPrivateMessage encryptPrivateMessageContent encryptSenderData at hm
  simp only [keyAndNonce_eq hc hd, senderDataKey_eq hd, senderDataNonce_eq hd, Res.ok_bind, Res.bind_ok_iff,
    contentAAD_iff, senderDataAAD_iff, aeadSeal_ok_iff hd, senderData_enc] at hm
  obtain ⟨ct, ⟨pt, hpt, _, ⟨hgl, _, rfl⟩, hct⟩, esd, ⟨_, ⟨_, rfl⟩, hesd⟩, hm⟩ := hm
  simp only [Res.pure_eq, Res.ok.injEq] at hm
  subst hm
  refine ⟨_, pt, unmarshal_rt message_rt hraw ⟨rfl, trivial⟩, hpt, rfl, rfl, hgl, ⟨rfl, rfl, ?_, ?_, ?_⟩, hct, hesd⟩
  · exact hc.aead_open _ _ _ _ _ _ hesd
  · omega
  · rw [hmod]; exact hc.aead_open _ _ _ _ _ _ hct

/-- C62, sending application data: CreateApplicationMessage seals the signed data under the key of
generation 0 of the application ratchet of the member's leaf, with the nonce masked by the guard, and
the sender data under the key sampled from that ciphertext. -/
theorem C62_sent_application (pr : Prims) (hc : pr.Correct) (st : GroupState) (d : SuiteDesc)
    (hd : suite st.group.groupContext.cipherSuite = .ok d) (depth : Nat) (hdep : depth ≤ 31)
    (hlen : st.group.tree.length = 2 ^ (depth + 1) - 1) (hin : st.group.myLeafIndex.toNat < 2 ^ depth)
    (data sigRand : Bytes) (guard : Bytes4) (raw : Bytes)
    (h : createApplicationMessage pr st data sigRand guard = .ok raw) :
    ∃ m pt sig tbs, unmarshal MlsMessage.dec raw = .ok ⟨1, .privateMessage m⟩ ∧
      m.contentType = .application ∧ m.authenticatedData = [] ∧
      encFramedContentTBS .privateMessage
        { groupID := st.group.groupContext.groupID, epoch := st.group.groupContext.epoch,
          sender := .member st.group.myLeafIndex, authenticatedData := [], content := .application data }
        st.group.groupContext = .ok tbs ∧
      signWithLabel pr st.group.groupContext.cipherSuite st.group.signaturePriv lblFramedContentTBS tbs sigRand =
        .ok sig ∧
      PrivateMessageContent.enc ⟨.application data, ⟨sig, []⟩⟩ = .ok pt ∧
      Spec.Opens pr d st.group.groupContext st.group.epochSecret depth m st.group.myLeafIndex.toNat 0
        guard.toBytes pt ∧
      pr.aeadSeal d.aead
        (Spec.messageKey pr d st.group.epochSecret depth st.group.myLeafIndex.toNat .application 0)
        (Spec.messageNonce pr d st.group.epochSecret depth st.group.myLeafIndex.toNat .application 0 guard.toBytes) pt
        (Spec.contentAAD st.group.groupContext.groupID st.group.groupContext.epoch.toNat .application []) =
          some m.ciphertext ∧
      pr.aeadSeal d.aead (Spec.senderDataKey pr d st.group.epochSecret m.ciphertext)
        (Spec.senderDataNonce pr d st.group.epochSecret m.ciphertext)
        (Spec.senderData st.group.myLeafIndex.toNat 0 guard.toBytes)
        (Spec.senderDataAAD st.group.groupContext.groupID st.group.groupContext.epoch.toNat .application) =
          some m.encryptedSenderData := by
  unfold createApplicationMessage at h
  dsimp only at h
  rw [Res.bind_ok_iff] at h
  obtain ⟨c, hcon, h⟩ := h
  unfold signPrivateMessageContent signAuthenticatedContent at hcon
  simp only [Res.bind_ok_iff] at hcon
  obtain ⟨a, ⟨tbs, htbs, sig, hsig, ha⟩, hcc⟩ := hcon
  simp only [Res.pure_eq, Res.ok.injEq] at ha hcc
  subst ha; subst hcc
  obtain ⟨m, pt, h1, h2, h3, h4, h5, h6, h7, h8⟩ := encrypt_opens hc hd hdep hlen hin h
  exact ⟨m, pt, sig, tbs, h1, h3, h4, htbs, hsig, h2, h6, h7, h8⟩

/-- C62, sending a commit: the message that CreateWelcome returns is a commit sealed under the handshake
ratchet of the inviter's leaf. -/
theorem C62_sent_commit (pr : Prims) (hc : pr.Correct) (st : GroupState) (d : SuiteDesc)
    (hd : suite st.group.groupContext.cipherSuite = .ok d) (depth : Nat) (hdep : depth ≤ 31)
    (hlen : st.group.tree.length = 2 ^ (depth + 1) - 1) (hin : st.group.myLeafIndex.toNat < 2 ^ depth)
    (keyPkgs : List KeyPackage) (r : WelcomeRand) (w : Welcome) (raw : Bytes)
    (h : (createWelcome pr st keyPkgs r).1 = .ok (w, raw)) :
    ∃ m pt auth, unmarshal MlsMessage.dec raw = .ok ⟨1, .privateMessage m⟩ ∧
      m.contentType = .commit ∧ m.authenticatedData = [] ∧
      PrivateMessageContent.enc
        ⟨.commit { proposals := keyPkgs.map fun k => .proposal (.add k), path := none }, auth⟩ = .ok pt ∧
      Spec.Opens pr d st.group.groupContext st.group.epochSecret depth m st.group.myLeafIndex.toNat 0
        r.guard.toBytes pt ∧
      pr.aeadSeal d.aead
        (Spec.messageKey pr d st.group.epochSecret depth st.group.myLeafIndex.toNat .commit 0)
        (Spec.messageNonce pr d st.group.epochSecret depth st.group.myLeafIndex.toNat .commit 0 r.guard.toBytes) pt
        (Spec.contentAAD st.group.groupContext.groupID st.group.groupContext.epoch.toNat .commit []) =
          some m.ciphertext := by
  unfold createWelcome at h
  split at h
  · cases h
  · split at h
    · unfold finishWelcome at h
      simp only [Res.bind_ok_iff] at h
      obtain ⟨_, _, _, _, _, _, c, hcon, _, _, _, _, _, _, tag, _, _, _, _, _, _, _, _, _, _, henc, h⟩ := h
      simp only [Res.pure_eq, Res.ok.injEq, Prod.mk.injEq] at h
      obtain ⟨_, rfl⟩ := h
      obtain ⟨m, pt, h1, h2, h3, h4, h5, h6, h7, h8⟩ := encrypt_opens hc hd hdep hlen hin henc
      refine ⟨m, pt, { c.auth with confirmationTag := tag }, h1, h3, h4, ?_, h6, h7⟩
      unfold signPrivateMessageContent at hcon
      simp only [Res.bind_ok_iff] at hcon
      obtain ⟨a, _, hcc⟩ := hcon
      simp only [Res.pure_eq, Res.ok.injEq] at hcc
      subst hcc
      exact h2
    all_goals cases h

/-- An invitation by a member of a group of two. -/
example : (∃ w raw, (createWelcome toyPrims toyPair [toyKeyPackage 2] default).1 = .ok (w, raw)) ∧
    toyPair.group.tree.length = 2 ^ (1 + 1) - 1 := by
  have : ((createWelcome toyPrims toyPair [toyKeyPackage 2] default).1.bind fun _ => .ok ()) = .ok () := by
    decide +kernel
  obtain ⟨⟨w, raw⟩, h, _⟩ := Res.bind_ok_iff.1 this
  exact ⟨⟨w, raw, h⟩, rfl⟩

/-! ### C46 -/

/-- Two members in the same epoch state: same group context, same epoch secret, same tree. -/
structure Spec.SameEpoch (st st' : GroupState) : Prop where
  context : st'.group.groupContext = st.group.groupContext
  secret : st'.group.epochSecret = st.group.epochSecret
  tree : st'.vtree = st.vtree

/-- The member's own leaf carries the public key of its signature key, generated from `r`. -/
def Spec.OwnLeaf (pr : Prims) (st : GroupState) : Prop :=
  ∃ d r leaf, suite st.group.groupContext.cipherSuite = .ok d ∧
    st.vtree[2 * st.group.myLeafIndex.toNat]? = some (some (.leaf leaf)) ∧
    leaf.signatureKey = (pr.sigKeyPair d.sig r).1 ∧ st.group.signaturePriv = (pr.sigKeyPair d.sig r).2

/-- C46: whatever CreateApplicationMessage returns is processed, by every member in the same epoch
state and at any time, to exactly the data, and leaves that member's state alone. -/
theorem C46_delivery (pr : Prims) (hc : pr.Correct) (st st' : GroupState) (depth : Nat) (hdep : depth ≤ 31)
    (hlen : st.group.tree.length = 2 ^ (depth + 1) - 1) (hown : Spec.OwnLeaf pr st) (hsame : Spec.SameEpoch st st')
    (data sigRand : Bytes) (guard : Bytes4) (raw : Bytes) (now : GoTime)
    (h : createApplicationMessage pr st data sigRand guard = .ok raw) :
    unmarshalAndProcessMessage pr st' raw now = (.ok (some data), st') := by
  obtain ⟨d, r, leaf, hd, hleaf, hpub, hpriv⟩ := hown
  have hvl : st.vtree.length = st.group.tree.length := derefTree_length _ _
  have hvl' : st'.vtree.length = st'.group.tree.length := derefTree_length _ _
  have hlt := (List.getElem?_eq_some_iff.1 hleaf).1
  have hp : 2 ^ (depth + 1) = 2 * 2 ^ depth := by rw [Nat.pow_succ]; omega
  have hpow : 2 ^ depth ≤ 2 ^ 31 := Nat.pow_le_pow_right (by decide) hdep
  have hin : st.group.myLeafIndex.toNat < 2 ^ depth := by omega
  have hmod : st.group.myLeafIndex.toNat % 2 ^ 31 = st.group.myLeafIndex.toNat := Nat.mod_eq_of_lt (by omega)
  obtain ⟨m, pt, sig, tbs, hm, hty, had, htbs, hsig, hpt, hopen, _⟩ :=
    C62_sent_application pr hc st d hd depth hdep hlen hin data sigRand guard raw h
  refine application_of hm (a := ⟨.privateMessage, ⟨m.groupID, m.epoch, .member st.group.myLeafIndex,
    m.authenticatedData, .application data⟩, ⟨sig, []⟩⟩) ?_ rfl
  have hlen' : st'.group.tree.length = 2 ^ (depth + 1) - 1 := by rw [← hvl', hsame.tree, hvl, hlen]
  rw [C62_received pr hc st' d (by rw [hsame.context]; exact hd) depth hdep hlen']
  refine ⟨?_, by rw [had]; decide, st.group.myLeafIndex, 0, guard, pt, ⟨.application data, ⟨sig, []⟩⟩, 0, leaf, tbs,
    ?_, ?_, rfl, ?_, ?_, ?_⟩
  · rw [hopen.group]
    by_cases hg : st.group.groupContext.groupID.length < 2 ^ 30
    · exact hg
    · exfalso
      unfold encFramedContentTBS FramedContent.enc at htbs
      simp only [Enc.append_ok_iff, writeOpaqueVec_long hg] at htbs
      simp at htbs
  · rw [hsame.context, hsame.secret]; exact hopen
  · rw [hty]
    have := privateContent_rt ⟨.application data, ⟨sig, []⟩⟩ pt [] hpt trivial (Or.inr rfl)
    rw [List.append_nil] at this
    exact this
  · rw [hsame.tree, hmod]; exact hleaf
  · rw [hsame.context, hopen.group, hopen.epoch, had]; exact contentTBS_some.2 htbs
  · rw [hsame.context, hpub]
    rw [hpriv] at hsig
    exact signWithLabel_valid hc hd lblFramedContentTBS_name (by decide) hsig

/-- Two members of the same group of two. -/
def toyOther : GroupState := toyState [] toyPair.group.tree 1 1

/-- Both have the epoch state, and the second writes to the first and to itself. -/
example : Spec.SameEpoch toyOther toyPair ∧ Spec.OwnLeaf toyPrims toyOther ∧
    toyOther.group.tree.length = 2 ^ (1 + 1) - 1 ∧
    (∃ raw, createApplicationMessage toyPrims toyOther [72, 105] [] ⟨1, 2, 3, 4⟩ = .ok raw ∧
      unmarshalAndProcessMessage toyPrims toyPair raw toyNow = (.ok (some [72, 105]), toyPair) ∧
      unmarshalAndProcessMessage toyPrims toyOther raw toyNow = (.ok (some [72, 105]), toyOther)) := by
  refine ⟨⟨rfl, rfl, rfl⟩, ⟨⟨.sha256, .x25519, .sha256, .aes128gcm, .ed25519⟩, [11, 1], toyLeaf 1, rfl, rfl, ?_, ?_⟩, rfl, ?_⟩
  · decide +kernel
  · decide +kernel
  · exact ⟨_, rfl, by decide +kernel, by decide +kernel⟩

/-! ### C52, C63: the transcript of a created group -/

/-- C52: the interim transcript hash of a created group hashes the confirmed one, which is Nh zero bytes,
and the confirmation tag, which is the MAC of the confirmed one under the epoch's confirmation key. No PSK
enters. -/
theorem C52_transcript (pr : Prims) (groupID : Bytes) (kp : KeyPairPackage) (rand : Nat → UInt8) (st : GroupState)
    (h : createGroup pr groupID kp rand = .ok st) :
    ∃ d, (kp.pub.cipherSuite.toNat, d) ∈ Spec.suites ∧
      st.group.groupContext.confirmedTranscriptHash = List.replicate d.hash.size 0 ∧
      st.group.interimTranscriptHash = pr.hash d.hash (List.replicate d.hash.size 0 ++
        Spec.vec (pr.mac d.hash (Spec.deriveSecret pr d st.group.epochSecret "confirm")
          (List.replicate d.hash.size 0))) ∧
      st.group.pskSecret = List.replicate d.kdf.size 0 := by
  unfold createGroup at h
  rw [treeAdd_single] at h
  simp only [Res.ok_bind, Res.bind_ok_iff] at h
  obtain ⟨pt, hpt, th, hth, d, hd, tag, htag, interim, hi, psk, hpsk, init, hinit, he⟩ := h
  cases he
  have hn2 : lblPrefix ++ lblConfirm = Spec.ascii ("MLS 1.0 " ++ "confirm") := by decide
  unfold GroupContext.signConfirmationTag signMAC at htag
  simp only [deriveSecret_eq hd _ hn2 (by decide), hd, Res.ok_bind, Res.pure_eq, Res.ok.injEq] at htag
  subst htag
  obtain ⟨d', hd', _, hx⟩ := nextInterim_ok hi
  rw [hd] at hd'; cases hd'
  rw [C38_none pr _ d hd] at hpsk
  cases hpsk
  exact ⟨d, (suite_iff_spec _ _).1 hd, rfl, hx, rfl⟩

/-- C63 is false for every created group: RFC 9420 section 11 starts the confirmed transcript hash from
the zero-length string, the code from Nh zero bytes. -/
theorem C63_refuted (pr : Prims) (groupID : Bytes) (kp : KeyPairPackage) (rand : Nat → UInt8) (st : GroupState)
    (h : createGroup pr groupID kp rand = .ok st) : st.group.groupContext.confirmedTranscriptHash ≠ [] := by
  obtain ⟨d, _, h1, _⟩ := C52_transcript pr groupID kp rand st h
  rw [h1]
  cases d.hash <;> decide

end Mls
