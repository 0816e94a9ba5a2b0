import Verif.Props.Authenticity
import Verif.Spec.ToyHistory
/-
C48: confirmation tags.
-/
namespace Mls

variable {pr : Prims}

/-- The content with another confirmation tag. -/
def AuthenticatedContent.withTag (a : AuthenticatedContent) (tag : Bytes) : AuthenticatedContent :=
  { a with auth := { a.auth with confirmationTag := tag } }

/-- The state with another interim transcript hash. -/
def GroupState.withInterim (st : GroupState) (x : Bytes) : GroupState :=
  { st with group := { st.group with interimTranscriptHash := x } }

theorem nextInterim_ok {cs : UInt16} {cth tag x : Bytes} (h : nextInterimTranscriptHash pr cs cth tag = .ok x) :
    ∃ d, suite cs = .ok d ∧ tag.length < 2 ^ 30 ∧ x = pr.hash d.hash (cth ++ Spec.vec tag) := by
  unfold nextInterimTranscriptHash at h
  simp only [Res.bind_ok_iff, Res.pure_eq, Res.ok.injEq] at h
  obtain ⟨y, hy, d, hd, rfl⟩ := h
  have hb := writeOpaqueVec_bound hy
  rw [writeOpaqueVec_vec hb] at hy
  cases hy
  exact ⟨d, hd, hb, rfl⟩

theorem nextInterim_of {cs : UInt16} {d : SuiteDesc} (hd : suite cs = .ok d) (cth : Bytes) {tag : Bytes}
    (ht : tag.length < 2 ^ 30) :
    nextInterimTranscriptHash pr cs cth tag = .ok (pr.hash d.hash (cth ++ Spec.vec tag)) := by
  unfold nextInterimTranscriptHash
  rw [writeOpaqueVec_vec ht, hd]
  rfl

/-- The confirmation tag of a commit is never checked: replacing it by any other string, a commit that
was accepted still is, and the new state differs in the interim transcript hash only. -/
theorem C48_tag_ignored (pr : Prims) (st st' : GroupState) (a : AuthenticatedContent) (tag : Bytes)
    (ids : List PreSharedKeyID) (psks : List Bytes) (now : GoTime) (ht : tag.length < 2 ^ 30)
    (h : processCommit pr st a ids psks now = (.ok (), st')) :
    ∃ d, suite st.group.groupContext.cipherSuite = .ok d ∧
      processCommit pr st (a.withTag tag) ids psks now = (.ok (), st'.withInterim
        (pr.hash d.hash (st'.group.groupContext.confirmedTranscriptHash ++ Spec.vec tag))) := by
  have hc : ∃ c, a.content.content = .commit c := by
    unfold processCommit at h
    cases hk : a.content.content with
    | commit c => exact ⟨c, rfl⟩
    | proposal | application => rw [hk] at h; cases h
  obtain ⟨c, hc⟩ := hc
  have hc' : (a.withTag tag).content.content = .commit c := hc
  rcases processCommit_cases (pr := pr) st a c hc ids psks now with ⟨ps, ss, h', t, st2, h1, h2, hf, hp⟩ | ⟨hp, _⟩
  · rw [hp] at h
    cases h
    unfold finishCommit at hf
    simp only [Res.bind_ok_iff] at hf
    obtain ⟨pt, hpt, d, hd, ⟨h3, t3, ctx3, pt3, cs3⟩, hpath, cth, hcth, itm, hitm, js, hjs, psk, hpsk, es, hes, is,
      his, he⟩ := hf
    refine ⟨d, hd, ?_⟩
    have hf' : finishCommit pr st.group h' t (a.withTag tag) c ids psks now =
        .ok (st'.withInterim
          (pr.hash d.hash (st'.group.groupContext.confirmedTranscriptHash ++ Spec.vec tag))) := by
      cases he
      unfold finishCommit
      simp only [Res.bind_ok_iff]
      refine ⟨pt, hpt, d, hd, ⟨h3, t3, ctx3, pt3, cs3⟩, hpath, cth, hcth, _, nextInterim_of hd cth ht, js, hjs, psk, hpsk,
        es, hes, is, his, rfl⟩
    unfold processCommit
    rw [hc']
    simp only
    have h1' : checkProposals pr st.group (a.withTag tag).content.sender.leafIndex c = .ok (ps, ss) := h1
    rw [h1']
    simp only
    rw [h2]
    simp only
    rw [hf']
  · rw [h] at hp
    exact absurd rfl hp

/-- The confirmation tag RFC 9420 section 8.1 asks for in the state `g` reached by a commit. -/
def Spec.confirmationTag (pr : Prims) (d : SuiteDesc) (epochSecret confirmedTranscriptHash : Bytes) : Bytes :=
  pr.mac d.hash (deriveSecret pr d epochSecret "confirm") confirmedTranscriptHash

/-- An add by leaf 1 of `toyPair`, with a confirmation tag of one byte. -/
def toyUnconfirmed : Bytes := toyPublic toyPair 1 1 (.commit ⟨[.proposal (.add (toyKeyPackage 5))], none⟩) [99]

/-- C48 is false: the commit is accepted though its confirmation tag is not the MAC. -/
theorem C48_refuted : ∃ (st : GroupState) (raw : Bytes) (now : GoTime) (m : PublicMessage) (d : SuiteDesc),
    suite st.group.groupContext.cipherSuite = .ok d ∧
    unmarshal MlsMessage.dec raw = .ok ⟨1, .publicMessage m⟩ ∧ m.content.content.ty = .commit ∧
    (unmarshalAndProcessMessage toyPrims st raw now).1 = .ok none ∧
    m.auth.confirmationTag ≠ Spec.confirmationTag toyPrims d
      (unmarshalAndProcessMessage toyPrims st raw now).2.group.epochSecret
      (unmarshalAndProcessMessage toyPrims st raw now).2.group.groupContext.confirmedTranscriptHash := by
  refine ⟨toyPair, toyUnconfirmed, toyNow, match unmarshal MlsMessage.dec toyUnconfirmed with
    | .ok ⟨_, .publicMessage m⟩ => m
    | _ => ⟨⟨[], 0, .member 0, [], .application []⟩, ⟨[], []⟩, []⟩, ⟨.sha256, .x25519, .sha256, .aes128gcm, .ed25519⟩, ?_⟩
  decide +kernel

theorem lblConfirm_name : lblPrefix ++ lblConfirm = Spec.ascii ("MLS 1.0 " ++ "confirm") := by decide

theorem verifyConfirmationTag_true {i : GroupInfo} {joiner psk : Bytes}
    (h : i.verifyConfirmationTag pr joiner psk = .ok true) :
    ∃ d es, suite i.groupContext.cipherSuite = .ok d ∧
      i.groupContext.extractEpochSecret pr joiner (some psk) = .ok es ∧
      i.confirmationTag = Spec.confirmationTag pr d es i.groupContext.confirmedTranscriptHash := by
  unfold GroupInfo.verifyConfirmationTag at h
  simp only [orFalse_ok_true] at h
  obtain ⟨es, hes, ck, hck, h⟩ := h
  unfold verifyMAC signMAC at h
  simp only [Res.bind_ok_iff, Res.pure_eq, Res.ok.injEq] at h
  obtain ⟨t, ⟨d, hd, rfl⟩, ht⟩ := h
  rw [beq_iff_eq] at ht
  rw [deriveSecret_eq hd _ lblConfirm_name (by decide)] at hck
  cases hck
  exact ⟨d, es, hd, hes, ht⟩

theorem groupFromSecrets_ok {w : Welcome} {kp : KeyPairPackage} {gs : GroupSecrets} {rt : Option Bytes}
    {psks : List Bytes} {now : GoTime} {st : GroupState} (h : groupFromSecrets pr w kp gs rt psks now = .ok st) :
    ∃ psk info raw t leaf li pt, extractPSKSecret pr w.cipherSuite gs.psks psks = .ok psk ∧
      w.decryptGroupInfo pr gs.joinerSecret psk = .ok info ∧
      rt.or (findExtensionData info.extensions 2) = some raw ∧ unmarshal decTree raw = .ok t ∧
      getLeaf t info.signer.toNat = .ok (some leaf) ∧ info.verifySignature pr leaf.signatureKey = .ok true ∧
      info.verifyConfirmationTag pr gs.joinerSecret psk = .ok true ∧
      info.groupContext.cipherSuite = w.cipherSuite ∧ verifyIntegrity pr t info.groupContext now = .ok () ∧
      findLeaf t kp.pub.leafNode = .ok (some li) ∧
      joinerPrivTree pr info.groupContext.cipherSuite t li info.signer kp.priv.encryptionKey gs.pathSecret = .ok pt ∧
      st.heap = (allocTree [] t).1 ∧ st.group.tree = (allocTree [] t).2 ∧
      st.group.groupContext = info.groupContext ∧ st.group.pskSecret = psk ∧
      info.groupContext.extractEpochSecret pr gs.joinerSecret (some psk) = .ok st.group.epochSecret ∧
      deriveSecret pr info.groupContext.cipherSuite st.group.epochSecret lblInit = .ok st.group.initSecret ∧
      nextInterimTranscriptHash pr info.groupContext.cipherSuite info.groupContext.confirmedTranscriptHash
        info.confirmationTag = .ok st.group.interimTranscriptHash ∧
      st.group.myLeafIndex = UInt32.ofNat li ∧ st.group.privTree = pt ∧
      st.group.signaturePriv = kp.priv.signatureKey ∧ st.group.pendingProposals = [] := by
  unfold groupFromSecrets at h
  simp only [Res.bind_ok_iff] at h
  obtain ⟨psk, h1, info, h2, raw, h3, t, h4, o, h5, leaf, h6, b1, h7, _, h8, b2, h9, _, h10, _, h11, _, h12, es, h13,
    is, h14, itm, h15, o2, h16, li, h17, pt, h18, h⟩ := h
  rw [orErr_ok_iff] at h3 h6 h17
  rw [Res.guardErr_ok_iff] at h8 h10 h11
  subst h6 h8 h10 h17
  rw [beq_iff_eq] at h11
  cases h
  exact ⟨psk, info, raw, t, leaf, li, pt, h1, h2, h3, h4, h5, h7, h9, h11, h12, h16, h18, rfl, rfl, rfl, rfl, h13, h14, h15,
    rfl, rfl, rfl, rfl⟩

/-- C48 for joining: a welcome is accepted only with the right confirmation tag for the epoch joined.
Missing: the tags of commits, which are not checked at all (C48_tag_ignored, C48_refuted). -/
theorem C48_partial (pr : Prims) (w : Welcome) (kp : KeyPairPackage) (now : GoTime) (st : GroupState)
    (h : groupFromWelcome pr w kp now = .ok st) :
    ∃ d gs info, suite st.group.groupContext.cipherSuite = .ok d ∧
      w.decryptGroupInfo pr gs st.group.pskSecret = .ok info ∧ info.groupContext = st.group.groupContext ∧
      info.confirmationTag =
        Spec.confirmationTag pr d st.group.epochSecret st.group.groupContext.confirmedTranscriptHash := by
  unfold groupFromWelcome at h
  simp only [Res.bind_ok_iff] at h
  obtain ⟨ref, _, gs, _, _, _, _, _, h⟩ := h
  obtain ⟨psk, info, raw, t, leaf, li, pt, _, h2, _, _, _, _, h9, _, _, _, _, _, _, hctx, hpsk, hes, _⟩ :=
    groupFromSecrets_ok h
  obtain ⟨d, es, hd, hes', htag⟩ := verifyConfirmationTag_true h9
  rw [hes'] at hes
  cases hes
  rw [← hctx] at hd htag
  exact ⟨d, gs.joinerSecret, info, hd, by rw [hpsk]; exact h2, hctx.symm, htag⟩

/-- The member that `toyTwo` invites joins with its welcome. -/
example : ∃ a w st, (toyCreated.bind fun st => st.invite [1]) = .ok (a, w) ∧
    groupFromWelcome toyPrims w (toyMember 1) toyLater = .ok st ∧ st.group.groupContext.epoch = 1 := by
  obtain ⟨⟨a, w⟩, h1, h⟩ := Res.holds_ok (x := toyCreated.bind fun st => st.invite [1])
    (f := fun p => (groupFromWelcome toyPrims p.2 (toyMember 1) toyLater).holds fun st => decide (st.group.groupContext.epoch = 1))
    (by decide +kernel)
  obtain ⟨st, h2, h⟩ := Res.holds_ok h
  exact ⟨a, w, st, h1, h2, of_decide_eq_true h⟩

end Mls
