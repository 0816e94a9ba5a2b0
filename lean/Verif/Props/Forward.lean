import Verif.Spec.Forward
import Verif.Props.Authorship
import Verif.Props.Nonces
import Verif.Props.Serial
/-
C93: what is accepted is, byte for byte, what a member sent.
-/
namespace Mls

variable {pr : Prims}

/-! ### What the calls of the library seal -/

theorem aeadSeal_unsealing {a : Aead} {k n p ad : Bytes} {cs : UInt16} {d : SuiteDesc} (hd : suite cs = .ok d) {key nonce pt aad : Bytes}
    (h : ¬ (d.aead = a ∧ key = k ∧ nonce = n ∧ pt = p ∧ aad = ad)) :
    aeadSeal (pr.unsealing a k n p ad) cs key nonce pt aad = aeadSeal pr cs key nonce pt aad := by
  unfold aeadSeal
  rw [hd]
  show orErr ((pr.unsealing a k n p ad).aeadSeal d.aead key nonce pt aad) = orErr (pr.aeadSeal d.aead key nonce pt aad)
  unfold Prims.unsealing
  simp only [if_neg h]

theorem deriveChildren_unsealing (a : Aead) (k n p ad : Bytes) (cs : UInt16) : ∀ (fuel : Nat) (t : List (Option Bytes)) (x : Nat),
    deriveChildren (pr.unsealing a k n p ad) cs fuel t x = deriveChildren pr cs fuel t x := by
  intro fuel
  induction fuel with
  | zero => intros; rfl
  | succ n ih =>
    intro t x
    unfold deriveChildren
    simp only [ih]
    rfl

theorem computeTreeHashLoop_unsealing (a : Aead) (k n p ad : Bytes) (cs : UInt16) (t : VTree) (ex : List UInt32) : ∀ (fuel x : Nat),
    computeTreeHashLoop (pr.unsealing a k n p ad) cs t ex fuel x = computeTreeHashLoop pr cs t ex fuel x := by
  intro fuel
  induction fuel with
  | zero => intros; rfl
  | succ n ih =>
    intro x
    unfold computeTreeHashLoop
    simp only [ih]
    rfl

theorem rootTreeHash_unsealing (a : Aead) (k n p ad : Bytes) (cs : UInt16) (t : VTree) :
    computeRootTreeHash (pr.unsealing a k n p ad) cs t = computeRootTreeHash pr cs t :=
  computeTreeHashLoop_unsealing a k n p ad cs t [] _ _

theorem encryptSecretsLoop_unsealing (a : Aead) (k n p ad : Bytes) (cs : UInt16) (gs : GroupSecrets) (egi : Bytes) (rand : Nat → Bytes) :
    ∀ (kps : List KeyPackage) (i : Nat),
    encryptSecretsLoop (pr.unsealing a k n p ad) cs gs egi rand i kps = encryptSecretsLoop pr cs gs egi rand i kps := by
  intro kps
  induction kps with
  | nil => intros; rfl
  | cons kp kps ih =>
    intro i
    unfold encryptSecretsLoop
    simp only [ih]
    rfl

/-- A private message and the two things sealed in it, by the member at leaf `li`. -/
structure SealedMessage (pr : Prims) (d : SuiteDesc) (ctx : GroupContext) (es : Bytes) (depth li : Nat) (guard : Bytes4) (m : PrivateMessage) (pt : Bytes) : Prop where
  group : m.groupID = ctx.groupID
  epoch : m.epoch = ctx.epoch
  plain : m.authenticatedData = []
  short : m.groupID.length < 2 ^ 30
  content : pr.aeadSeal d.aead (Spec.messageKey pr d es depth li m.contentType 0) (Spec.messageNonce pr d es depth li m.contentType 0 guard.toBytes) pt
    (Spec.contentAAD m.groupID m.epoch.toNat m.contentType []) = some m.ciphertext
  sender : pr.aeadSeal d.aead (Spec.senderDataKey pr d es m.ciphertext) (Spec.senderDataNonce pr d es m.ciphertext) (Spec.senderData li 0 guard.toBytes)
    (Spec.senderDataAAD m.groupID m.epoch.toNat m.contentType) = some m.encryptedSenderData

/-- The two ways for a private message to seal something. -/
def SealedIn (pr : Prims) (d : SuiteDesc) (es : Bytes) (depth li : Nat) (guard : Bytes4) (m : PrivateMessage) (pt k n p ad : Bytes) : Prop :=
  (k = Spec.messageKey pr d es depth li m.contentType 0 ∧ n = Spec.messageNonce pr d es depth li m.contentType 0 guard.toBytes ∧ p = pt ∧
      ad = Spec.contentAAD m.groupID m.epoch.toNat m.contentType []) ∨
    (k = Spec.senderDataKey pr d es m.ciphertext ∧ n = Spec.senderDataNonce pr d es m.ciphertext ∧ p = Spec.senderData li 0 guard.toBytes ∧
      ad = Spec.senderDataAAD m.groupID m.epoch.toNat m.contentType)

theorem groupEncrypt_sealed (hc : pr.Correct) {g : Group} {d : SuiteDesc} (hd : suite g.groupContext.cipherSuite = .ok d) {depth : Nat}
    (hdep : depth ≤ 31) (hlen : g.tree.length = 2 ^ (depth + 1) - 1) (hin : g.myLeafIndex.toNat < 2 ^ depth) {content : Content}
    {c : PrivateMessageContent} {guard : Bytes4} {raw : Bytes} (h : g.encryptPrivateMessage pr (g.framedContent content) c guard = .ok raw)
    (a : Aead) (k n p ad : Bytes) :
    ∃ m pt, unmarshal MlsMessage.dec raw = .ok ⟨1, .privateMessage m⟩ ∧
      SealedMessage pr d g.groupContext g.epochSecret depth g.myLeafIndex.toNat guard m pt ∧
      (g.encryptPrivateMessage (pr.unsealing a k n p ad) (g.framedContent content) c guard = .ok raw ∨
        SealedIn pr d g.epochSecret depth g.myLeafIndex.toNat guard m pt k n p ad) := by
  have hpow : 2 ^ depth ≤ 2 ^ 31 := Nat.pow_le_pow_right (by decide) hdep
  have hmod : g.myLeafIndex.toNat % 2 ^ 31 = g.myLeafIndex.toNat := Nat.mod_eq_of_lt (by omega)
  obtain ⟨tree, ht, hr⟩ := ratchetRoot_eq (pr := pr) hd hdep (li := g.myLeafIndex.toNat) (by omega) g.epochSecret content.ty
  have hn := numLeaves_pow hdep hlen
  have h0 := h
  unfold Group.encryptPrivateMessage at h
  simp only [hn, deriveSecret_eq hd _ lblSenderData_name (by decide),
    deriveSecret_eq hd _ lblEncryption_name (by decide), Res.ok_bind, ht, Group.framedContent, hr] at h
  rw [hmod] at h
  rw [Res.bind_ok_iff] at h
  obtain ⟨m, hm, hraw⟩ := h
  have hm0 := hm
  unfold encryptPrivateMessage encryptPrivateMessageContent encryptSenderData at hm
  simp only [keyAndNonce_eq hc hd, senderDataKey_eq hd, senderDataNonce_eq hd, Res.ok_bind, Res.bind_ok_iff,
    contentAAD_iff, senderDataAAD_iff, aeadSeal_ok_iff hd, senderData_enc] at hm
  obtain ⟨ct, ⟨pt, hpt, _, ⟨hgl, _, rfl⟩, hct⟩, esd, ⟨_, ⟨_, rfl⟩, hesd⟩, hm⟩ := hm
  simp only [Res.pure_eq, Res.ok.injEq] at hm
  subst hm
  refine ⟨_, pt, unmarshal_rt message_rt hraw ⟨rfl, trivial⟩, ⟨rfl, rfl, rfl, hgl, hct, hesd⟩, ?_⟩
  by_cases h1 : SealedIn pr d g.epochSecret depth g.myLeafIndex.toNat guard
    { groupID := g.groupContext.groupID, epoch := g.groupContext.epoch, contentType := content.ty, authenticatedData := [],
      encryptedSenderData := esd, ciphertext := ct } pt k n p ad
  · exact .inr h1
  · left
    have h2 := fun x => h1 (.inr x)
    replace h1 := fun x => h1 (.inl x)
    have e : encryptPrivateMessage (pr.unsealing a k n p ad) g.groupContext.cipherSuite
        ⟨Spec.messageSecret pr d g.epochSecret depth g.myLeafIndex.toNat content.ty 0, 0⟩ (Spec.deriveSecret pr d g.epochSecret "sender data")
        { groupID := g.groupContext.groupID, epoch := g.groupContext.epoch, sender := .member g.myLeafIndex, authenticatedData := [], content := content } c
        ⟨g.myLeafIndex, 0, guard⟩ = .ok
          ⟨g.groupContext.groupID, g.groupContext.epoch, content.ty, [], esd, ct⟩ := by
      unfold encryptPrivateMessage
      rw [Res.bind_ok_iff]
      refine ⟨ct, ?_, ?_⟩
      · unfold encryptPrivateMessageContent
        simp only [Res.bind_ok_iff]
        refine ⟨pt, hpt, _, keyAndNonce_eq (pr := pr) hc hd _ _ _, _, (contentAAD_iff _ _ _ _ _).2 ⟨hgl, by decide, rfl⟩, ?_⟩
        refine (aeadSeal_unsealing hd ?_).trans ((aeadSeal_ok_iff hd).2 hct)
        exact fun x => h1 ⟨x.2.1.symm, x.2.2.1.symm, x.2.2.2.1.symm, x.2.2.2.2.symm⟩
      · rw [Res.bind_ok_iff]
        refine ⟨esd, ?_, rfl⟩
        unfold encryptSenderData
        simp only [Res.bind_ok_iff]
        refine ⟨_, senderDataKey_eq (pr := pr) hd _ _, _, senderDataNonce_eq (pr := pr) hd _ _, _, (senderDataAAD_iff _ _ _ _).2 ⟨hgl, rfl⟩, _, senderData_enc _, ?_⟩
        refine (aeadSeal_unsealing hd ?_).trans ((aeadSeal_ok_iff hd).2 hesd)
        exact fun x => h2 ⟨x.2.1.symm, x.2.2.1.symm, x.2.2.2.1.symm, x.2.2.2.2.symm⟩
    have hds : ∀ s l, deriveSecret (pr.unsealing a k n p ad) g.groupContext.cipherSuite s l = deriveSecret pr g.groupContext.cipherSuite s l := fun _ _ => rfl
    have hst : ∀ q s, deriveSecretTree (pr.unsealing a k n p ad) g.groupContext.cipherSuite q s = deriveSecretTree pr g.groupContext.cipherSuite q s := by
      intro q s
      unfold deriveSecretTree
      simp only [deriveChildren_unsealing]
    have hrr : ∀ t x l, deriveRatchetRoot (pr.unsealing a k n p ad) g.groupContext.cipherSuite t x l = deriveRatchetRoot pr g.groupContext.cipherSuite t x l :=
      fun _ _ _ => rfl
    unfold Group.encryptPrivateMessage
    simp only [hds, hst, hrr, hn, deriveSecret_eq hd _ lblSenderData_name (by decide),
      deriveSecret_eq hd _ lblEncryption_name (by decide), Res.ok_bind, ht, Group.framedContent, hr]
    rw [hmod, e]
    exact hraw

/-- Where the member that makes the call is in the given epoch: same context, secret and tree. -/
def Spec.InEpoch (pr : Prims) (st : GroupState) : Spec.Call → Prop
  | .package .. => True
  | .message sa .. => Reachable pr sa ∧ Spec.SameEpoch st sa
  | .invite sa .. => Reachable pr sa ∧ Spec.SameEpoch st sa

/-- What a call in the epoch of `st` seals, with additional data that are not empty. -/
theorem call_seals (hc : pr.Correct) {st : GroupState} {d : SuiteDesc} (hd : suite st.group.groupContext.cipherSuite = .ok d) {depth : Nat}
    (hdep : depth ≤ 31) (hlen : st.group.tree.length = 2 ^ (depth + 1) - 1) {c : Spec.Call} (hin : Spec.InEpoch pr st c) {a : Aead} {k n p ad : Bytes}
    (hne : ad ≠ []) (h : c.Seals pr a k n p ad) :
    ∃ li guard m pt raw, li < 2 ^ depth ∧ c.Sends pr raw ∧ unmarshal MlsMessage.dec raw = .ok ⟨1, .privateMessage m⟩ ∧
      SealedMessage pr d st.group.groupContext st.group.epochSecret depth li guard m pt ∧
      SealedIn pr d st.group.epochSecret depth li guard m pt k n p ad := by
  have side : ∀ {sa : GroupState}, Reachable pr sa → Spec.SameEpoch st sa →
      suite sa.group.groupContext.cipherSuite = .ok d ∧ sa.group.tree.length = 2 ^ (depth + 1) - 1 ∧ sa.group.myLeafIndex.toNat < 2 ^ depth := by
    intro sa hr hs
    have hl : sa.group.tree.length = 2 ^ (depth + 1) - 1 := by
      have := congrArg List.length hs.tree
      unfold GroupState.vtree at this
      rw [derefTree_length, derefTree_length] at this
      rw [this, hlen]
    refine ⟨by rw [hs.context]; exact hd, hl, ?_⟩
    have := (hr.inv hc).own
    rw [hl, Nat.pow_succ] at this
    omega
  obtain ⟨h1, h2⟩ := h
  cases c with
  | package cs cred r =>
    exact absurd h1 h2
  | message sa data rand guard =>
    obtain ⟨hr, hs⟩ := hin
    obtain ⟨s1, s2, s3⟩ := side hr hs
    obtain ⟨raw, h1⟩ := h1
    have h1' := h1
    unfold createApplicationMessage at h1
    dsimp only at h1
    rw [Res.bind_ok_iff] at h1
    obtain ⟨c, hcon, h1⟩ := h1
    obtain ⟨m, pt, g1, g2, g3⟩ := groupEncrypt_sealed hc s1 hdep s2 s3 h1 a k n p ad
    rw [hs.context, hs.secret] at g2
    rw [hs.secret] at g3
    refine ⟨_, guard, m, pt, raw, s3, h1', g1, g2, g3.resolve_left fun e => h2 ⟨raw, ?_⟩⟩
    unfold createApplicationMessage
    dsimp only
    rw [Res.bind_ok_iff]
    exact ⟨c, hcon, e⟩
  | invite sa kps r =>
    obtain ⟨hr, hs⟩ := hin
    obtain ⟨s1, s2, s3⟩ := side hr hs
    obtain ⟨⟨w, raw⟩, h1⟩ := h1
    rcases hw : createWelcome pr sa kps r with ⟨o, st1⟩
    rw [hw] at h1
    cases h1
    obtain ⟨hp, t, sd, th, psk, sig, cth, js, es, tag, rawTree, isig, ctx, run, rfl⟩ := createWelcome_run hw
    obtain ⟨m, pt, g1, g2, g3⟩ := groupEncrypt_sealed hc s1 hdep s2 s3 run.message a k n p ad
    rw [hs.context, hs.secret] at g2
    rw [hs.secret] at g3
    refine ⟨_, r.guard, m, pt, raw, s3, ⟨w, by rw [hw]⟩, g1, g2, g3.resolve_left fun e => h2 ⟨(w, raw), ?_⟩⟩
    have hinfo : (inviteInfo ctx rawTree tag sa.group.myLeafIndex isig).encrypt (pr.unsealing a k n p ad) js psk = .ok w.encryptedGroupInfo := by
      have h := run.info
      unfold GroupInfo.encrypt at h ⊢
      simp only [Res.bind_ok_iff] at h ⊢
      obtain ⟨⟨k1, n1⟩, q1, r1, q2, q3⟩ := h
      refine ⟨(k1, n1), q1, r1, q2, ?_⟩
      have hcs : suite (inviteInfo ctx rawTree tag sa.group.myLeafIndex isig).groupContext.cipherSuite = .ok d := by
        have hx := run.context
        subst hx
        exact s1
      rw [aeadSeal_unsealing hcs (by rintro ⟨_, _, _, _, e⟩; exact hne e.symm)]
      exact q3
    unfold createWelcome at hw ⊢
    split at hw
    · cases hw
    · next hk =>
      rw [if_neg hk, run.apply]
      have hx := run.context
      subst hx
      unfold finishWelcome
      simp only [Res.bind_ok_iff]
      simp only [encryptSecretsLoop_unsealing, rootTreeHash_unsealing]
      exact ⟨th, run.hash, sd, run.suite, psk, run.noPsk, _, run.signed, cth, run.transcript, js, run.joiner, es, run.epoch, tag, run.confirmed,
        rawTree, run.tree, _, run.infoSigned, w.encryptedGroupInfo, hinfo, w.secrets, run.secrets, raw, e, by rw [← run.cipherSuite]; rfl⟩

/-! ### C93 -/

theorem contentTypeNumber_inj {c c' : ContentType} (h : Spec.contentTypeNumber c = Spec.contentTypeNumber c') : c = c' := by
  cases c <;> cases c' <;> first | rfl | (revert h; decide)

theorem vec_length_pos {b : Bytes} (h : b.length < 2 ^ 30) : 0 < (Spec.vec b).length := by
  unfold Spec.vec Spec.opaqueVec Spec.varint
  split
  · simp
  · split
    · simp
    · rw [if_pos (show b.length < 1073741824 from h)]; simp

/-- The additional data for the content and for the sender data never coincide. -/
theorem aad_apart {g ad : Bytes} {e : Nat} {c c' : ContentType} (h : ad.length < 2 ^ 30) : Spec.contentAAD g e c ad ≠ Spec.senderDataAAD g e c' := by
  intro he
  have he := congrArg List.length he
  have := vec_length_pos h
  unfold Spec.contentAAD Spec.senderDataAAD at he
  simp only [List.length_append, List.length_cons, List.length_nil] at he
  omega

theorem contentAAD_ne {g ad : Bytes} {e : Nat} {c : ContentType} : Spec.contentAAD g e c ad ≠ [] := by
  unfold Spec.contentAAD
  simp

theorem senderDataAAD_ne {g : Bytes} {e : Nat} {c : ContentType} : Spec.senderDataAAD g e c ≠ [] := by
  unfold Spec.senderDataAAD
  simp

theorem contentAAD_inj {g ad ad' : Bytes} {e : Nat} {c c' : ContentType} (h : ad.length < 2 ^ 30) (h' : ad'.length < 2 ^ 30)
    (he : Spec.contentAAD g e c ad = Spec.contentAAD g e c' ad') : c = c' ∧ ad = ad' := by
  unfold Spec.contentAAD at he
  simp only [List.append_assoc] at he
  have he := List.append_cancel_left (List.append_cancel_left he)
  simp only [List.cons_append, List.nil_append, List.cons.injEq] at he
  exact ⟨contentTypeNumber_inj he.1, vec_inj h h' he.2⟩

theorem senderData_leaf {l l' g g' : Nat} {b b' : Bytes4} (hl : l < 2 ^ 32) (hl' : l' < 2 ^ 32)
    (h : Spec.senderData l g b.toBytes = Spec.senderData l' g' b'.toBytes) : l = l' := by
  unfold Spec.senderData at h
  rw [List.append_assoc, List.append_assoc] at h
  exact be4_inj hl hl' (List.append_inj_left h rfl)

/-- **C93.** Whatever is accepted is byte for byte what one of the members' calls in this epoch returned, or else a forgery: a private message of which a
part opens under the key of the epoch for it although no call sealed it to these bytes, or a public message that carries the MAC of its content under the membership key
of the epoch, with which the library makes none. -/
theorem C93_forward (hc : pr.Correct) {st st' : GroupState} (hr : Reachable pr st) {raw : Bytes} {now : GoTime} {o : Option Bytes}
    (h : unmarshalAndProcessMessage pr st raw now = (.ok o, st')) {calls : Spec.Call → Prop} (hin : ∀ c, calls c → Spec.InEpoch pr st c) :
    ∃ d depth, suite st.group.groupContext.cipherSuite = .ok d ∧ st.vtree.length = 2 ^ (depth + 1) - 1 ∧
      ((∃ c, calls c ∧ c.Sends pr raw) ∨
        (∃ m, unmarshal MlsMessage.dec raw = .ok ⟨1, .privateMessage m⟩ ∧
          (Spec.Forged pr calls d.aead (Spec.senderDataKey pr d st.group.epochSecret m.ciphertext)
              (Spec.senderDataNonce pr d st.group.epochSecret m.ciphertext) m.encryptedSenderData
              (Spec.senderDataAAD m.groupID m.epoch.toNat m.contentType) ∨
            ∃ li gen guard, li < 2 ^ depth ∧ gen < 2 ^ 32 ∧ Spec.Forged pr calls d.aead (Spec.messageKey pr d st.group.epochSecret depth li m.contentType gen)
              (Spec.messageNonce pr d st.group.epochSecret depth li m.contentType gen guard) m.ciphertext
              (Spec.contentAAD m.groupID m.epoch.toNat m.contentType m.authenticatedData))) ∨
        (∃ m tbm, unmarshal MlsMessage.dec raw = .ok ⟨1, .publicMessage m⟩ ∧ (Spec.Rfc.authenticatedContentTBM .publicMessage m.content m.auth st.group.groupContext).bytes = some tbm ∧
          m.membershipTag = pr.mac d.hash (Spec.deriveSecret pr d st.group.epochSecret "membership") tbm) ∨
        Spec.MessageCollision pr d st.group.epochSecret depth) := by
  have hi := hr.inv hc
  obtain ⟨d, hd⟩ := hi.suite
  obtain ⟨depth, hdep, hlen⟩ := hi.tree.complete
  have hpow : 2 ^ depth ≤ 2 ^ 31 := Nat.pow_le_pow_right (by decide) hdep
  refine ⟨d, depth, hd, by unfold GroupState.vtree; rw [derefTree_length]; exact hlen, ?_⟩
  obtain ⟨a, e, hca, -⟩ := accepted_cases h
  cases hca with
  | @pub v m _ hdec hv =>
    obtain rfl : v = 1 := (C10_wf _ _ hdec).1
    obtain ⟨_, _, d', tbm, g1, g2, g3⟩ := verifyPublicMessage_ok hv
    rw [← suite_iff_spec, hd] at g1
    cases g1
    exact .inr (.inr (.inl ⟨m, tbm, hdec, g2, g3⟩))
  | @priv v m _ hdec hv =>
    obtain rfl : v = 1 := (C10_wf _ _ hdec).1
    rw [C62_received pr hc st d hd depth hdep hlen] at hv
    obtain ⟨hgl, hal, li, gen, guard, pt, c, k, leaf, tbs, ho, -⟩ := hv
    by_cases f1 : Spec.Forged pr calls d.aead (Spec.senderDataKey pr d st.group.epochSecret m.ciphertext)
        (Spec.senderDataNonce pr d st.group.epochSecret m.ciphertext) m.encryptedSenderData
        (Spec.senderDataAAD m.groupID m.epoch.toNat m.contentType)
    · exact .inr (.inl ⟨m, hdec, .inl f1⟩)
    by_cases f2 : Spec.Forged pr calls d.aead (Spec.messageKey pr d st.group.epochSecret depth (li.toNat % 2 ^ 31) m.contentType gen.toNat)
        (Spec.messageNonce pr d st.group.epochSecret depth (li.toNat % 2 ^ 31) m.contentType gen.toNat guard.toBytes) m.ciphertext
        (Spec.contentAAD m.groupID m.epoch.toNat m.contentType m.authenticatedData)
    · exact .inr (.inl ⟨m, hdec, .inr ⟨_, _, _, ho.inside, gen.toNat_lt, f2⟩⟩)
    have f1 := not_not.1 fun x => f1 ⟨_, ho.sender, x⟩
    have f2 := not_not.1 fun x => f2 ⟨_, ho.content, x⟩
    obtain ⟨c2, k2, s2, o2⟩ := f1
    obtain ⟨c1, k1, s1, o1⟩ := f2
    obtain ⟨l2, b2, m2, p2, raw2, i2, -, -, t2, u2⟩ := call_seals hc hd hdep hlen (hin c2 k2) senderDataAAD_ne s2
    obtain ⟨l1, b1, m1, p1, raw1, i1, q1, r1, t1, u1⟩ := call_seals hc hd hdep hlen (hin c1 k1) contentAAD_ne s1
    have hl2 : li.toNat = l2 := by
      rcases u2 with ⟨_, _, _, e⟩ | ⟨_, _, e, _⟩
      · rw [t2.group, t2.epoch, ho.group, ho.epoch] at e
        exact absurd e.symm (aad_apart (by decide))
      · exact senderData_leaf li.toNat_lt (by omega) e
    rw [Nat.mod_eq_of_lt (show li.toNat < 2 ^ 31 by omega)] at u1 o1
    rcases u1 with ⟨ek, en, ep, ea⟩ | ⟨_, _, _, e⟩
    rotate_left
    · rw [t1.group, t1.epoch, ho.group, ho.epoch] at e
      exact absurd e (aad_apart hal)
    have hty : m.contentType = m1.contentType ∧ m.authenticatedData = [] := by
      rw [t1.group, t1.epoch, ho.group, ho.epoch] at ea
      exact contentAAD_inj hal (by decide) ea
    rcases C81_apart (by omega) i1 gen.toNat_lt (by decide) ek with ⟨e1, -, e3⟩ | e
    rotate_left
    · exact .inr (.inr (.inr e))
    left
    have hgid : m.groupID = m1.groupID := ho.group.trans t1.group.symm
    have hepo : m.epoch = m1.epoch := ho.epoch.trans t1.epoch.symm
    have hct : m.ciphertext = m1.ciphertext := by
      have := t1.content
      rw [← ek, ← en, ← ep, ← ea, o1] at this
      exact Option.some.inj this
    have hb : guard = b1 := by
      rw [e1, e3, hty.1] at en
      refine (mask_inj ?_).1 en
      unfold Spec.deriveTreeSecret Spec.expandWithLabel
      rw [hc.expand_length _ _ _ _ (expandable_nonce _ _)]
      cases d.aead <;> decide
    have hesd : m.encryptedSenderData = m1.encryptedSenderData := by
      have := t1.sender
      rw [← hct, ← hgid, ← hepo, ← hty.1, ← e1, ← hb, ← e3, o2] at this
      exact Option.some.inj this
    have hm : m = m1 := by
      cases m
      cases m1
      simp only at hgid hepo hct hesd hty
      have := t1.plain
      simp only at this
      rw [hgid, hepo, hct, hesd, hty.1, hty.2, this]
    subst hm
    refine ⟨c1, k1, ?_⟩
    have h1 := C11_partial_opaque raw _ hdec (.inl ⟨m, rfl⟩)
    have h2 := C11_partial_opaque raw1 _ r1 (.inl ⟨m, rfl⟩)
    rw [h1] at h2
    cases h2
    exact q1

/-- In the group of `toyTwo`, `1` sends two bytes, which `0` gets: all that is said of the calls is met. -/
example : ∃ a b raw, toyTwo = .ok (a, b) ∧ createApplicationMessage toyPrims b [1, 2] [] ⟨1, 2, 3, 4⟩ = .ok raw ∧
    unmarshalAndProcessMessage toyPrims a raw toyLater = (.ok (some [1, 2]), a) ∧ Reachable toyPrims a ∧
    (∀ c, c = Spec.Call.message b [1, 2] [] ⟨1, 2, 3, 4⟩ → Spec.InEpoch toyPrims a c) ∧
    (Spec.Call.message b [1, 2] [] ⟨1, 2, 3, 4⟩).Sends toyPrims raw := by
  obtain ⟨⟨a, b⟩, h, key⟩ := Res.holds_ok (x := toyTwo) (f := fun p =>
    decide (p.2.group.groupContext = p.1.group.groupContext ∧ p.2.group.epochSecret = p.1.group.epochSecret ∧ p.2.vtree = p.1.vtree) &&
    (createApplicationMessage toyPrims p.2 [1, 2] [] ⟨1, 2, 3, 4⟩).holds fun raw =>
      decide ((unmarshalAndProcessMessage toyPrims p.1 raw toyLater).1 = .ok (some [1, 2]))) (by decide +kernel)
  rw [Bool.and_eq_true] at key
  obtain ⟨⟨e1, e2, e3⟩, key⟩ := And.imp_left of_decide_eq_true key
  obtain ⟨raw, h2, key⟩ := Res.holds_ok key
  have key := of_decide_eq_true key
  have h3 : unmarshalAndProcessMessage toyPrims a raw toyLater = (.ok (some [1, 2]), a) := by
    rcases hu : unmarshalAndProcessMessage toyPrims a raw toyLater with ⟨r, st'⟩
    rw [hu] at key
    cases key
    obtain ⟨_, _, _, ⟨_, _, k, _⟩ | ⟨_, _, k, _⟩ | ⟨_, _, _, k, _⟩⟩ := accepted_cases hu
    · cases k
    · cases k
    · rw [k]
  obtain ⟨l1, l2⟩ := toyTwo_library h
  exact ⟨a, b, raw, h, h2, h3, (l1.inv toyPrims_correct).reach, fun c e => e ▸ ⟨(l2.inv toyPrims_correct).reach, e1, e2, e3⟩, h2⟩

end Mls
