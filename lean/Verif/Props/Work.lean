import Verif.Model.Steps
import Verif.Props.Hiding
import Verif.Props.Accept
import Verif.Proofs.Invariant
/-
C90: how much work a private message makes before its content is authenticated.
-/
namespace Mls

variable {pr : Prims}

/-- The counted part is what processPrivateMessage does first: with it the whole reads as
`decryptPrivateMessage`. -/
theorem C90_prefix (pr : Prims) (st : GroupState) (m : PrivateMessage) :
    decryptPrivateMessage pr st m = (ratchetStart pr st m >>= fun x => do
      let cs := st.group.groupContext.cipherSuite
      let secret ← fastForward pr cs x.1.generation (2 ^ 32) x.2
      let c ← m.decryptContent pr cs secret x.1.reuseGuard
      let signerNode ← getLeaf st.vtree x.1.leafIndex.toNat
      let signerNode ← orErr signerNode
      let a := m.authenticatedContent x.1 c
      let sigOk ← a.verifySignature pr signerNode.signatureKey st.group.groupContext
      Res.guardErr sigOk
      return a) := by
  unfold decryptPrivateMessage ratchetStart
  simp only [Res.bind_assoc', Res.pure_eq, Res.ok_bind]

/-- Counting and stepping go together: the steps taken lead from the first generation to the
last. -/
theorem fastForwardSteps_eq {cs : UInt16} {d : SuiteDesc} (hd : suite cs = .ok d) (target : UInt32) :
    ∀ (m fuel : Nat) (s : RatchetSecret), s.generation.toNat + m = target.toNat → m ≤ fuel →
      fastForwardSteps pr cs target fuel s = m := by
  intro m
  induction m with
  | zero =>
    intro fuel s hg _
    have hg' : s.generation = target := UInt32.toNat_inj.1 (by omega)
    cases fuel <;> simp [fastForwardSteps, hg']
  | succ m ih =>
    intro fuel s hg hf
    obtain ⟨fuel, rfl⟩ : ∃ f, fuel = f + 1 := ⟨fuel - 1, by omega⟩
    have ht := target.toNat_lt
    have hne : s.generation ≠ target := by
      intro h
      rw [h] at hg
      omega
    have hg1 : (s.generation + 1).toNat = s.generation.toNat + 1 := by
      rw [UInt32.toNat_add]
      show (s.generation.toNat + 1) % 2 ^ 32 = _
      omega
    rw [fastForwardSteps, if_neg hne, deriveNext_eq hd]
    simp only
    rw [ih fuel _ (by simp only [hg1]; omega) (by omega)]
    omega

theorem ratchetStart_generation {st : GroupState} {m : PrivateMessage} {sd : SenderData} {s : RatchetSecret}
    (h : ratchetStart pr st m = .ok (sd, s)) : s.generation = 0 ∧
      (∃ d, suite st.group.groupContext.cipherSuite = .ok d) ∧
      m.groupID = st.group.groupContext.groupID ∧ m.epoch = st.group.groupContext.epoch ∧
      ∃ k, deriveSecret pr st.group.groupContext.cipherSuite st.group.epochSecret lblSenderData = .ok k ∧
        m.decryptSenderData pr st.group.groupContext.cipherSuite k = .ok sd := by
  unfold ratchetStart at h
  simp only [Res.bind_ok_iff, Res.guardErr_ok_iff, beq_iff_eq] at h
  obtain ⟨_, h1, _, h2, k, h3, sd', h4, _, _, tree, _, s', h5, h6⟩ := h
  simp only [Res.pure_eq, Res.ok.injEq, Prod.mk.injEq] at h6
  obtain ⟨rfl, rfl⟩ := h6
  unfold deriveRatchetRoot at h5
  simp only [Res.bind_ok_iff] at h5
  obtain ⟨d, hd, _, _, _, _, h5⟩ := h5
  simp only [Res.pure_eq, Res.ok.injEq] at h5
  subst h5
  exact ⟨rfl, ⟨d, hd⟩, h1, h2, k, h3, h4⟩

/-- The number of steps is the generation that the sender data name. -/
theorem C90_count (st : GroupState) (m : PrivateMessage) (sd : SenderData) (s : RatchetSecret)
    (h : ratchetStart pr st m = .ok (sd, s)) : privateMessageSteps pr st m = sd.generation.toNat := by
  obtain ⟨h0, ⟨d, hd⟩, _⟩ := ratchetStart_generation h
  unfold privateMessageSteps
  rw [h]
  exact fastForwardSteps_eq hd _ _ _ _ (by rw [h0]; simp) (Nat.le_of_lt sd.generation.toNat_lt)

theorem ratchetStart_of {st : GroupState} {d : SuiteDesc} (hd : suite st.group.groupContext.cipherSuite = .ok d)
    {depth : Nat} (hdep : depth ≤ 31) (hlen : st.group.tree.length = 2 ^ (depth + 1) - 1) {m : PrivateMessage}
    {sd : SenderData} (hg : m.groupID = st.group.groupContext.groupID) (he : m.epoch = st.group.groupContext.epoch)
    (hgl : m.groupID.length < 2 ^ 30)
    (ho : pr.aeadOpen d.aead (Spec.senderDataKey pr d st.group.epochSecret m.ciphertext)
      (Spec.senderDataNonce pr d st.group.epochSecret m.ciphertext) m.encryptedSenderData
      (Spec.senderDataAAD m.groupID m.epoch.toNat m.contentType) =
        some (Spec.senderData sd.leafIndex.toNat sd.generation.toNat sd.reuseGuard.toBytes))
    (hin : sd.leafIndex.toNat % 2 ^ 31 < 2 ^ depth) : ∃ s, ratchetStart pr st m = .ok (sd, s) := by
  have hn := numLeaves_pow hdep hlen
  obtain ⟨tree, ht, hr⟩ := ratchetRoot_eq (pr := pr) hd hdep hin st.group.epochSecret m.contentType
  refine ⟨⟨Spec.messageSecret pr d st.group.epochSecret depth (sd.leafIndex.toNat % 2 ^ 31) m.contentType 0, 0⟩, ?_⟩
  unfold ratchetStart
  simp only [hn, deriveSecret_eq hd _ lblSenderData_name (by decide),
    deriveSecret_eq hd _ lblEncryption_name (by decide), Res.ok_bind, Res.bind_ok_iff, Res.guardErr_ok_iff,
    beq_iff_eq, decryptSenderData_iff hd]
  exact ⟨(), hg, (), he, sd, ⟨hgl, ho⟩, tree, ht, _, hr, rfl⟩

theorem senderData_length (li gen : Nat) (guard : Bytes) :
    (Spec.senderData li gen guard).length = 8 + guard.length := by
  simp [Spec.senderData, Spec.be4]
  omega

/-- Byte strings of one length have vectors of one length. -/
theorem writeOpaqueVec_sameLength {a b x : Bytes} (h : b.length = a.length) (hx : writeOpaqueVec a = .ok x) :
    ∃ y, writeOpaqueVec b = .ok y ∧ y.length = x.length := by
  obtain ⟨h1, h2⟩ := writeOpaqueVec_length hx
  have hy := writeOpaqueVec_vec (b := b) (by omega)
  refine ⟨_, hy, ?_⟩
  rw [(writeOpaqueVec_length hy).1, h1, h]

/-- A private message whose encrypted sender data are replaced by others of the same length is as long. -/
theorem replaced_length {m : PrivateMessage} {raw esd : Bytes} (hl : esd.length = m.encryptedSenderData.length)
    (h : unmarshal MlsMessage.dec raw = .ok ⟨1, .privateMessage m⟩) :
    ∃ raw', unmarshal MlsMessage.dec raw' = .ok ⟨1, .privateMessage { m with encryptedSenderData := esd }⟩ ∧
      raw'.length = raw.length := by
  rw [unmarshal_ok_iff] at h
  obtain ⟨bs, he, rfl⟩ := (message_dec h).2 trivial
  have he' := he
  unfold MlsMessage.enc PrivateMessage.enc at he
  simp only [Enc.append_assoc] at he
  simp only [MessageBody.wireFormat, Enc.append_ok_iff] at he
  obtain ⟨x1, y1, a1, ⟨x2, y2, a2, ⟨x3, y3, a3, ⟨x4, y4, a4, ⟨x5, y5, a5, ⟨x6, y6, a6, ⟨x7, y7, a7, a8, rfl⟩, rfl⟩, rfl⟩, rfl⟩, rfl⟩, rfl⟩, rfl⟩ := he
  obtain ⟨z, hz, hzl⟩ := writeOpaqueVec_sameLength hl a7
  refine ⟨x1 ++ (x2 ++ (x3 ++ (x4 ++ (x5 ++ (x6 ++ (z ++ y7)))))), unmarshal_rt message_rt ?_ ⟨rfl, trivial⟩, ?_⟩
  · unfold MlsMessage.enc PrivateMessage.enc
    simp only [Enc.append_assoc, MessageBody.wireFormat, Enc.append_ok_iff]
    exact ⟨x1, _, a1, ⟨x2, _, a2, ⟨x3, _, a3, ⟨x4, _, a4, ⟨x5, _, a5, ⟨x6, _, a6, ⟨z, _, hz, a8, rfl⟩, rfl⟩, rfl⟩, rfl⟩, rfl⟩, rfl⟩, rfl⟩
  · simp only [List.length_append, List.append_nil, hzl]

/-- C90 is false: whatever application message a member makes, there is a message of the very same length, differing only in
the encrypted sender data, that makes every member in the same view step a ratchet `g` times, for any `g` of 32 bits, before
it authenticates anything. (The length of what the AEAD seals must not depend on the plaintext but for its length, as for
every AEAD of the suites.) -/
theorem C90_refuted (hc : pr.Correct)
    (hl : ∀ a k n p p' ad c c', p.length = p'.length → pr.aeadSeal a k n p ad = some c → pr.aeadSeal a k n p' ad = some c' →
      c.length = c'.length)
    {st st' : GroupState} (hr : Reachable pr st) (hv : SameView st st') (data rand : Bytes) (guard : Bytes4) (raw : Bytes)
    (h : createApplicationMessage pr st data rand guard = .ok raw) (g : UInt32) :
    messageSteps pr st' raw = 0 ∧ ∃ raw', raw'.length = raw.length ∧ messageSteps pr st' raw' = g.toNat := by
  have hi := hr.inv hc
  obtain ⟨d, hd⟩ := hi.suite
  obtain ⟨depth, hdep, hlen⟩ := hi.tree.complete
  have hown := hi.own
  have hpos : 0 < 2 ^ depth := Nat.two_pow_pos _
  have hin : st.group.myLeafIndex.toNat < 2 ^ depth := by
    rw [hlen, Nat.pow_succ] at hown; omega
  have hpow : 2 ^ depth ≤ 2 ^ 31 := Nat.pow_le_pow_right (by decide) hdep
  have hmod : st.group.myLeafIndex.toNat % 2 ^ 31 = st.group.myLeafIndex.toNat := Nat.mod_eq_of_lt (by omega)
  have hlen' : st'.group.tree.length = 2 ^ (depth + 1) - 1 := by
    have := congrArg List.length hv.tree
    simp only [GroupState.vtree, derefTree_length] at this
    omega
  have hd' : suite st'.group.groupContext.cipherSuite = .ok d := by rw [← hv.context]; exact hd
  unfold createApplicationMessage at h
  simp only [Res.bind_ok_iff] at h
  obtain ⟨c, _, h⟩ := h
  obtain ⟨m, pt, hum, _, hct, _, hgl, ho, _, hsd⟩ := encrypt_opens hc hd hdep hlen hin h
  constructor
  · obtain ⟨s, hs⟩ := ratchetStart_of (pr := pr) (st := st') (m := m) hd' hdep hlen'
      (sd := ⟨st.group.myLeafIndex, 0, guard⟩) (by rw [← hv.context]; exact ho.group) (by rw [← hv.context]; exact ho.epoch)
      hgl (by rw [← hv.epochSecret]; exact ho.sender) (by simp only; omega)
    unfold messageSteps
    rw [hum]
    exact C90_count st' m _ s hs
  · have hk : (Spec.senderDataKey pr d st.group.epochSecret m.ciphertext).length = d.aead.keySize :=
      hc.expand_length _ _ _ _ (expandable_key _ _)
    have hnl : (Spec.senderDataNonce pr d st.group.epochSecret m.ciphertext).length = 12 :=
      (hc.expand_length _ _ _ _ (expandable_nonce _ _)).trans (nonceSize_eq _)
    obtain ⟨esd, hesd⟩ := hc.aead_seal d.aead _ (Spec.senderDataNonce pr d st.group.epochSecret m.ciphertext)
      (Spec.senderData st.group.myLeafIndex.toNat g.toNat guard.toBytes)
      (Spec.senderDataAAD m.groupID m.epoch.toNat m.contentType) hk hnl (by
        rw [senderData_length, show guard.toBytes.length = 4 from rfl]; decide)
    have hel : esd.length = m.encryptedSenderData.length := by
      rw [ho.group, ho.epoch, hct] at hesd
      exact hl _ _ _ _ _ _ _ _ (by rw [senderData_length, senderData_length]) hesd hsd
    obtain ⟨raw', hum', hlr⟩ := replaced_length hel hum
    refine ⟨raw', hlr, ?_⟩
    obtain ⟨s, hs⟩ := ratchetStart_of (pr := pr) (st := st') (m := { m with encryptedSenderData := esd }) hd' hdep hlen'
      (sd := ⟨st.group.myLeafIndex, g, guard⟩) (by rw [← hv.context]; exact ho.group) (by rw [← hv.context]; exact ho.epoch)
      hgl (by rw [← hv.epochSecret]; exact hc.aead_open _ _ _ _ _ _ hesd) (by simp only; omega)
    unfold messageSteps
    rw [hum']
    exact C90_count st' _ _ s hs

/-- A message of a member of a group of two, which the other is to process. -/
example : ∃ st st' raw, Reachable toyPrims st ∧ SameView st st' ∧ st.group.myLeafIndex ≠ st'.group.myLeafIndex ∧
    createApplicationMessage toyPrims st [7, 8, 9] [] ⟨1, 2, 3, 4⟩ = .ok raw ∧
    messageSteps toyPrims st' raw = 0 ∧ ∃ raw', raw'.length = raw.length ∧ messageSteps toyPrims st' raw' = 4294967295 := by
  have key : (toyTwo.holds fun (a, b) => decide (SameView a b) && decide (a.group.myLeafIndex ≠ b.group.myLeafIndex) &&
      (createApplicationMessage toyPrims a [7, 8, 9] [] ⟨1, 2, 3, 4⟩).holds fun _ => true) = true := by decide +kernel
  obtain ⟨⟨a, b⟩, h1, h2⟩ := Res.holds_ok key
  simp only [Bool.and_eq_true, decide_eq_true_eq] at h2
  obtain ⟨⟨h2, h3⟩, h4⟩ := h2
  obtain ⟨raw, h5, -⟩ := Res.holds_ok h4
  refine ⟨a, b, raw, (toyTwo_reachable h1).1, h2, h3, h5, ?_⟩
  refine C90_refuted toyPrims_correct ?_ (toyTwo_reachable h1).1 h2 _ _ _ _ h5 4294967295
  intro _ k n p p' ad c c' hp hs hs'
  simp only [toyPrims] at hs hs'
  split at hs
  · next hk =>
    rw [if_pos hk] at hs'
    cases hs; cases hs'
    simp [hp]
  · cases hs

/-- C90, what does hold: a message makes fewer than 2^32 steps; it makes any only when it is a private message of the member's own
group and epoch whose sender data somebody sealed under that epoch's secret; and it makes then as many as these say. So
messages from outside, from other groups and from other epochs make none. -/
theorem C90_partial (hc : pr.Correct) {st : GroupState} (hr : Reachable pr st) (raw : Bytes) :
    messageSteps pr st raw < 2 ^ 32 ∧ (messageSteps pr st raw ≠ 0 → ∃ v m d li guard,
      unmarshal MlsMessage.dec raw = .ok ⟨v, .privateMessage m⟩ ∧ suite st.group.groupContext.cipherSuite = .ok d ∧
      m.groupID = st.group.groupContext.groupID ∧ m.epoch = st.group.groupContext.epoch ∧
      pr.aeadOpen d.aead (Spec.senderDataKey pr d st.group.epochSecret m.ciphertext)
        (Spec.senderDataNonce pr d st.group.epochSecret m.ciphertext) m.encryptedSenderData
        (Spec.senderDataAAD m.groupID m.epoch.toNat m.contentType) =
      some (Spec.senderData li (messageSteps pr st raw) guard)) := by
  obtain ⟨d, hd⟩ := (hr.inv hc).suite
  unfold messageSteps
  split
  · rename_i v m hum
    rcases hs : ratchetStart pr st m with ⟨sd, s⟩ | _ | _ | _
    · rw [C90_count st m sd s hs]
      refine ⟨sd.generation.toNat_lt, fun _ => ?_⟩
      obtain ⟨_, _, hg, he, k, hk, ho⟩ := ratchetStart_generation hs
      rw [deriveSecret_eq hd _ lblSenderData_name (by decide)] at hk
      cases hk
      exact ⟨v, m, d, _, _, hum, hd, hg, he, ((decryptSenderData_iff hd _ _ _).1 ho).2⟩
    all_goals
      have h0 : privateMessageSteps pr st m = 0 := by unfold privateMessageSteps; rw [hs]
      rw [h0]
      exact ⟨by decide, fun h => absurd rfl h⟩
  · exact ⟨by decide, fun h => absurd rfl h⟩

/-- The commits that the library makes cost their receivers no step either. -/
theorem C90_invite (hc : pr.Correct) {st st' : GroupState} (hr : Reachable pr st) (hv : SameView st st')
    (keyPkgs : List KeyPackage) (r : WelcomeRand) (w : Welcome) (raw : Bytes)
    (h : (createWelcome pr st keyPkgs r).1 = .ok (w, raw)) : messageSteps pr st' raw = 0 := by
  have hi := hr.inv hc
  obtain ⟨d, hd⟩ := hi.suite
  obtain ⟨depth, hdep, hlen⟩ := hi.tree.complete
  have hown := hi.own
  have hpos : 0 < 2 ^ depth := Nat.two_pow_pos _
  have hin : st.group.myLeafIndex.toNat < 2 ^ depth := by
    rw [hlen, Nat.pow_succ] at hown; omega
  obtain ⟨m, pt, auth, hum, _, _, _, ho, _⟩ := C62_sent_commit pr hc st d hd depth hdep hlen hin keyPkgs r w raw h
  have hd' : suite st'.group.groupContext.cipherSuite = .ok d := by rw [← hv.context]; exact hd
  unfold messageSteps
  rw [hum]
  simp only
  rcases hs : ratchetStart pr st' m with ⟨sd, s⟩ | _ | _ | _
  · rw [C90_count st' m sd s hs]
    obtain ⟨_, _, _, _, k, hk, hsd⟩ := ratchetStart_generation hs
    rw [deriveSecret_eq hd' _ lblSenderData_name (by decide)] at hk
    cases hk
    have hsd := ((decryptSenderData_iff hd' _ _ _).1 hsd).2
    rw [← hv.epochSecret, ho.sender, Option.some.injEq] at hsd
    have h1 := unmarshal_senderData (sd := sd).2 hsd
    have h2 := unmarshal_senderData (sd := ⟨st.group.myLeafIndex, 0, r.guard⟩).2 rfl
    have h3 := h1.symm.trans h2
    rw [Res.ok.injEq] at h3
    rw [h3]
    rfl
  all_goals (unfold privateMessageSteps; rw [hs])

/-- An invitation by a member of a group of two. -/
example : ∃ st st' w raw, Reachable toyPrims st ∧ SameView st st' ∧
    (createWelcome toyPrims st [(toyMember 2).pub] default).1 = .ok (w, raw) ∧ messageSteps toyPrims st' raw = 0 := by
  have key : (toyTwo.holds fun (a, b) => decide (SameView a b) &&
      (createWelcome toyPrims a [(toyMember 2).pub] default).1.holds fun _ => true) = true := by decide +kernel
  obtain ⟨⟨a, b⟩, h1, h2⟩ := Res.holds_ok key
  simp only [Bool.and_eq_true, decide_eq_true_eq] at h2
  obtain ⟨⟨w, raw⟩, h5, -⟩ := Res.holds_ok h2.2
  exact ⟨a, b, w, raw, (toyTwo_reachable h1).1, h2.1, h5,
    C90_invite toyPrims_correct (toyTwo_reachable h1).1 h2.1 _ _ _ _ h5⟩

end Mls
