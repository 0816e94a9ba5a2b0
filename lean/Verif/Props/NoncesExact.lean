import Verif.Props.Forward
/-
C81: which messages of an epoch share key and nonce.
-/
namespace Mls

variable {pr : Prims}

/-- The call sends a message to the group as the member in the state `sa`, an invitation if `handshake`, and draws the reuse guard `guard`. -/
inductive Spec.SentBy : Spec.Call → GroupState → (handshake : Bool) → (guard : Bytes4) → Prop where
  | message (sa : GroupState) (data rand : Bytes) (guard : Bytes4) : Spec.SentBy (.message sa data rand guard) sa false guard
  | invite (sa : GroupState) (kps : List KeyPackage) (r : WelcomeRand) : Spec.SentBy (.invite sa kps r) sa true r.guard

theorem groupEncrypt_type {g : Group} {content : Content} {c : PrivateMessageContent} {guard : Bytes4} {raw : Bytes}
    (h : g.encryptPrivateMessage pr (g.framedContent content) c guard = .ok raw) {m : PrivateMessage}
    (hm : unmarshal MlsMessage.dec raw = .ok ⟨1, .privateMessage m⟩) : m.contentType = content.ty := by
  unfold Group.encryptPrivateMessage at h
  simp only [Res.bind_ok_iff] at h
  obtain ⟨_, _, _, _, _, _, _, _, m', h, hraw⟩ := h
  rw [unmarshal_rt message_rt hraw ⟨rfl, trivial⟩] at hm
  cases hm
  unfold encryptPrivateMessage at h
  simp only [Res.bind_ok_iff] at h
  obtain ⟨_, _, _, _, h⟩ := h
  cases h
  rfl

theorem sent_sealed (hc : pr.Correct) {st : GroupState} {d : SuiteDesc} (hd : suite st.group.groupContext.cipherSuite = .ok d) {depth : Nat}
    (hdep : depth ≤ 31) (hlen : st.group.tree.length = 2 ^ (depth + 1) - 1) {c : Spec.Call} (hin : Spec.InEpoch pr st c) {sa : GroupState}
    {b : Bool} {g : Bytes4} (hb : Spec.SentBy c sa b g) {raw : Bytes} (h : c.Sends pr raw) :
    ∃ m pt, sa.group.myLeafIndex.toNat < 2 ^ depth ∧ unmarshal MlsMessage.dec raw = .ok ⟨1, .privateMessage m⟩ ∧
      SealedMessage pr d st.group.groupContext st.group.epochSecret depth sa.group.myLeafIndex.toNat g m pt ∧
      m.contentType = if b then .commit else .application := by
  have side : ∀ {sa : GroupState}, Reachable pr sa → Spec.SameEpoch st sa →
      suite sa.group.groupContext.cipherSuite = .ok d ∧ sa.group.tree.length = 2 ^ (depth + 1) - 1 ∧ sa.group.myLeafIndex.toNat < 2 ^ depth := by
    intro sa hr hs
    have hl : sa.group.tree.length = 2 ^ (depth + 1) - 1 := by
      have := congrArg List.length hs.tree
      unfold GroupState.vtree at this
      rw [derefTree_length, derefTree_length] at this
      rw [this, hlen]
    refine ⟨by rw [hs.context]; exact hd, hl, ?_⟩
    have := (hr.inv hc).own
    rw [hl, Nat.pow_succ] at this
    omega
  cases hb with
  | message _ data rand guard =>
    obtain ⟨hr, hs⟩ := hin
    obtain ⟨s1, s2, s3⟩ := side hr hs
    have h1 : createApplicationMessage pr sa data rand g = .ok raw := h
    unfold createApplicationMessage at h1
    dsimp only at h1
    rw [Res.bind_ok_iff] at h1
    obtain ⟨c, hcon, h1⟩ := h1
    obtain ⟨m, pt, g1, g2, -⟩ := groupEncrypt_sealed hc s1 hdep s2 s3 h1 d.aead [] [] [] []
    rw [hs.context, hs.secret] at g2
    exact ⟨m, pt, s3, g1, g2, groupEncrypt_type h1 g1⟩
  | invite _ kps r =>
    obtain ⟨hr, hs⟩ := hin
    obtain ⟨s1, s2, s3⟩ := side hr hs
    obtain ⟨w, h1⟩ := h
    rcases hw : createWelcome pr sa kps r with ⟨o, st1⟩
    rw [hw] at h1
    cases h1
    obtain ⟨hp, t, sd, th, psk, sig, cth, js, es, tag, rawTree, isig, ctx, run, rfl⟩ := createWelcome_run hw
    obtain ⟨m, pt, g1, g2, -⟩ := groupEncrypt_sealed hc s1 hdep s2 s3 run.message d.aead [] [] [] []
    rw [hs.context, hs.secret] at g2
    exact ⟨m, pt, s3, g1, g2, groupEncrypt_type run.message g1⟩

/-- **C81.** Any two messages that members send in one epoch, application messages or invitations: if the same member sends both, both are
application messages or both invitations, and the same reuse guard was drawn, then they are sealed under the same key and nonce; and if they are sealed under
the same key and nonce, then this is so, or two of the key derivations of the epoch collide. -/
theorem C81_exact (hc : pr.Correct) {st : GroupState} (hr : Reachable pr st) {c1 c2 : Spec.Call} (h1 : Spec.InEpoch pr st c1)
    (h2 : Spec.InEpoch pr st c2) {s1 s2 : GroupState} {b1 b2 : Bool} {g1 g2 : Bytes4} (hb1 : Spec.SentBy c1 s1 b1 g1) (hb2 : Spec.SentBy c2 s2 b2 g2)
    {raw1 raw2 : Bytes} (e1 : c1.Sends pr raw1) (e2 : c2.Sends pr raw2) :
    ∃ d depth k1 n1 p1 ad1 m1 k2 n2 p2 ad2 m2, suite st.group.groupContext.cipherSuite = .ok d ∧ st.vtree.length = 2 ^ (depth + 1) - 1 ∧
      unmarshal MlsMessage.dec raw1 = .ok ⟨1, .privateMessage m1⟩ ∧ unmarshal MlsMessage.dec raw2 = .ok ⟨1, .privateMessage m2⟩ ∧
      k1 = Spec.messageKey pr d st.group.epochSecret depth s1.group.myLeafIndex.toNat m1.contentType 0 ∧
      n1 = Spec.messageNonce pr d st.group.epochSecret depth s1.group.myLeafIndex.toNat m1.contentType 0 g1.toBytes ∧
      k2 = Spec.messageKey pr d st.group.epochSecret depth s2.group.myLeafIndex.toNat m2.contentType 0 ∧
      n2 = Spec.messageNonce pr d st.group.epochSecret depth s2.group.myLeafIndex.toNat m2.contentType 0 g2.toBytes ∧
      pr.aeadSeal d.aead k1 n1 p1 ad1 = some m1.ciphertext ∧ pr.aeadSeal d.aead k2 n2 p2 ad2 = some m2.ciphertext ∧
      (s1.group.myLeafIndex = s2.group.myLeafIndex ∧ b1 = b2 ∧ g1 = g2 → k1 = k2 ∧ n1 = n2) ∧
      (k1 = k2 ∧ n1 = n2 → (s1.group.myLeafIndex = s2.group.myLeafIndex ∧ b1 = b2 ∧ g1 = g2) ∨
        Spec.MessageCollision pr d st.group.epochSecret depth) := by
  have hi := hr.inv hc
  obtain ⟨d, hd⟩ := hi.suite
  obtain ⟨depth, hdep, hlen⟩ := hi.tree.complete
  obtain ⟨m1, p1, l1, u1, q1, t1⟩ := sent_sealed hc hd hdep hlen h1 hb1 e1
  obtain ⟨m2, p2, l2, u2, q2, t2⟩ := sent_sealed hc hd hdep hlen h2 hb2 e2
  refine ⟨d, depth, _, _, p1, _, m1, _, _, p2, _, m2, hd, by unfold GroupState.vtree; rw [derefTree_length]; exact hlen, u1, u2, rfl, rfl, rfl, rfl,
    q1.content, q2.content, ?_, ?_⟩
  · rintro ⟨x, rfl, rfl⟩
    rw [t1, t2, x]
    exact ⟨rfl, rfl⟩
  · rintro ⟨hk, hn⟩
    rcases C81_apart l1 l2 (by decide) (by decide) hk with ⟨x, y, -⟩ | h
    · refine .inl ⟨UInt32.toNat_inj.1 x, ?_, ?_⟩
      · rw [t1, t2] at y
        cases b1 <;> cases b2 <;> first | rfl | (revert y; decide)
      · have hx : m1.contentType = m2.contentType := by
          rw [t1, t2] at y ⊢
          cases b1 <;> cases b2 <;> first | rfl | (revert y; decide)
        rw [hx, x] at hn
        refine (mask_inj ?_).1 hn
        unfold Spec.deriveTreeSecret Spec.expandWithLabel
        rw [hc.expand_length _ _ _ _ (expandable_nonce _ _)]
        cases d.aead <;> decide
    · exact .inr h

/-- `0` invites `2`, and then `3`, before processing its own commit: it is in the same epoch, and the two different commits can share key and nonce. Meanwhile
`1` sends an application message. -/
theorem toyTwice : ∃ st c1 c2 c3 sb raw1 raw2 raw3, Reachable toyPrims st ∧ Spec.InEpoch toyPrims st c1 ∧ Spec.InEpoch toyPrims st c2 ∧
    Spec.InEpoch toyPrims st c3 ∧ Spec.SentBy c1 st true default ∧ Spec.SentBy c2 st true default ∧ Spec.SentBy c3 sb false default ∧
    st.group.myLeafIndex ≠ sb.group.myLeafIndex ∧
    c1.Sends toyPrims raw1 ∧ c2.Sends toyPrims raw2 ∧ c3.Sends toyPrims raw3 ∧ raw1 ≠ raw2 := by
  have key : toyTwo.holds (fun (a, b) => decide (b.group.groupContext = a.group.groupContext ∧ b.group.epochSecret = a.group.epochSecret ∧
      b.vtree = a.vtree ∧ a.group.myLeafIndex ≠ b.group.myLeafIndex ∧ (default : WelcomeRand).guard = default) &&
      (createWelcome toyPrims a [(toyMember 2).pub] default).1.holds (fun (_, raw1) =>
        (createWelcome toyPrims a [(toyMember 3).pub] default).1.holds (fun (_, raw2) =>
          (createApplicationMessage toyPrims b [1, 2] [] default).holds fun _ => decide (raw1 ≠ raw2)))) = true := by decide +kernel
  obtain ⟨⟨a, b⟩, h, key⟩ := Res.holds_ok key
  rw [Bool.and_eq_true] at key
  obtain ⟨k1, k2, k3, k4, k5⟩ := of_decide_eq_true key.1
  obtain ⟨⟨w1, raw1⟩, h1, key⟩ := Res.holds_ok key.2
  obtain ⟨⟨w2, raw2⟩, h2, key⟩ := Res.holds_ok key
  obtain ⟨raw3, h3, key⟩ := Res.holds_ok key
  obtain ⟨ra, rb⟩ := toyTwo_reachable h
  have g : ∀ kps, Spec.SentBy (.invite a kps default) a true default := fun kps => by
    have := Spec.SentBy.invite a kps default
    rwa [k5] at this
  exact ⟨a, .invite a [(toyMember 2).pub] default, .invite a [(toyMember 3).pub] default, .message b [1, 2] [] default, b, raw1, raw2, raw3, ra,
    ⟨ra, ⟨rfl, rfl, rfl⟩⟩, ⟨ra, ⟨rfl, rfl, rfl⟩⟩, ⟨rb, ⟨k1, k2, k3⟩⟩, g _, g _, .message .., k4, ⟨w1, h1⟩, ⟨w2, h2⟩, h3, of_decide_eq_true key⟩

end Mls
