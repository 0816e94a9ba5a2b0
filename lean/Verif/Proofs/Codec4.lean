import Verif.Proofs.Codec3
/-
Codec laws of framing, group context, group info, group secrets and messages.
-/
set_option linter.unusedSimpArgs false

namespace Mls

/-! ### Content types, senders -/

theorem contentType_rt : RT ContentType.enc ContentType.dec Any := by
  intro a bs rest h _
  cases a <;> simp only [ContentType.enc, addU8_eq, Res.ok.injEq] at h <;> subst h <;>
    exact tag8_step rfl rfl

theorem contentType_canon : Canon ContentType.enc ContentType.dec Any := by
  intro s a rest h _
  unfold ContentType.dec at h
  rw [P.bind_ok_iff] at h
  simp only [contentTypeTag, tag8_ok] at h
  obtain ⟨t, s1, ⟨rfl, hc⟩, h⟩ := h
  simp only [Bool.or_eq_true, beq_iff_eq] at hc
  rcases hc with (rfl | rfl) | rfl
  · cases h; exact ⟨[1], rfl, rfl⟩
  · cases h; exact ⟨[2], rfl, rfl⟩
  · cases h; exact ⟨[3], rfl, rfl⟩

theorem contentType_safe : Safe ContentType.dec := by
  unfold ContentType.dec
  refine Safe.bind_mem tag8_safe fun s t s' ht => ?_
  simp only [contentTypeTag, tag8_ok] at ht
  simp only [Bool.or_eq_true, beq_iff_eq] at ht
  rcases ht with ⟨_, (rfl | rfl) | rfl⟩ <;> exact (Safe.pure _) s'

theorem contentType_consumes : Consumes ContentType.dec :=
  tag8_consumes.bind fun _ => Shrinks.ite (Shrinks.pure _) (Shrinks.ite (Shrinks.pure _)
    (Shrinks.ite (Shrinks.pure _) Shrinks.panic))

theorem sender_rt : RT Sender.enc Sender.dec Any := by
  intro a bs rest h _
  cases a with
  | member i =>
    simp only [Sender.enc, Enc.append_ok_iff, addU8_eq, Res.ok.injEq] at h
    obtain ⟨x, y, rfl, e2, rfl⟩ := h
    exact tag8_step rfl (rt_step rU32_rt e2 trivial rfl)
  | external i =>
    simp only [Sender.enc, Enc.append_ok_iff, addU8_eq, Res.ok.injEq] at h
    obtain ⟨x, y, rfl, e2, rfl⟩ := h
    exact tag8_step rfl (rt_step rU32_rt e2 trivial rfl)
  | newMemberProposal =>
    simp only [Sender.enc, addU8_eq, Res.ok.injEq] at h
    subst h
    exact tag8_step rfl rfl
  | newMemberCommit =>
    simp only [Sender.enc, addU8_eq, Res.ok.injEq] at h
    subst h
    exact tag8_step rfl rfl

theorem sender_canon : Canon Sender.enc Sender.dec Any := by
  intro s a rest h _
  unfold Sender.dec at h
  rw [P.bind_ok_iff] at h
  simp only [senderTypeTag, tag8_ok] at h
  obtain ⟨t, s1, ⟨rfl, hc⟩, h⟩ := h
  simp only [Bool.or_eq_true, beq_iff_eq] at hc
  rcases hc with ((rfl | rfl) | rfl) | rfl
  · change (do let i ← readU32; return Sender.member i : P Sender).run s1 = _ at h
    simp only [P.bind_ok_iff, P.pure_ok_iff] at h
    obtain ⟨a1, s2, h1, rfl, rfl⟩ := h
    obtain ⟨x1, e1, rfl⟩ := rU32_canon _ _ _ h1 trivial
    exact ⟨[1] ++ x1, Enc.append_ok (addU8_eq _) e1, rfl⟩
  · change (do let i ← readU32; return Sender.external i : P Sender).run s1 = _ at h
    simp only [P.bind_ok_iff, P.pure_ok_iff] at h
    obtain ⟨a1, s2, h1, rfl, rfl⟩ := h
    obtain ⟨x1, e1, rfl⟩ := rU32_canon _ _ _ h1 trivial
    exact ⟨[2] ++ x1, Enc.append_ok (addU8_eq _) e1, rfl⟩
  · cases h; exact ⟨[3], rfl, rfl⟩
  · cases h; exact ⟨[4], rfl, rfl⟩

theorem sender_safe : Safe Sender.dec :=
  tag8_safe.bind fun _ => Safe.ite (rU32_safe.bind fun _ => Safe.pure _)
    (Safe.ite (rU32_safe.bind fun _ => Safe.pure _) (Safe.ite (Safe.pure _) (Safe.pure _)))

theorem sender_consumes : Consumes Sender.dec :=
  tag8_consumes.bind fun _ => Shrinks.ite (rU32_consumes.shrinks.bind fun _ => Shrinks.pure _)
    (Shrinks.ite (rU32_consumes.shrinks.bind fun _ => Shrinks.pure _)
      (Shrinks.ite (Shrinks.pure _) (Shrinks.pure _)))

/-! ### Contents -/

theorem content_rt (c : Content) (bs rest : Bytes) (h : c.enc = .ok bs) (hw : c.WF) :
    (Content.dec c.ty).run (bs ++ rest) = (.ok c, rest) := by
  cases c with
  | application d => exact rt_step opaque_rt h trivial rfl
  | proposal d => exact rt_step proposal_rt h hw rfl
  | commit d => exact rt_step commit_rt h hw rfl

theorem content_dec {ct : ContentType} {s rest : Bytes} {c : Content}
    (h : (Content.dec ct).run s = (.ok c, rest)) :
    c.ty = ct ∧ c.WF ∧ (c.Signed → ∃ bs, c.enc = .ok bs ∧ s = bs ++ rest) := by
  cases ct with
  | application =>
    change (do let d ← readOpaqueVec; return Content.application d : P Content).run s = _ at h
    simp only [P.bind_ok_iff, P.pure_ok_iff] at h
    obtain ⟨a1, s2, h1, rfl, rfl⟩ := h
    exact ⟨rfl, trivial, fun _ => opaque_canon _ _ _ h1 trivial⟩
  | proposal =>
    change (do let d ← Proposal.dec; return Content.proposal d : P Content).run s = _ at h
    simp only [P.bind_ok_iff, P.pure_ok_iff] at h
    obtain ⟨a1, s2, h1, rfl, rfl⟩ := h
    exact ⟨rfl, proposal_dec_wf h1, fun hg => proposal_canon _ _ _ h1 hg⟩
  | commit =>
    change (do let d ← Commit.dec; return Content.commit d : P Content).run s = _ at h
    simp only [P.bind_ok_iff, P.pure_ok_iff] at h
    obtain ⟨a1, s2, h1, rfl, rfl⟩ := h
    exact ⟨rfl, commit_dec_wf h1, fun hg => commit_canon _ _ _ h1 hg⟩

theorem content_safe (ct : ContentType) : Safe (Content.dec ct) := by
  cases ct with
  | application => exact opaque_safe.bind fun _ => Safe.pure _
  | proposal => exact proposal_safe.bind fun _ => Safe.pure _
  | commit => exact commit_safe.bind fun _ => Safe.pure _

theorem content_consumes (ct : ContentType) : Consumes (Content.dec ct) := by
  cases ct with
  | application => exact opaque_consumes.bind fun _ => Shrinks.pure _
  | proposal => exact proposal_consumes.bind fun _ => Shrinks.pure _
  | commit => exact commit_consumes.bind fun _ => Shrinks.pure _

theorem framedContent_rt : RT FramedContent.enc FramedContent.dec (fun c => c.content.WF) := by
  intro a bs rest h hw
  simp only [FramedContent.enc, Enc.append_assoc, Enc.append_ok_iff] at h
  obtain ⟨x0, _, e0, ⟨x1, _, e1, ⟨x2, _, e2, ⟨x3, _, e3, ⟨x4, x5, e4, e5, rfl⟩, rfl⟩, rfl⟩, rfl⟩, rfl⟩ := h
  simp only [List.append_assoc]
  refine rt_step opaque_rt e0 trivial ?_
  refine rt_step rU64_rt e1 trivial ?_
  refine rt_step sender_rt e2 trivial ?_
  refine rt_step opaque_rt e3 trivial ?_
  refine rt_step contentType_rt e4 trivial ?_
  rw [P.bind_eq (content_rt _ _ _ e5 hw)]
  rfl

theorem framedContent_dec_wf {s rest : Bytes} {a : FramedContent}
    (h : FramedContent.dec.run s = (.ok a, rest)) : a.content.WF := by
  unfold FramedContent.dec at h
  simp only [P.bind_ok_iff, P.pure_ok_iff] at h
  obtain ⟨a0, s0, h0, a1, s1, h1, a2, s2, h2, a3, s3, h3, ct, s4, h4, c, s5, h5, rfl, rfl⟩ := h
  exact (content_dec h5).2.1

theorem framedContent_canon : Canon FramedContent.enc FramedContent.dec (fun c => c.content.Signed) := by
  intro s a rest h hg
  unfold FramedContent.dec at h
  simp only [P.bind_ok_iff, P.pure_ok_iff] at h
  obtain ⟨a0, s0, h0, a1, s1, h1, a2, s2, h2, a3, s3, h3, ct, s4, h4, c, s5, h5, rfl, rfl⟩ := h
  obtain ⟨hty, _, hcan⟩ := content_dec h5
  obtain ⟨x0, e0, rfl⟩ := opaque_canon _ _ _ h0 trivial
  obtain ⟨x1, e1, rfl⟩ := rU64_canon _ _ _ h1 trivial
  obtain ⟨x2, e2, rfl⟩ := sender_canon _ _ _ h2 trivial
  obtain ⟨x3, e3, rfl⟩ := opaque_canon _ _ _ h3 trivial
  obtain ⟨x4, e4, rfl⟩ := contentType_canon _ _ _ h4 trivial
  obtain ⟨x5, e5, rfl⟩ := hcan hg
  refine ⟨x0 ++ x1 ++ x2 ++ x3 ++ x4 ++ x5, ?_, by simp only [List.append_assoc]⟩
  simp only [FramedContent.enc, hty, e0, e1, e2, e3, e4, e5, Enc.ok_append_ok]

theorem framedContent_safe : Safe FramedContent.dec := by
  unfold FramedContent.dec
  exact opaque_safe.bind fun _ => rU64_safe.bind fun _ => sender_safe.bind fun _ => opaque_safe.bind fun _ =>
    contentType_safe.bind fun ct => (content_safe ct).bind fun _ => Safe.pure _

theorem framedContent_consumes : Consumes FramedContent.dec := by
  unfold FramedContent.dec
  exact opaque_consumes.bind fun _ => rU64_consumes.shrinks.bind fun _ => sender_consumes.shrinks.bind fun _ =>
    opaque_shrinks.bind fun _ => contentType_consumes.shrinks.bind fun ct =>
    (content_consumes ct).shrinks.bind fun _ => Shrinks.pure _

/-! ### Authentication data -/

theorem authData_rt (ct : ContentType) (a : AuthData) (bs rest : Bytes) (h : a.enc ct = .ok bs)
    (hw : a.WF ct) : (AuthData.dec ct).run (bs ++ rest) = (.ok a, rest) := by
  obtain ⟨sig, tag⟩ := a
  unfold AuthData.enc at h
  unfold AuthData.dec
  split at h
  · rename_i hc
    rw [Enc.append_ok_iff] at h
    obtain ⟨x, y, e1, e2, rfl⟩ := h
    rw [List.append_assoc]
    refine rt_step opaque_rt e1 trivial ?_
    rw [if_pos hc]
    exact rt_step opaque_rt e2 trivial rfl
  · rename_i hc
    refine rt_step opaque_rt h trivial ?_
    rw [if_neg hc]
    rcases hw with hw | hw
    · exact absurd hw hc
    · simp only at hw
      subst hw; rfl

theorem authData_dec {ct : ContentType} {s rest : Bytes} {a : AuthData}
    (h : (AuthData.dec ct).run s = (.ok a, rest)) :
    a.WF ct ∧ ∃ bs, a.enc ct = .ok bs ∧ s = bs ++ rest := by
  unfold AuthData.dec at h
  rw [P.bind_ok_iff] at h
  obtain ⟨sig, s1, h1, h⟩ := h
  obtain ⟨x1, e1, rfl⟩ := opaque_canon _ _ _ h1 trivial
  rw [P.ite_run] at h
  unfold AuthData.enc
  split at h
  · rename_i hc
    simp only [P.bind_ok_iff, P.pure_ok_iff] at h
    obtain ⟨a1, s2, h2, rfl, rfl⟩ := h
    obtain ⟨x2, e2, rfl⟩ := opaque_canon _ _ _ h2 trivial
    refine ⟨Or.inl hc, x1 ++ x2, ?_, by simp only [List.append_assoc]⟩
    rw [if_pos hc]
    exact Enc.append_ok e1 e2
  · rename_i hc
    rw [P.pure_ok_iff] at h
    obtain ⟨rfl, rfl⟩ := h
    refine ⟨Or.inr rfl, x1, ?_, rfl⟩
    rw [if_neg hc]
    exact e1

theorem authData_safe (ct : ContentType) : Safe (AuthData.dec ct) :=
  opaque_safe.bind fun _ => Safe.ite (opaque_safe.bind fun _ => Safe.pure _) (Safe.pure _)

theorem authData_consumes (ct : ContentType) : Consumes (AuthData.dec ct) :=
  opaque_consumes.bind fun _ => Shrinks.ite (opaque_shrinks.bind fun _ => Shrinks.pure _) (Shrinks.pure _)

/-! ### Public and private messages -/

theorem publicMessage_rt : RT PublicMessage.enc PublicMessage.dec PublicMessage.WF := by
  intro a bs rest h hw
  obtain ⟨hw1, hw2, hw3⟩ := hw
  obtain ⟨content, auth, tag⟩ := a
  simp only at hw1 hw2 hw3
  unfold PublicMessage.enc at h
  unfold PublicMessage.dec
  simp only at h
  cases hs : content.sender with
  | member i =>
    rw [hs] at h
    simp only [Enc.append_assoc, Enc.append_ok_iff] at h
    obtain ⟨x, _, e1, ⟨y, z, e2, e3, rfl⟩, rfl⟩ := h
    simp only [List.append_assoc]
    refine rt_step framedContent_rt e1 hw1 ?_
    rw [P.bind_eq (authData_rt _ _ _ _ e2 hw2), hs]
    exact rt_step opaque_rt e3 trivial rfl
  | external i =>
    rw [hs] at h hw3
    simp only [Enc.append_ok_iff] at h
    obtain ⟨x, y, e1, e2, rfl⟩ := h
    simp only [List.append_assoc]
    refine rt_step framedContent_rt e1 hw1 ?_
    rw [P.bind_eq (authData_rt _ _ _ _ e2 hw2), hs]
    rcases hw3 with ⟨i, hw3⟩ | rfl
    · cases hw3
    · rfl
  | newMemberProposal =>
    rw [hs] at h hw3
    simp only [Enc.append_ok_iff] at h
    obtain ⟨x, y, e1, e2, rfl⟩ := h
    simp only [List.append_assoc]
    refine rt_step framedContent_rt e1 hw1 ?_
    rw [P.bind_eq (authData_rt _ _ _ _ e2 hw2), hs]
    rcases hw3 with ⟨i, hw3⟩ | rfl
    · cases hw3
    · rfl
  | newMemberCommit =>
    rw [hs] at h hw3
    simp only [Enc.append_ok_iff] at h
    obtain ⟨x, y, e1, e2, rfl⟩ := h
    simp only [List.append_assoc]
    refine rt_step framedContent_rt e1 hw1 ?_
    rw [P.bind_eq (authData_rt _ _ _ _ e2 hw2), hs]
    rcases hw3 with ⟨i, hw3⟩ | rfl
    · cases hw3
    · rfl

theorem publicMessage_dec {s rest : Bytes} {m : PublicMessage}
    (h : PublicMessage.dec.run s = (.ok m, rest)) :
    m.WF ∧ (m.content.content.Signed → ∃ bs, m.enc = .ok bs ∧ s = bs ++ rest) := by
  unfold PublicMessage.dec at h
  simp only [P.bind_ok_iff] at h
  obtain ⟨content, s1, h1, auth, s2, h2, h⟩ := h
  have hw1 := framedContent_dec_wf h1
  obtain ⟨hw2, x2, e2, rfl⟩ := authData_dec h2
  unfold PublicMessage.enc PublicMessage.WF
  cases hs : content.sender with
  | member i =>
    rw [hs] at h
    simp only [P.bind_ok_iff, P.pure_ok_iff] at h
    obtain ⟨a1, s3, h3, rfl, rfl⟩ := h
    obtain ⟨x3, e3, rfl⟩ := opaque_canon _ _ _ h3 trivial
    refine ⟨⟨hw1, hw2, Or.inl ⟨i, hs⟩⟩, fun hg => ?_⟩
    obtain ⟨x1, e1, rfl⟩ := framedContent_canon _ _ _ h1 hg
    refine ⟨x1 ++ x2 ++ x3, ?_, by simp only [List.append_assoc]⟩
    simp only [hs, e1, e2, e3, Enc.ok_append_ok]
  | external i =>
    rw [hs] at h
    simp only [P.pure_ok_iff] at h
    obtain ⟨rfl, rfl⟩ := h
    refine ⟨⟨hw1, hw2, Or.inr rfl⟩, fun hg => ?_⟩
    obtain ⟨x1, e1, rfl⟩ := framedContent_canon _ _ _ h1 hg
    refine ⟨x1 ++ x2, ?_, by simp only [List.append_assoc]⟩
    simp only [hs, e1, e2, Enc.ok_append_ok]
  | newMemberProposal =>
    rw [hs] at h
    simp only [P.pure_ok_iff] at h
    obtain ⟨rfl, rfl⟩ := h
    refine ⟨⟨hw1, hw2, Or.inr rfl⟩, fun hg => ?_⟩
    obtain ⟨x1, e1, rfl⟩ := framedContent_canon _ _ _ h1 hg
    refine ⟨x1 ++ x2, ?_, by simp only [List.append_assoc]⟩
    simp only [hs, e1, e2, Enc.ok_append_ok]
  | newMemberCommit =>
    rw [hs] at h
    simp only [P.pure_ok_iff] at h
    obtain ⟨rfl, rfl⟩ := h
    refine ⟨⟨hw1, hw2, Or.inr rfl⟩, fun hg => ?_⟩
    obtain ⟨x1, e1, rfl⟩ := framedContent_canon _ _ _ h1 hg
    refine ⟨x1 ++ x2, ?_, by simp only [List.append_assoc]⟩
    simp only [hs, e1, e2, Enc.ok_append_ok]

theorem publicMessage_safe : Safe PublicMessage.dec := by
  unfold PublicMessage.dec
  refine framedContent_safe.bind fun c => (authData_safe _).bind fun a => ?_
  split
  · exact opaque_safe.bind fun _ => Safe.pure _
  · exact Safe.pure _

theorem publicMessage_consumes : Consumes PublicMessage.dec := by
  unfold PublicMessage.dec
  refine framedContent_consumes.bind fun c => (authData_consumes _).shrinks.bind fun a => ?_
  split
  · exact opaque_shrinks.bind fun _ => Shrinks.pure _
  · exact Shrinks.pure _

theorem privateMessage_rt : RT PrivateMessage.enc PrivateMessage.dec Any := by
  intro a bs rest h _
  simp only [PrivateMessage.enc, Enc.append_assoc, Enc.append_ok_iff] at h
  obtain ⟨x0, _, e0, ⟨x1, _, e1, ⟨x2, _, e2, ⟨x3, _, e3, ⟨x4, x5, e4, e5, rfl⟩, rfl⟩, rfl⟩, rfl⟩, rfl⟩ := h
  simp only [List.append_assoc]
  refine rt_step opaque_rt e0 trivial ?_
  refine rt_step rU64_rt e1 trivial ?_
  refine rt_step contentType_rt e2 trivial ?_
  refine rt_step opaque_rt e3 trivial ?_
  refine rt_step opaque_rt e4 trivial ?_
  refine rt_step opaque_rt e5 trivial ?_
  rfl

theorem privateMessage_canon : Canon PrivateMessage.enc PrivateMessage.dec Any := by
  intro s a rest h _
  simp only [PrivateMessage.dec, P.bind_ok_iff, P.pure_ok_iff] at h
  obtain ⟨a0, s0, h0, a1, s1, h1, a2, s2, h2, a3, s3, h3, a4, s4, h4, a5, s5, h5, rfl, rfl⟩ := h
  obtain ⟨x0, e0, rfl⟩ := opaque_canon _ _ _ h0 trivial
  obtain ⟨x1, e1, rfl⟩ := rU64_canon _ _ _ h1 trivial
  obtain ⟨x2, e2, rfl⟩ := contentType_canon _ _ _ h2 trivial
  obtain ⟨x3, e3, rfl⟩ := opaque_canon _ _ _ h3 trivial
  obtain ⟨x4, e4, rfl⟩ := opaque_canon _ _ _ h4 trivial
  obtain ⟨x5, e5, rfl⟩ := opaque_canon _ _ _ h5 trivial
  refine ⟨x0 ++ x1 ++ x2 ++ x3 ++ x4 ++ x5, ?_, by simp only [List.append_assoc]⟩
  simp only [PrivateMessage.enc, e0, e1, e2, e3, e4, e5, Enc.ok_append_ok]

theorem privateMessage_safe : Safe PrivateMessage.dec := by
  unfold PrivateMessage.dec
  refine opaque_safe.bind fun _ => ?_
  refine rU64_safe.bind fun _ => ?_
  refine contentType_safe.bind fun _ => ?_
  refine opaque_safe.bind fun _ => ?_
  refine opaque_safe.bind fun _ => ?_
  refine opaque_safe.bind fun _ => ?_
  exact Safe.pure _

theorem privateMessage_consumes : Consumes PrivateMessage.dec := by
  unfold PrivateMessage.dec
  refine opaque_consumes.bind fun _ => ?_
  refine rU64_consumes.shrinks.bind fun _ => ?_
  refine contentType_consumes.shrinks.bind fun _ => ?_
  refine opaque_consumes.shrinks.bind fun _ => ?_
  refine opaque_consumes.shrinks.bind fun _ => ?_
  refine opaque_consumes.shrinks.bind fun _ => ?_
  exact Shrinks.pure _

/-- Private contents read back with their own content type. -/
theorem privateContent_rt (c : PrivateMessageContent) (bs rest : Bytes) (h : c.enc = .ok bs)
    (hw : c.content.WF) (ha : c.auth.WF c.content.ty) :
    (PrivateMessageContent.dec c.content.ty).run (bs ++ rest) = (.ok c, rest) := by
  simp only [PrivateMessageContent.enc, Enc.append_ok_iff] at h
  obtain ⟨x, y, e1, e2, rfl⟩ := h
  rw [List.append_assoc]
  unfold PrivateMessageContent.dec
  rw [P.bind_eq (content_rt _ _ _ e1 hw), P.bind_eq (authData_rt _ _ _ _ e2 ha)]
  rfl

theorem privateContent_dec {ct : ContentType} {s rest : Bytes} {c : PrivateMessageContent}
    (h : (PrivateMessageContent.dec ct).run s = (.ok c, rest)) :
    c.content.ty = ct ∧ c.content.WF ∧ c.auth.WF ct ∧
      (c.content.Signed → ∃ bs, c.enc = .ok bs ∧ s = bs ++ rest) := by
  unfold PrivateMessageContent.dec at h
  simp only [P.bind_ok_iff, P.pure_ok_iff] at h
  obtain ⟨content, s1, h1, auth, s2, h2, rfl, rfl⟩ := h
  obtain ⟨hty, hw, hcan⟩ := content_dec h1
  obtain ⟨hw2, x2, e2, rfl⟩ := authData_dec h2
  refine ⟨hty, hw, hw2, fun hg => ?_⟩
  obtain ⟨x1, e1, rfl⟩ := hcan hg
  refine ⟨x1 ++ x2, ?_, by simp only [List.append_assoc]⟩
  simp only [PrivateMessageContent.enc, hty, e1, e2, Enc.ok_append_ok]

theorem privateContent_safe (ct : ContentType) : Safe (PrivateMessageContent.dec ct) :=
  (content_safe ct).bind fun _ => (authData_safe ct).bind fun _ => Safe.pure _

/-! ### Sender data -/

theorem bytes4_rt : RT (fun b => addBytes (Bytes4.toBytes b)) Bytes4.dec Any := by
  intro a bs rest h _
  cases h
  unfold Bytes4.dec
  rw [P.bind_eq (readN_append a.toBytes rest (n := 4) rfl)]
  rfl

theorem bytes4_canon : Canon (fun b => addBytes (Bytes4.toBytes b)) Bytes4.dec Any := by
  intro s a rest h _
  unfold Bytes4.dec at h
  simp only [P.bind_ok_iff, readN_ok_iff] at h
  obtain ⟨b, s1, ⟨hl, rfl⟩, h⟩ := h
  match b, hl with
  | [b0, b1, b2, b3], _ =>
    cases h
    exact ⟨_, rfl, rfl⟩

theorem bytes4_safe : Safe Bytes4.dec := by
  unfold Bytes4.dec
  refine (readN_safe 4).bind fun b => ?_
  split
  · exact Safe.pure _
  · exact Safe.fail

theorem bytes4_consumes : Consumes Bytes4.dec := by
  unfold Bytes4.dec
  refine (readN_consumes (by decide)).bind fun b => ?_
  split
  · exact Shrinks.pure _
  · exact Shrinks.fail

theorem senderData_rt : RT SenderData.enc SenderData.dec Any := by
  intro a bs rest h _
  simp only [SenderData.enc, Enc.append_assoc, Enc.append_ok_iff] at h
  obtain ⟨x0, _, e0, ⟨x1, x2, e1, e2, rfl⟩, rfl⟩ := h
  simp only [List.append_assoc]
  refine rt_step rU32_rt e0 trivial ?_
  refine rt_step rU32_rt e1 trivial ?_
  refine rt_step bytes4_rt e2 trivial ?_
  rfl

theorem senderData_canon : Canon SenderData.enc SenderData.dec Any := by
  intro s a rest h _
  simp only [SenderData.dec, P.bind_ok_iff, P.pure_ok_iff] at h
  obtain ⟨a0, s0, h0, a1, s1, h1, a2, s2, h2, rfl, rfl⟩ := h
  obtain ⟨x0, e0, rfl⟩ := rU32_canon _ _ _ h0 trivial
  obtain ⟨x1, e1, rfl⟩ := rU32_canon _ _ _ h1 trivial
  obtain ⟨x2, e2, rfl⟩ := bytes4_canon _ _ _ h2 trivial
  refine ⟨x0 ++ x1 ++ x2, ?_, by simp only [List.append_assoc]⟩
  simp only [SenderData.enc, e0, e1, e2, Enc.ok_append_ok]

theorem senderData_safe : Safe SenderData.dec := by
  unfold SenderData.dec
  refine rU32_safe.bind fun _ => ?_
  refine rU32_safe.bind fun _ => ?_
  refine bytes4_safe.bind fun _ => ?_
  exact Safe.pure _

theorem senderData_consumes : Consumes SenderData.dec := by
  unfold SenderData.dec
  refine rU32_consumes.bind fun _ => ?_
  refine rU32_consumes.shrinks.bind fun _ => ?_
  refine bytes4_consumes.shrinks.bind fun _ => ?_
  exact Shrinks.pure _

/-! ### Group context and group info -/

theorem groupContext_rt : RT GroupContext.enc GroupContext.dec GroupContext.WF := by
  intro a bs rest h hw
  simp only [GroupContext.enc, Enc.append_assoc, Enc.append_ok_iff] at h
  obtain ⟨x0, _, e0, ⟨x1, _, e1, ⟨x2, _, e2, ⟨x3, _, e3, ⟨x4, _, e4, ⟨x5, x6, e5, e6, rfl⟩, rfl⟩, rfl⟩, rfl⟩, rfl⟩, rfl⟩ := h
  simp only [List.append_assoc]
  refine rt_step rU16_rt e0 trivial ?_
  refine rt_step rU16_rt e1 trivial ?_
  refine rt_step opaque_rt e2 trivial ?_
  refine rt_step rU64_rt e3 trivial ?_
  refine rt_step opaque_rt e4 trivial ?_
  refine rt_step opaque_rt e5 trivial ?_
  rw [if_neg (by rw [show a.version = 1 from hw]; decide)]
  exact rt_step exts_rt e6 trivial rfl

theorem groupContext_dec {s rest : Bytes} {c : GroupContext}
    (h : GroupContext.dec.run s = (.ok c, rest)) :
    c.WF ∧ ∃ bs, c.enc = .ok bs ∧ s = bs ++ rest := by
  unfold GroupContext.dec at h
  simp only [P.bind_ok_iff] at h
  obtain ⟨a0, s0, h0, a1, s1, h1, a2, s2, h2, a3, s3, h3, a4, s4, h4, a5, s5, h5, h⟩ := h
  obtain ⟨x0, e0, rfl⟩ := rU16_canon _ _ _ h0 trivial
  obtain ⟨x1, e1, rfl⟩ := rU16_canon _ _ _ h1 trivial
  obtain ⟨x2, e2, rfl⟩ := opaque_canon _ _ _ h2 trivial
  obtain ⟨x3, e3, rfl⟩ := rU64_canon _ _ _ h3 trivial
  obtain ⟨x4, e4, rfl⟩ := opaque_canon _ _ _ h4 trivial
  obtain ⟨x5, e5, rfl⟩ := opaque_canon _ _ _ h5 trivial
  rw [P.ite_run] at h
  split at h
  · rw [P.fail_ok_iff] at h; exact h.elim
  · rename_i hv
    have hv : a0 = 1 := by simpa using hv
    simp only [P.bind_ok_iff, P.pure_ok_iff] at h
    obtain ⟨a6, s6, h6, rfl, rfl⟩ := h
    obtain ⟨x6, e6, rfl⟩ := exts_canon _ _ _ h6 trivial
    refine ⟨hv, x0 ++ x1 ++ x2 ++ x3 ++ x4 ++ x5 ++ x6, ?_, by simp only [List.append_assoc]⟩
    simp only [GroupContext.enc, e0, e1, e2, e3, e4, e5, e6, Enc.ok_append_ok]

theorem groupContext_safe : Safe GroupContext.dec := by
  unfold GroupContext.dec
  exact rU16_safe.bind fun v => rU16_safe.bind fun _ => opaque_safe.bind fun _ => rU64_safe.bind fun _ =>
    opaque_safe.bind fun _ => opaque_safe.bind fun _ => Safe.ite Safe.fail (exts_safe.bind fun _ => Safe.pure _)

theorem groupContext_consumes : Consumes GroupContext.dec := by
  unfold GroupContext.dec
  exact rU16_consumes.bind fun v => rU16_consumes.shrinks.bind fun _ => opaque_shrinks.bind fun _ =>
    rU64_consumes.shrinks.bind fun _ => opaque_shrinks.bind fun _ => opaque_shrinks.bind fun _ =>
    Shrinks.ite Shrinks.fail (exts_consumes.shrinks.bind fun _ => Shrinks.pure _)

theorem groupInfo_rt : RT GroupInfo.enc GroupInfo.dec (fun i => i.groupContext.WF) := by
  intro a bs rest h hw
  simp only [GroupInfo.enc, GroupInfo.encTBS, Enc.append_assoc, Enc.append_ok_iff] at h
  obtain ⟨x0, _, e0, ⟨x1, _, e1, ⟨x2, _, e2, ⟨x3, x4, e3, e4, rfl⟩, rfl⟩, rfl⟩, rfl⟩ := h
  simp only [List.append_assoc]
  refine rt_step groupContext_rt e0 hw ?_
  refine rt_step exts_rt e1 trivial ?_
  rw [P.bind_eq (P.attempt_ok (opaque_rt _ _ _ e2 trivial))]
  simp only
  rw [P.bind_eq (P.attempt_ok (rU32_rt _ _ _ e3 trivial))]
  simp only
  rw [P.bind_eq (P.attempt_ok (opaque_rt _ _ _ e4 trivial))]
  rfl

theorem groupInfo_dec {s rest : Bytes} {i : GroupInfo} (h : GroupInfo.dec.run s = (.ok i, rest)) :
    i.groupContext.WF ∧ (i.signature ≠ [] → ∃ bs, i.enc = .ok bs ∧ s = bs ++ rest) := by
  unfold GroupInfo.dec at h
  simp only [P.bind_ok_iff] at h
  obtain ⟨gc, s0, h0, exts, s1, h1, o2, s2, h2, h⟩ := h
  obtain ⟨hw, x0, e0, rfl⟩ := groupContext_dec h0
  obtain ⟨x1, e1, rfl⟩ := exts_canon _ _ _ h1 trivial
  rw [P.attempt_ok_iff] at h2
  rcases h2 with ⟨tag, rfl, h2⟩ | ⟨rfl, h2⟩
  · simp only [P.bind_ok_iff] at h
    obtain ⟨o3, s3, h3, h⟩ := h
    rw [P.attempt_ok_iff] at h3
    rcases h3 with ⟨signer, rfl, h3⟩ | ⟨rfl, h3⟩
    · simp only [P.bind_ok_iff] at h
      obtain ⟨o4, s4, h4, h⟩ := h
      rw [P.attempt_ok_iff] at h4
      rcases h4 with ⟨sig, rfl, h4⟩ | ⟨rfl, h4⟩
      · simp only [P.pure_ok_iff] at h
        obtain ⟨rfl, rfl⟩ := h
        obtain ⟨x2, e2, rfl⟩ := opaque_canon _ _ _ h2 trivial
        obtain ⟨x3, e3, rfl⟩ := rU32_canon _ _ _ h3 trivial
        obtain ⟨x4, e4, rfl⟩ := opaque_canon _ _ _ h4 trivial
        refine ⟨hw, fun _ => ⟨x0 ++ x1 ++ x2 ++ x3 ++ x4, ?_, by simp only [List.append_assoc]⟩⟩
        simp only [GroupInfo.enc, GroupInfo.encTBS, e0, e1, e2, e3, e4, Enc.ok_append_ok]
      · simp only [P.pure_ok_iff] at h
        obtain ⟨rfl, rfl⟩ := h
        exact ⟨hw, fun hs => absurd rfl hs⟩
    · simp only [P.pure_ok_iff] at h
      obtain ⟨rfl, rfl⟩ := h
      exact ⟨hw, fun hs => absurd rfl hs⟩
  · simp only [P.pure_ok_iff] at h
    obtain ⟨rfl, rfl⟩ := h
    exact ⟨hw, fun hs => absurd rfl hs⟩

theorem groupInfo_safe : Safe GroupInfo.dec := by
  unfold GroupInfo.dec
  refine groupContext_safe.bind fun _ => exts_safe.bind fun _ => opaque_safe.attempt.bind fun o => ?_
  split
  · exact Safe.pure _
  · refine rU32_safe.attempt.bind fun o => ?_
    split
    · exact Safe.pure _
    · refine opaque_safe.attempt.bind fun o => ?_
      split <;> exact Safe.pure _

theorem groupInfo_consumes : Consumes GroupInfo.dec := by
  unfold GroupInfo.dec
  refine groupContext_consumes.bind fun _ => exts_consumes.shrinks.bind fun _ =>
    (attempt_shrinks opaque_mono).bind fun o => ?_
  split
  · exact Shrinks.pure _
  · refine (attempt_shrinks readU32_mono).bind fun o => ?_
    split
    · exact Shrinks.pure _
    · refine (attempt_shrinks opaque_mono).bind fun o => ?_
      split <;> exact Shrinks.pure _

/-! ### Group secrets -/

theorem groupSecrets_rt : RT GroupSecrets.enc GroupSecrets.dec Any := by
  intro a bs rest h _
  obtain ⟨j, ps, psks⟩ := a
  cases ps with
  | none =>
    simp only [GroupSecrets.enc, Enc.append_assoc, Enc.append_ok_iff] at h
    obtain ⟨x0, _, e0, ⟨x1, x2, e1, e2, rfl⟩, rfl⟩ := h
    simp only [List.append_assoc]
    refine rt_step opaque_rt e0 trivial ?_
    refine rt_step optional_rt e1 trivial ?_
    show (do let psks ← readVector PreSharedKeyID.dec; return { joinerSecret := j, pathSecret := none, psks } : P GroupSecrets).run _ = _
    exact rt_step vecPskID_rt e2 trivial rfl
  | some s =>
    simp only [GroupSecrets.enc, Enc.append_assoc, Enc.append_ok_iff] at h
    obtain ⟨x0, _, e0, ⟨x1, _, e1, ⟨x2, x3, e2, e3, rfl⟩, rfl⟩, rfl⟩ := h
    simp only [List.append_assoc]
    refine rt_step opaque_rt e0 trivial ?_
    refine rt_step optional_rt e1 trivial ?_
    show ((do let s ← readOpaqueVec; return some s : P (Option Bytes)) >>= _).run _ = _
    rw [P.bind_assoc]
    refine rt_step opaque_rt e2 trivial ?_
    show (do let psks ← readVector PreSharedKeyID.dec; return { joinerSecret := j, pathSecret := some s, psks } : P GroupSecrets).run _ = _
    exact rt_step vecPskID_rt e3 trivial rfl

theorem groupSecrets_canon : Canon GroupSecrets.enc GroupSecrets.dec Any := by
  intro s a rest h _
  unfold GroupSecrets.dec at h
  simp only [P.bind_ok_iff] at h
  obtain ⟨j, s0, h0, b, s1, h1, ps, s2, h2, psks, s3, h3, h⟩ := h
  rw [P.pure_ok_iff] at h
  obtain ⟨rfl, rfl⟩ := h
  obtain ⟨x0, e0, rfl⟩ := opaque_canon _ _ _ h0 trivial
  obtain ⟨x1, e1, rfl⟩ := optional_canon _ _ _ h1 trivial
  cases b with
  | false =>
    change (Pure.pure none : P (Option Bytes)).run s1 = _ at h2
    rw [P.pure_ok_iff] at h2
    obtain ⟨rfl, rfl⟩ := h2
    obtain ⟨x3, e3, rfl⟩ := vecPskID_canon _ _ _ h3 trivial
    refine ⟨x0 ++ x1 ++ x3, ?_, by simp only [List.append_assoc]⟩
    simp only [GroupSecrets.enc, e0, e1, e3, Enc.ok_append_ok]
  | true =>
    change (do let s ← readOpaqueVec; return some s : P (Option Bytes)).run s1 = _ at h2
    simp only [P.bind_ok_iff, P.pure_ok_iff] at h2
    obtain ⟨q, s4, h4, rfl, rfl⟩ := h2
    obtain ⟨x2, e2, rfl⟩ := opaque_canon _ _ _ h4 trivial
    obtain ⟨x3, e3, rfl⟩ := vecPskID_canon _ _ _ h3 trivial
    refine ⟨x0 ++ (x1 ++ x2) ++ x3, ?_, by simp only [List.append_assoc]⟩
    simp only [GroupSecrets.enc, e0, e1, e2, e3, Enc.ok_append_ok]

theorem groupSecrets_safe : Safe GroupSecrets.dec := by
  unfold GroupSecrets.dec
  exact opaque_safe.bind fun _ => optional_safe.bind fun b => Safe.bind
    (Safe.ite (opaque_safe.bind fun _ => Safe.pure _) (Safe.pure _)) fun _ => vecPskID_safe.bind fun _ => Safe.pure _

/-! ### Messages -/

theorem message_rt : RT MlsMessage.enc MlsMessage.dec MlsMessage.WF := by
  intro a bs rest h hw
  obtain ⟨v, body⟩ := a
  obtain ⟨hv, hb⟩ := hw
  simp only at hv
  subst hv
  simp only [MlsMessage.enc, Enc.append_assoc, Enc.append_ok_iff] at h
  obtain ⟨x0, _, e0, ⟨x1, x2, e1, e2, rfl⟩, rfl⟩ := h
  simp only [List.append_assoc]
  refine rt_step rU16_rt e0 trivial ?_
  rw [if_neg (by decide)]
  cases body with
  | publicMessage m => exact tag16_step e1 rfl (rt_step publicMessage_rt e2 hb rfl)
  | privateMessage m => exact tag16_step e1 rfl (rt_step privateMessage_rt e2 trivial rfl)
  | welcome m => exact tag16_step e1 rfl (rt_step welcome_rt e2 trivial rfl)
  | groupInfo m => exact tag16_step e1 rfl (rt_step groupInfo_rt e2 hb rfl)
  | keyPackage m => exact tag16_step e1 rfl (rt_step keyPackage_rt e2 hb rfl)

theorem message_dec {s rest : Bytes} {m : MlsMessage} (h : MlsMessage.dec.run s = (.ok m, rest)) :
    m.WF ∧ (m.body.Signed → ∃ bs, m.enc = .ok bs ∧ s = bs ++ rest) := by
  unfold MlsMessage.dec at h
  rw [P.bind_ok_iff] at h
  obtain ⟨v, s0, h0, h⟩ := h
  obtain ⟨x0, e0, rfl⟩ := rU16_canon _ _ _ h0 trivial
  rw [P.ite_run] at h
  split at h
  · rw [P.fail_ok_iff] at h; exact h.elim
  rename_i hv
  have hv : v = 1 := by simpa using hv
  rw [P.bind_ok_iff] at h
  simp only [wireFormatTag, tag16_ok] at h
  obtain ⟨t, s1, ⟨h1, hc⟩, h⟩ := h
  obtain ⟨x1, e1, rfl⟩ := rU16_canon _ _ _ h1 trivial
  simp only [Bool.or_eq_true, beq_iff_eq] at hc
  rcases hc with (((rfl | rfl) | rfl) | rfl) | rfl
  · change (do let b ← PublicMessage.dec; return { version := v, body := .publicMessage b } : P MlsMessage).run s1 = _ at h
    simp only [P.bind_ok_iff, P.pure_ok_iff] at h
    obtain ⟨b, s2, h2, rfl, rfl⟩ := h
    obtain ⟨hb, hcan⟩ := publicMessage_dec h2
    refine ⟨⟨hv, hb⟩, fun hg => ?_⟩
    obtain ⟨x2, e2, rfl⟩ := hcan hg
    refine ⟨x0 ++ x1 ++ x2, ?_, by simp only [List.append_assoc]⟩
    simp only [MlsMessage.enc, MessageBody.wireFormat, WireFormat.enc, e0, e1, e2, Enc.ok_append_ok]
  · change (do let b ← PrivateMessage.dec; return { version := v, body := .privateMessage b } : P MlsMessage).run s1 = _ at h
    simp only [P.bind_ok_iff, P.pure_ok_iff] at h
    obtain ⟨b, s2, h2, rfl, rfl⟩ := h
    refine ⟨⟨hv, trivial⟩, fun hg => ?_⟩
    obtain ⟨x2, e2, rfl⟩ := privateMessage_canon _ _ _ h2 trivial
    refine ⟨x0 ++ x1 ++ x2, ?_, by simp only [List.append_assoc]⟩
    simp only [MlsMessage.enc, MessageBody.wireFormat, WireFormat.enc, e0, e1, e2, Enc.ok_append_ok]
  · change (do let b ← Welcome.dec; return { version := v, body := .welcome b } : P MlsMessage).run s1 = _ at h
    simp only [P.bind_ok_iff, P.pure_ok_iff] at h
    obtain ⟨b, s2, h2, rfl, rfl⟩ := h
    refine ⟨⟨hv, trivial⟩, fun hg => ?_⟩
    obtain ⟨x2, e2, rfl⟩ := welcome_canon _ _ _ h2 trivial
    refine ⟨x0 ++ x1 ++ x2, ?_, by simp only [List.append_assoc]⟩
    simp only [MlsMessage.enc, MessageBody.wireFormat, WireFormat.enc, e0, e1, e2, Enc.ok_append_ok]
  · change (do let b ← GroupInfo.dec; return { version := v, body := .groupInfo b } : P MlsMessage).run s1 = _ at h
    simp only [P.bind_ok_iff, P.pure_ok_iff] at h
    obtain ⟨b, s2, h2, rfl, rfl⟩ := h
    obtain ⟨hb, hcan⟩ := groupInfo_dec h2
    refine ⟨⟨hv, hb⟩, fun hg => ?_⟩
    obtain ⟨x2, e2, rfl⟩ := hcan hg
    refine ⟨x0 ++ x1 ++ x2, ?_, by simp only [List.append_assoc]⟩
    simp only [MlsMessage.enc, MessageBody.wireFormat, WireFormat.enc, e0, e1, e2, Enc.ok_append_ok]
  · change (do let b ← KeyPackage.dec; return { version := v, body := .keyPackage b } : P MlsMessage).run s1 = _ at h
    simp only [P.bind_ok_iff, P.pure_ok_iff] at h
    obtain ⟨b, s2, h2, rfl, rfl⟩ := h
    refine ⟨⟨hv, keyPackage_dec_wf h2⟩, fun hg => ?_⟩
    obtain ⟨x2, e2, rfl⟩ := keyPackage_canon _ _ _ h2 hg
    refine ⟨x0 ++ x1 ++ x2, ?_, by simp only [List.append_assoc]⟩
    simp only [MlsMessage.enc, MessageBody.wireFormat, WireFormat.enc, e0, e1, e2, Enc.ok_append_ok]

theorem message_safe : Safe MlsMessage.dec := by
  unfold MlsMessage.dec
  refine rU16_safe.bind fun v => Safe.ite Safe.fail ?_
  refine Safe.bind_mem tag16_safe fun s t s' ht => ?_
  simp only [wireFormatTag, tag16_ok] at ht
  simp only [Bool.or_eq_true, beq_iff_eq] at ht
  rcases ht with ⟨_, (((rfl | rfl) | rfl) | rfl) | rfl⟩
  · exact (publicMessage_safe.bind fun _ => Safe.pure _) s'
  · exact (privateMessage_safe.bind fun _ => Safe.pure _) s'
  · exact (welcome_safe.bind fun _ => Safe.pure _) s'
  · exact (groupInfo_safe.bind fun _ => Safe.pure _) s'
  · exact (keyPackage_safe.bind fun _ => Safe.pure _) s'

end Mls
