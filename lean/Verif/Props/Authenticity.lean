import Verif.Props.GroupEffects
/-
C47: only authentic content is accepted.
-/
namespace Mls

variable {pr : Prims}

theorem lblMembership_name : lblPrefix ++ lblMembership = Spec.ascii ("MLS 1.0 " ++ "membership") := by decide

/-- The content `a` is for this group in this epoch and carries a valid signature, over the group's
current context, under the signature key of the leaf at the position of its sender. Positions are
taken modulo 2^32, as the code does. -/
structure Spec.Authentic (pr : Prims) (st : GroupState) (a : AuthenticatedContent) : Prop where
  groupID : a.content.groupID = st.group.groupContext.groupID
  epoch : a.content.epoch = st.group.groupContext.epoch
  signed : ∃ li leaf tbs, a.content.sender = .member li ∧
    st.vtree[2 * li.toNat % 2 ^ 32]? = some (some (.leaf leaf)) ∧
    (Spec.Rfc.framedContentTBS a.wireFormat a.content st.group.groupContext).bytes = some tbs ∧
    Spec.ValidSig pr st.group.groupContext.cipherSuite leaf.signatureKey "FramedContentTBS" tbs a.auth.signature

/-- The message `m` carries the MAC of its content under the membership key of the epoch. -/
def Spec.MembershipTagOk (pr : Prims) (st : GroupState) (m : PublicMessage) : Prop :=
  ∃ d tbm, (st.group.groupContext.cipherSuite.toNat, d) ∈ Spec.suites ∧
    (Spec.Rfc.authenticatedContentTBM .publicMessage m.content m.auth st.group.groupContext).bytes = some tbm ∧
    m.membershipTag = pr.mac d.hash (Spec.deriveSecret pr d st.group.epochSecret "membership") tbm

theorem getLeaf_some {t : VTree} {li : Nat} {l : LeafNode} (h : getLeaf t li = .ok (some l)) :
    t[2 * li % 2 ^ 32]? = some (some (.leaf l)) := by
  unfold getLeaf at h
  rw [Res.bind_ok_iff] at h
  obtain ⟨n, hn, h⟩ := h
  rw [Res.idx_ok_iff] at hn
  unfold nodeOfLeaf at hn
  rw [hn]
  split at h <;> cases h
  rfl

theorem verifyPublicMessage_ok {st : GroupState} {m : PublicMessage} {a : AuthenticatedContent}
    (h : verifyPublicMessage pr st m = .ok a) :
    a = m.authenticatedContent ∧ Spec.Authentic pr st a ∧ Spec.MembershipTagOk pr st m := by
  unfold verifyPublicMessage at h
  simp only [Res.bind_ok_iff] at h
  obtain ⟨_, hg, _, he, h⟩ := h
  rw [Res.guardErr_ok_iff, beq_iff_eq] at hg he
  split at h
  · next li hs =>
    simp only [Res.bind_ok_iff] at h
    obtain ⟨o, hl, leaf, ho, sigOk, hsig, _, hsig', mk, hmk, tagOk, htag, _, htag', h⟩ := h
    rw [orErr_ok_iff] at ho
    subst ho
    rw [Res.guardErr_ok_iff] at hsig' htag'
    subst hsig'; subst htag'
    cases h
    rw [content_verifySignature_iff] at hsig
    obtain ⟨tbs, htbs, hv⟩ := hsig
    refine ⟨rfl, ⟨hg, he, li, leaf, tbs, hs, getLeaf_some hl, htbs, hv⟩, ?_⟩
    unfold PublicMessage.verifyMembershipTag at htag
    rw [hs] at htag
    simp only [orFalse_ok_true] at htag
    obtain ⟨tbm, htbm, ht⟩ := htag
    unfold verifyMAC signMAC at ht
    simp only [Res.bind_ok_iff, Res.pure_eq, Res.ok.injEq] at ht
    obtain ⟨t, ⟨d, hd, rfl⟩, ht⟩ := ht
    rw [beq_iff_eq] at ht
    rw [deriveSecret_eq hd _ lblMembership_name (by decide)] at hmk
    cases hmk
    exact ⟨d, tbm, (suite_iff_spec _ _).1 hd, contentTBM_some.2 htbm, ht⟩
  · cases h

theorem decryptPrivateMessage_ok {st : GroupState} {m : PrivateMessage} {a : AuthenticatedContent}
    (h : decryptPrivateMessage pr st m = .ok a) : Spec.Authentic pr st a := by
  unfold decryptPrivateMessage at h
  simp only [Res.bind_ok_iff] at h
  obtain ⟨_, hg, _, he, _, _, sd, _, _, _, _, _, _, _, _, _, c, _, o, hl, leaf, ho, sigOk, hsig, _, hsig', h⟩ := h
  rw [Res.guardErr_ok_iff, beq_iff_eq] at hg he
  rw [orErr_ok_iff] at ho
  subst ho
  rw [Res.guardErr_ok_iff] at hsig'
  subst hsig'
  cases h
  rw [content_verifySignature_iff] at hsig
  obtain ⟨tbs, htbs, hv⟩ := hsig
  exact ⟨hg, he, sd.leafIndex, leaf, tbs, rfl, getLeaf_some hl, htbs, hv⟩

theorem carries_authentic {st : GroupState} {raw : Bytes} {a : AuthenticatedContent} {e : Bool}
    (h : Carries pr st raw a e) : Spec.Authentic pr st a := by
  cases h with
  | pub hd hv => exact (verifyPublicMessage_ok hv).2.1
  | priv hd hv => exact decryptPrivateMessage_ok hv

/-- What an accepted or effective message carries. -/
theorem effective_carries {st : GroupState} {raw : Bytes} {now : GoTime}
    (h : (∃ d, (unmarshalAndProcessMessage pr st raw now).1 = .ok d) ∨
      (unmarshalAndProcessMessage pr st raw now).2 ≠ st) : ∃ a e, Carries pr st raw a e := by
  rcases upm_cases pr st raw now with ⟨a, e, hc, _⟩ | ⟨_, hs, hn⟩
  · exact ⟨a, e, hc⟩
  · rcases h with ⟨d, h⟩ | h
    · exact absurd h (hn d)
    · exact absurd hs h

/-- C47, but for sender indices of 2^31 and more being taken modulo 2^31 (see C47_refuted): whenever
a message is accepted or has any effect on the group, its content is authentic; what was sent in the
clear carries a valid membership tag. Missing: that the leaf index named by the sender is the one whose
key verifies, which is false for indices beyond 2^31. -/
theorem C47_partial (pr : Prims) (st : GroupState) (raw : Bytes) (now : GoTime)
    (h : (∃ d, (unmarshalAndProcessMessage pr st raw now).1 = .ok d) ∨
      (unmarshalAndProcessMessage pr st raw now).2 ≠ st) :
    ∃ a, Spec.Authentic pr st a ∧
      ((∃ v m, unmarshal MlsMessage.dec raw = .ok ⟨v, .publicMessage m⟩ ∧ a.content = m.content ∧
          a.auth = m.auth ∧ a.wireFormat = .publicMessage ∧ Spec.MembershipTagOk pr st m) ∨
        (∃ v m, unmarshal MlsMessage.dec raw = .ok ⟨v, .privateMessage m⟩ ∧ a.wireFormat = .privateMessage)) ∧
      (∀ d, (unmarshalAndProcessMessage pr st raw now).1 = .ok (some d) → a.content.content = .application d) := by
  obtain ⟨a, e, hc⟩ := effective_carries h
  refine ⟨a, carries_authentic hc, ?_, ?_⟩
  · cases hc with
    | pub hd hv =>
      obtain ⟨h1, _, h3⟩ := verifyPublicMessage_ok hv
      subst h1
      exact .inl ⟨_, _, hd, rfl, rfl, rfl, h3⟩
    | priv hd hv =>
      refine .inr ⟨_, _, hd, ?_⟩
      unfold decryptPrivateMessage at hv
      simp only [Res.bind_ok_iff] at hv
      obtain ⟨_, hg, _, he, _, _, sd, _, _, _, _, _, _, _, _, _, c, _, o, hl, leaf, ho, sigOk, hsig, _, hsig', h⟩ := hv
      cases h
      rfl
  · intro d hd
    obtain ⟨a', e', hc', hcase⟩ := accepted_cases (st' := (unmarshalAndProcessMessage pr st raw now).2) (d := some d)
      (Prod.ext hd rfl)
    obtain ⟨rfl, _⟩ := hc.unique hc'
    rcases hcase with ⟨_, _, h, _⟩ | ⟨_, _, h, _⟩ | ⟨d', hk, h, _⟩
    · cases h
    · cases h
    · cases h; exact hk

/-- C47 as stated, for senders whose index is below 2^31: the key is that of their own leaf. -/
theorem C47_own_leaf (pr : Prims) (st : GroupState) (a : AuthenticatedContent) (li : UInt32)
    (h : Spec.Authentic pr st a) (hs : a.content.sender = .member li) (hl : li.toNat < 2 ^ 31) :
    ∃ leaf tbs, st.vtree[2 * li.toNat]? = some (some (.leaf leaf)) ∧
      (Spec.Rfc.framedContentTBS a.wireFormat a.content st.group.groupContext).bytes = some tbs ∧
      Spec.ValidSig pr st.group.groupContext.cipherSuite leaf.signatureKey "FramedContentTBS" tbs
        a.auth.signature := by
  obtain ⟨li', leaf, tbs, hs', h1, h2, h3⟩ := h.signed
  rw [hs] at hs'
  cases hs'
  rw [Nat.mod_eq_of_lt (by omega)] at h1
  exact ⟨leaf, tbs, h1, h2, h3⟩

/-- Every content accepted in a history was authentic in the state it was accepted in. -/
theorem C47_history (pr : Prims) (st st' : GroupState) (as : List AuthenticatedContent) (h : Trace pr st as st') :
    ∀ a ∈ as, ∃ st₁ bs, Trace pr st bs st₁ ∧ bs <+: as ∧ Spec.Authentic pr st₁ a := by
  induction h with
  | nil => simp
  | @accept st1 st2 as raw now a e d h hc hr ih =>
    intro b hb
    rcases List.mem_append.1 hb with hb | hb
    · obtain ⟨s, bs, h1, h2, h3⟩ := ih b hb
      exact ⟨s, bs, h1, h2.trans (List.prefix_append _ _), h3⟩
    · rw [List.mem_singleton] at hb
      subst hb
      exact ⟨st1, as, h, List.prefix_append _ _, carries_authentic hc⟩
  | refuse h hr ih => exact ih
  | invite h hr ho ih => exact ih

/-- Accepted from leaf 1, in the clear and encrypted; refused with the signature of leaf 0. -/
example : (unmarshalAndProcessMessage toyPrims toyPair (toyPublic toyPair 1 1 (.proposal (.remove 0)) []) toyNow).1 = .ok none ∧
    (unmarshalAndProcessMessage toyPrims toyPair (toyPrivate toyPair 1 1 (.application [1, 2]) []) toyNow).1 = .ok (some [1, 2]) ∧
    (unmarshalAndProcessMessage toyPrims toyPair (toyPublic toyPair 1 0 (.proposal (.remove 0)) []) toyNow).1 = .err := by
  decide +kernel

/-- C47 is false: a proposal that claims to come from leaf 2^31 + 1, which does not exist, is accepted
with the signature of leaf 1, and is recorded as coming from leaf 2^31 + 1. -/
theorem C47_refuted : ∃ (st : GroupState) (raw : Bytes) (now : GoTime),
    (unmarshalAndProcessMessage toyPrims st raw now).1 = .ok none ∧
    (unmarshalAndProcessMessage toyPrims st raw now).2.group.pendingProposals.map (·.sender) = [2147483649] ∧
    ¬ (2 * (2147483649 : UInt32).toNat < st.group.tree.length) :=
  ⟨toyPair, toyPublic toyPair 2147483649 1 (.proposal (.remove 0)) [], toyNow, by decide +kernel⟩

end Mls
