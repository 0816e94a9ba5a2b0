import Verif.Proofs.Res
import Verif.Proofs.Codec4
import Verif.Model.Group
/-
Case analysis of message processing.
-/
namespace Mls

variable {pr : Prims}

/-- `raw` is a message whose verified (and, for private messages, decrypted) content for the group
`st` is `a`; `enc` says whether it came encrypted. -/
inductive Carries (pr : Prims) (st : GroupState) (raw : Bytes) : AuthenticatedContent → Bool → Prop where
  | pub {v : UInt16} {m : PublicMessage} {a : AuthenticatedContent}
      (hd : unmarshal MlsMessage.dec raw = .ok ⟨v, .publicMessage m⟩) (hv : verifyPublicMessage pr st m = .ok a) :
      Carries pr st raw a false
  | priv {v : UInt16} {m : PrivateMessage} {a : AuthenticatedContent}
      (hd : unmarshal MlsMessage.dec raw = .ok ⟨v, .privateMessage m⟩) (hv : decryptPrivateMessage pr st m = .ok a) :
      Carries pr st raw a true

theorem Carries.unique {st : GroupState} {raw : Bytes} {a b : AuthenticatedContent} {e f : Bool}
    (h : Carries pr st raw a e) (h' : Carries pr st raw b f) : a = b ∧ e = f := by
  cases h with
  | pub hd hv =>
    cases h' with
    | pub hd' hv' => rw [hd] at hd'; cases hd'; rw [hv] at hv'; cases hv'; exact ⟨rfl, rfl⟩
    | priv hd' hv' => rw [hd] at hd'; cases hd'
  | priv hd hv =>
    cases h' with
    | pub hd' hv' => rw [hd] at hd'; cases hd'
    | priv hd' hv' => rw [hd] at hd'; cases hd'; rw [hv] at hv'; cases hv'; exact ⟨rfl, rfl⟩

theorem upm_of_carries {st : GroupState} {raw : Bytes} {now : GoTime} {a : AuthenticatedContent} {e : Bool}
    (h : Carries pr st raw a e) : unmarshalAndProcessMessage pr st raw now = dispatch pr st a now e := by
  cases h with
  | pub hd hv =>
    unfold unmarshalAndProcessMessage
    rw [hd]
    simp only [processPublicMessage, hv]
  | priv hd hv =>
    unfold unmarshalAndProcessMessage
    rw [hd]
    simp only [processPrivateMessage, hv]

/-- Either the message carries a content, which is dispatched, or nothing happens. -/
theorem upm_cases (pr : Prims) (st : GroupState) (raw : Bytes) (now : GoTime) :
    (∃ a e, Carries pr st raw a e ∧ unmarshalAndProcessMessage pr st raw now = dispatch pr st a now e) ∨
    ((¬ ∃ a e, Carries pr st raw a e) ∧ (unmarshalAndProcessMessage pr st raw now).2 = st ∧
      ∀ d, (unmarshalAndProcessMessage pr st raw now).1 ≠ .ok d) := by
  by_cases hc : ∃ a e, Carries pr st raw a e
  · obtain ⟨a, e, h⟩ := hc
    exact .inl ⟨a, e, h, upm_of_carries h⟩
  · refine .inr ⟨hc, ?_⟩
    unfold unmarshalAndProcessMessage
    rcases hd : unmarshal MlsMessage.dec raw with ⟨v, body⟩ | _ | _ | _
    · cases body with
      | publicMessage m =>
        simp only [processPublicMessage]
        rcases hv : verifyPublicMessage pr st m with a | _ | _ | _
        · exact absurd ⟨a, false, .pub hd hv⟩ hc
        all_goals exact ⟨rfl, by simp⟩
      | privateMessage m =>
        simp only [processPrivateMessage]
        rcases hv : decryptPrivateMessage pr st m with a | _ | _ | _
        · exact absurd ⟨a, true, .priv hd hv⟩ hc
        all_goals exact ⟨rfl, by simp⟩
      | welcome | groupInfo | keyPackage => exact ⟨rfl, by simp⟩
    all_goals exact ⟨rfl, by simp⟩

theorem finishCommit_group {g : Group} {h : Heap} {t : RTree} {a : AuthenticatedContent} {c : Commit}
    {ids : List PreSharedKeyID} {psks : List Bytes} {now : GoTime} {st' : GroupState}
    (hf : finishCommit pr g h t a c ids psks now = .ok st') :
    st'.group.groupContext.epoch = g.groupContext.epoch + 1 ∧
    st'.group.groupContext.version = g.groupContext.version ∧
    st'.group.groupContext.cipherSuite = g.groupContext.cipherSuite ∧
    st'.group.groupContext.groupID = g.groupContext.groupID ∧
    st'.group.groupContext.extensions = g.groupContext.extensions ∧
    st'.group.myLeafIndex = g.myLeafIndex ∧ st'.group.signaturePriv = g.signaturePriv ∧
    st'.group.pendingProposals = [] := by
  unfold finishCommit at hf
  simp only [Res.bind_ok_iff] at hf
  obtain ⟨pt, _, d, _, ⟨h2, t2, ctx2, pt2, cs2⟩, hp, cth, _, itm, _, js, _, psk, _, es, _, is, _, he⟩ := hf
  have hctx : ∃ th, ctx2 = { g.groupContext with epoch := g.groupContext.epoch + 1, treeHash := th } := by
    cases hcp : c.path with
    | none =>
      rw [hcp] at hp
      simp only [Res.bind_ok_iff] at hp
      obtain ⟨th, _, hp⟩ := hp
      cases hp
      exact ⟨th, rfl⟩
    | some path =>
      rw [hcp] at hp
      simp only [commitPath, Res.bind_ok_iff] at hp
      obtain ⟨_, _, _, _, _, _, _, _, _, _, _, _, _, _, _, _, th, _, _, _, hp⟩ := hp
      cases hp
      exact ⟨th, rfl⟩
  obtain ⟨th, rfl⟩ := hctx
  cases he
  exact ⟨rfl, rfl, rfl, rfl, rfl, rfl, rfl, rfl⟩

/-- What processing a commit can do: accept it, or leave the group record (though not the heap). -/
theorem processCommit_cases (st : GroupState) (a : AuthenticatedContent) (c : Commit)
    (hc : a.content.content = .commit c) (ids : List PreSharedKeyID) (psks : List Bytes) (now : GoTime) :
    (∃ ps ss h t st', checkProposals pr st.group a.content.sender.leafIndex c = .ok (ps, ss) ∧
      treeApply st.heap st.group.tree ps ss = .ok (h, t) ∧
      finishCommit pr st.group h t a c ids psks now = .ok st' ∧
      processCommit pr st a ids psks now = (.ok (), st')) ∨
    ((processCommit pr st a ids psks now).1 ≠ .ok () ∧ (processCommit pr st a ids psks now).2.group = st.group ∧
      ((processCommit pr st a ids psks now).2 = st ∨
        ∃ ps ss h t, checkProposals pr st.group a.content.sender.leafIndex c = .ok (ps, ss) ∧
          treeApply st.heap st.group.tree ps ss = .ok (h, t) ∧
          finishCommit pr st.group h t a c ids psks now = .err ∧
          processCommit pr st a ids psks now = (.err, { st with heap := h }))) := by
  unfold processCommit
  rw [hc]
  simp only
  rcases hk : checkProposals pr st.group a.content.sender.leafIndex c with ⟨ps, ss⟩ | _ | _ | _
  · simp only
    rcases ht : treeApply st.heap st.group.tree ps ss with ⟨h, t⟩ | _ | _ | _
    · simp only
      rcases hf : finishCommit pr st.group h t a c ids psks now with st' | _ | _ | _
      · exact .inl ⟨ps, ss, h, t, st', rfl, ht, hf, rfl⟩
      · exact .inr ⟨by simp, rfl, .inr ⟨ps, ss, h, t, rfl, ht, hf, rfl⟩⟩
      all_goals exact .inr ⟨by simp, rfl, .inl rfl⟩
    all_goals exact .inr ⟨by simp, rfl, .inl rfl⟩
  all_goals exact .inr ⟨by simp, rfl, .inl rfl⟩

theorem processProposal_cases (st : GroupState) (a : AuthenticatedContent) (p : Proposal)
    (hc : a.content.content = .proposal p) :
    (∃ ref, a.generateProposalRef pr st.group.groupContext.cipherSuite = .ok ref ∧
      processProposal pr st a = (.ok (), { st with group := { st.group with
        pendingProposals := st.group.pendingProposals ++
          [{ ref, proposal := p, sender := a.content.sender.leafIndex }] } })) ∨
    ((processProposal pr st a).1 ≠ .ok () ∧ (processProposal pr st a).2 = st) := by
  unfold processProposal
  rw [hc]
  simp only
  rcases hr : a.generateProposalRef pr st.group.groupContext.cipherSuite with ref | _ | _ | _
  · exact .inl ⟨ref, rfl, rfl⟩
  all_goals exact .inr ⟨by simp, rfl⟩

end Mls
