import Verif.Proofs.FineCommit
import Verif.Props.Group
/-
Which calls can panic: the groups in use, and the processing of a message.
-/
namespace Mls

open Spec (Ratchet nodeAt IsAncestor)

variable {pr : Prims}

/-! ### The invariant -/

theorem leafNode_known {n : LeafNode} {b : Bytes} (h : n.enc = .ok b) : n.credential.Known := by
  unfold LeafNode.enc LeafNode.encBase at h
  simp only [Enc.append_ok_iff] at h
  obtain ⟨_, _, ⟨_, _, ⟨_, _, ⟨_, _, ⟨_, _, _, hc, _⟩, _⟩, _⟩, _⟩, _⟩ := h
  cases hn : n.credential with
  | other t =>
    rw [hn] at hc
    cases hc
  | basic | x509 => trivial

theorem decodePadded_read {ct : ContentType} {raw : Bytes} {c : PrivateMessageContent} (h : decodePadded ct raw = .ok c) :
    c.content.Read := by
  unfold decodePadded at h
  rcases hr : (PrivateMessageContent.dec ct).run raw with ⟨r, rest⟩
  rw [hr] at h
  cases r with
  | ok a =>
    dsimp only at h
    split at h
    · cases h
      exact privateMessageContent_yields ct _ _ _ hr
    · cases h
  | err => cases h
  | panic => cases h
  | hang => cases h

theorem decodePadded_fine (ct : ContentType) (raw : Bytes) : (decodePadded ct raw).Fine := by
  have := privateContent_safe ct raw
  unfold decodePadded
  rcases hr : (PrivateMessageContent.dec ct).run raw with ⟨r, rest⟩
  rw [hr] at this
  cases r with
  | ok a =>
    dsimp only
    split
    · exact Res.fine_ok _
    · exact Res.fine_err
  | err => exact Res.fine_err
  | panic => exact absurd rfl this.1
  | hang => exact absurd rfl this.2

/-- What a message carries was decoded, and its sender is a member. -/
theorem Carries.sender {st : GroupState} {raw : Bytes} {a : AuthenticatedContent} {e : Bool} (h : Carries pr st raw a e) :
    a.content.content.Read ∧ Member st.group.tree (a.content.sender.leafIndex.toNat % 2 ^ 31) := by
  cases h with
  | @pub v m _ hd hv =>
    have hk := message_yields.unmarshal hd m rfl
    unfold verifyPublicMessage at hv
    simp only [Res.bind_ok_iff] at hv
    obtain ⟨_, _, _, _, hv⟩ := hv
    split at hv
    · next li hs =>
      simp only [Res.bind_ok_iff] at hv
      obtain ⟨o, h1, l, h2, _, _, _, _, _, _, _, _, _, _, he⟩ := hv
      cases he
      rw [orErr_ok_iff] at h2
      subst h2
      refine ⟨hk, ?_⟩
      show Member _ (m.content.sender.leafIndex.toNat % 2 ^ 31)
      rw [hs]
      exact member_of_getLeaf h1
    · cases hv
  | @priv v m _ hd hv =>
    unfold decryptPrivateMessage at hv
    simp only [Res.bind_ok_iff] at hv
    obtain ⟨_, _, _, _, _, _, sd, _, _, _, _, _, _, _, _, _, c, hdc, o, h1, l, h2, _, _, _, _, he⟩ := hv
    cases he
    rw [orErr_ok_iff] at h2
    subst h2
    refine ⟨?_, member_of_getLeaf h1⟩
    unfold PrivateMessage.decryptContent at hdc
    simp only [Res.bind_ok_iff] at hdc
    obtain ⟨_, _, _, _, _, _, hdc⟩ := hdc
    exact decodePadded_read hdc

theorem FineInv.heap {st : GroupState} (hf : FineInv st) (h : Heap) : FineInv { st with heap := h } := ⟨hf.leaves, hf.pending⟩

theorem finishCommit_fineInv (hc : pr.Correct) {st st' : GroupState} (hi : GroupInv pr st) (hf : FineInv st) {a : AuthenticatedContent}
    {c : Commit} (hk : c.Known) {ps : List Proposal} {ss : List UInt32} {h : Heap} {t : RTree} {now : GoTime}
    (h1 : checkProposals pr st.group a.content.sender.leafIndex c = .ok (ps, ss))
    (h2 : treeApply st.heap st.group.tree ps ss = .ok (h, t)) (h3 : finishCommit pr st.group h t a c [] [] now = .ok st') : FineInv st' := by
  have hkn := hf.leaves.apply (checkProposals_known hf hk h1) h2
  obtain ⟨hsd, pt, hpt, hcase⟩ := finishCommit_parts h3
  have hpend : st'.group.pendingProposals = [] := by
    unfold finishCommit at h3
    simp only [Res.bind_ok_iff] at h3
    obtain ⟨_, _, _, _, _, _, _, _, _, _, _, _, _, _, _, _, _, _, he⟩ := h3
    cases he
    rfl
  refine ⟨?_, by rw [hpend]; simp⟩
  rcases hcase with ⟨_, _, ht, _⟩ | ⟨path, ctx', sec, hp, hcp⟩
  · rw [ht]; exact hkn
  · obtain ⟨leaf, th, hg, hm, -⟩ := commitPath_ok hcp
    have hmem := member_of_getLeaf hg
    rw [mergeUpdatePath_mod] at hm
    rcases (treeApply_effect (.inr hi.tree) h2).1 with rfl | hv
    · have := hmem.lt
      simp at this
    · exact hkn.merge hc hsd hv hmem.lt (hk.path path hp) hm

theorem message_fineInv (hc : pr.Correct) {st st' : GroupState} (hi : GroupInv pr st) (hf : FineInv st) {raw : Bytes} {now : GoTime}
    {r : Res (Option Bytes)} (hr : unmarshalAndProcessMessage pr st raw now = (r, st')) : FineInv st' := by
  by_cases ho : ∃ d, r = .ok d
  · obtain ⟨d, rfl⟩ := ho
    obtain ⟨a, e, hca, ⟨p, hp, _, hpp⟩ | ⟨c, hcm, _, hpc⟩ | ⟨_, _, _, rfl, _⟩⟩ := accepted_cases hr
    · obtain ⟨hk, hm⟩ := hca.sender
      rcases processProposal_cases (pr := pr) st a p hp with ⟨ref, _, he⟩ | ⟨hne, _⟩
      · rw [hpp] at he
        obtain rfl := (Prod.mk.inj he).2
        refine ⟨hf.leaves, fun pp hpp => ?_⟩
        rcases List.mem_append.1 hpp with h | h
        · exact hf.pending pp h
        · rw [List.mem_singleton] at h
          subst h
          have := hk.known
          rw [hp] at this
          exact ⟨this, hm⟩
      · rw [hpp] at hne
        exact absurd rfl hne
    · have hk := hca.sender.1.known
      rw [hcm] at hk
      rcases processCommit_cases (pr := pr) st a c hcm [] [] now with ⟨ps, ss, h, t, st1, h1, h2, h3, h4⟩ | ⟨hne, _⟩
      · rw [hpc] at h4
        obtain rfl := (Prod.mk.inj h4).2
        exact finishCommit_fineInv hc hi hf hk h1 h2 h3
      · rw [hpc] at hne
        exact absurd rfl hne
    · exact hf
  · rcases rejected_cases hr (fun d hd => ho ⟨d, hd⟩) with rfl | ⟨a, e, c, ps, ss, h, t, _, _, _, h2, rfl, _⟩
    · exact hf
    · exact hf.heap h

theorem welcome_fineInv {st st' : GroupState} (hf : FineInv st) {kps : List KeyPackage} {r : WelcomeRand}
    {o : Res (Welcome × Bytes)} (hr : createWelcome pr st kps r = (o, st')) : FineInv st' := by
  unfold createWelcome at hr
  split at hr
  · cases hr; exact hf
  · split at hr
    · next h t ht =>
      cases hr
      exact hf.heap h
    all_goals cases hr; exact hf

theorem join_fineInv {w : Welcome} {kp : KeyPairPackage} {now : GoTime} {st : GroupState}
    (h : groupFromWelcome pr w kp now = .ok st) : FineInv st := by
  unfold groupFromWelcome at h
  simp only [Res.bind_ok_iff] at h
  obtain ⟨ref, _, gs, _, _, _, _, _, h⟩ := h
  have hpend : st.group.pendingProposals = [] := by
    unfold groupFromSecrets at h
    simp only [Res.bind_ok_iff] at h
    obtain ⟨_, _, _, _, _, _, _, _, _, _, _, _, _, _, _, _, _, _, _, _, _, _, _, _, _, _, _, _, _, _, _, _, _, _, _, _, he⟩ := h
    cases he
    rfl
  obtain ⟨psk, info, raw, v, leaf, li, pt, _, _, _, hdec, _, _, _, _, _, _, _, hh, ht, _⟩ := groupFromSecrets_ok h
  refine ⟨KnownLeaves.of_deref (h := st.heap) ?_, by rw [hpend]; simp⟩
  rw [hh, ht, (deref_alloc v []).2]
  exact tree_yields.unmarshal hdec

theorem createGroup_fineInv {id : Bytes} {kp : KeyPairPackage} {rand : Nat → UInt8} {st : GroupState}
    (h : createGroup pr id kp rand = .ok st) : FineInv st := by
  unfold createGroup at h
  simp only [Res.bind_ok_iff] at h
  obtain ⟨⟨hp, t⟩, h1, pt, h2, th, hth, d, h3, _, _, _, _, _, _, _, _, h⟩ := h
  have e : treeAdd [] [none] kp.pub.leafNode = .ok ([], [some (.leaf kp.pub.leafNode)]) := rfl
  rw [e] at h1
  cases h1
  cases h
  refine ⟨fun x l hx => ?_, by simp⟩
  cases x with
  | zero =>
    simp only [List.getElem?_cons_zero, Option.some.injEq, TNode.leaf.injEq] at hx
    subst hx
    unfold computeRootTreeHash computeTreeHash at hth
    have hr0 : root (treeNumLeaves (derefTree [] [some (.leaf kp.pub.leafNode)])) = 0 := by
      rw [numLeaves_pow (d := 0) (by omega) (by simp)]
      decide
    rw [hr0] at hth
    unfold computeTreeHashLoop at hth
    simp only [Res.bind_ok_iff] at hth
    obtain ⟨n, hn, b, hb, _⟩ := hth
    rw [Res.idx_ok_iff] at hn
    cases hn
    have hl0 : leafOfNode 0 = some 0 := rfl
    rw [hl0] at hb
    simp only [Res.bind_ok_iff] at hb
    obtain ⟨o, ho, hb⟩ := hb
    cases ho
    unfold encLeafNodeHashInput at hb
    simp only [Enc.append_ok_iff] at hb
    obtain ⟨_, _, _, ⟨_, _, _, hb, _⟩, _⟩ := hb
    exact leafNode_known hb
  | succ x => simp at hx

/-- The invariants of every group in use. -/
theorem Reachable.fineInv (hc : pr.Correct) {st : GroupState} (h : Reachable pr st) : FineInv st := by
  induction h with
  | create h => exact createGroup_fineInv h
  | join h => exact join_fineInv h
  | message hr h _ ih => exact message_fineInv hc (hr.inv hc) ih h
  | invite _ h _ ih => exact welcome_fineInv ih h

/-! ### Processing a message -/

theorem generateProposalRef_fine {cs : UInt16} {sd : SuiteDesc} (hsd : suite cs = .ok sd) {a : AuthenticatedContent} {p : Proposal}
    (hp : a.content.content = .proposal p) (hk : a.content.content.Known) : (a.generateProposalRef pr cs).Fine := by
  unfold AuthenticatedContent.generateProposalRef
  rw [if_neg (by rw [hp]; simp [Content.ty])]
  exact Res.Fine.bind (authenticatedContent_enc_fine hk) fun _ _ => refHash_fine hsd _ _

theorem processCommit_fine (hc : pr.Correct) {st : GroupState} (hi : GroupInv pr st) (hf : FineInv st)
    (hsup : supported st.group.groupContext.cipherSuite = .ok true) {a : AuthenticatedContent} {k : Commit} (hak : a.content.content = .commit k)
    (hr : a.content.content.Read) (hread : Spec.ReadableCommit pr st k) (hm : Member st.group.tree a.content.sender.leafIndex.toNat)
    (hrem : ∀ li, Spec.Removes st k li → li.toNat < 2 ^ 31 ∧ Member st.group.tree li.toNat) (hroom : st.group.tree.length < 2 ^ 31)
    (now : GoTime) : (processCommit pr st a [] [] now).1.Fine := by
  obtain ⟨sd, hsd⟩ := hi.suite
  have hk : k.Known := by have := hr.known; rw [hak] at this; exact this
  have h1 := checkProposals_fine (pr := pr) hsd hf a.content.sender.leafIndex hk hread
  unfold processCommit
  rw [hak]
  dsimp only
  rcases hcp : checkProposals pr st.group a.content.sender.leafIndex k with ⟨ps, ss⟩ | _ | _ | _
  · dsimp only
    obtain ⟨hkn, h, t, ht, hv, hmt⟩ := checkProposals_applicable hi.tree hf hk hm hrem hroom (hr.few k hak) hcp
    have h2 := finishCommit_fine hc hi hf hsup hak hk hread hkn ht hv hmt now
    rw [ht]
    dsimp only
    rcases hfc : finishCommit pr st.group h t a k [] [] now with st' | _ | _ | _
    · exact Res.fine_ok _
    · exact Res.fine_err
    · rw [hfc] at h2; exact absurd rfl h2.1
    · rw [hfc] at h2; exact absurd rfl h2.2
  · exact Res.fine_err
  · rw [hcp] at h1; exact absurd rfl h1.1
  · rw [hcp] at h1; exact absurd rfl h1.2

theorem dispatch_fine (hc : pr.Correct) {st : GroupState} (hi : GroupInv pr st) (hf : FineInv st)
    (hsup : supported st.group.groupContext.cipherSuite = .ok true) {a : AuthenticatedContent}
    (hr : a.content.content.Read) (hread : ∀ k, a.content.content = .commit k → Spec.ReadableCommit pr st k)
    (hm : Member st.group.tree a.content.sender.leafIndex.toNat)
    (hrem : ∀ k, a.content.content = .commit k → ∀ li, Spec.Removes st k li → li.toNat < 2 ^ 31 ∧ Member st.group.tree li.toNat)
    (hroom : st.group.tree.length < 2 ^ 31) (now : GoTime) (e : Bool) : (dispatch pr st a now e).1.Fine := by
  obtain ⟨sd, hsd⟩ := hi.suite
  unfold dispatch
  cases hk : a.content.content with
  | application data =>
    dsimp only
    split
    · exact Res.fine_ok _
    · exact Res.fine_err
  | proposal p =>
    have h1 := generateProposalRef_fine (pr := pr) hsd hk hr.known
    dsimp only
    refine Res.Fine.bind ?_ fun _ _ => Res.fine_ok _
    unfold processProposal
    rw [hk]
    dsimp only
    rcases hg : a.generateProposalRef pr st.group.groupContext.cipherSuite with ref | _ | _ | _
    · exact Res.fine_ok _
    · exact Res.fine_err
    · rw [hg] at h1; exact absurd rfl h1.1
    · rw [hg] at h1; exact absurd rfl h1.2
  | commit k =>
    dsimp only
    exact (processCommit_fine hc hi hf hsup hk hr (hread k hk) hm (hrem k hk) hroom now).bind fun _ _ => Res.fine_ok _

theorem nodeOfLeaf_inside {st : GroupState} (hi : GroupInv pr st) {li : Nat} (h : li < treeNumLeaves st.group.tree) :
    nodeOfLeaf li < st.vtree.length ∧ li < 2 ^ 31 := by
  obtain ⟨d, hd, hl⟩ := hi.tree.complete
  rw [numLeaves_pow hd hl] at h
  have hp : 2 ^ d ≤ 2 ^ 31 := Nat.pow_le_pow_right (by decide) hd
  unfold GroupState.vtree
  rw [derefTree_length, nodeOfLeaf_idx (by omega), idx_zero, hl, Nat.pow_succ]
  omega

theorem verifyPublicMessage_fine {st : GroupState} (hi : GroupInv pr st) (hf : FineInv st) {m : PublicMessage} (hk : m.content.content.Known)
    (hkeys : ReadableTree pr st.group.groupContext.cipherSuite st.vtree)
    (hs : ∀ li, m.content.groupID = st.group.groupContext.groupID → m.content.epoch = st.group.groupContext.epoch →
      m.content.sender = .member li → li.toNat < treeNumLeaves st.group.tree) : (verifyPublicMessage pr st m).Fine := by
  obtain ⟨sd, hsd⟩ := hi.suite
  unfold verifyPublicMessage
  refine (Res.fine_guardErr _).bind fun _ hg => (Res.fine_guardErr _).bind fun _ he => ?_
  rw [Res.guardErr_ok_iff, beq_iff_eq] at hg he
  split
  · next li hli =>
    refine (getLeaf_fine ((Shaped.of hi.tree hf.leaves).isTree st.heap) (nodeOfLeaf_inside hi (hs li hg he hli)).1).bind fun o ho => ?_
    refine (fine_orErr _).bind fun l hl => ?_
    rw [orErr_ok_iff] at hl
    refine (contentSignature_fine hsd hk (hkeys _ l (getLeaf_ok_some_iff.1 (hl ▸ ho)))).bind fun _ _ => (Res.fine_guardErr _).bind fun _ _ => ?_
    exact (deriveSecret_fine hsd _ _).bind fun _ _ => (membershipTag_fine hsd hk _).bind fun _ _ =>
      (Res.fine_guardErr _).bind fun _ _ => Res.fine_ok _
  · exact Res.fine_err

theorem decryptPrivateMessage_fine (hc : pr.Correct) {st : GroupState} (hi : GroupInv pr st) (hf : FineInv st) {m : PrivateMessage}
    (hkeys : ReadableTree pr st.group.groupContext.cipherSuite st.vtree)
    (hs : ∀ secret sd, m.groupID = st.group.groupContext.groupID → m.epoch = st.group.groupContext.epoch →
      deriveSecret pr st.group.groupContext.cipherSuite st.group.epochSecret lblSenderData = .ok secret →
      m.decryptSenderData pr st.group.groupContext.cipherSuite secret = .ok sd → sd.leafIndex.toNat < treeNumLeaves st.group.tree) :
    (decryptPrivateMessage pr st m).Fine := by
  obtain ⟨sd, hsd⟩ := hi.suite
  obtain ⟨d, hd, hl⟩ := hi.tree.complete
  unfold decryptPrivateMessage
  refine (Res.fine_guardErr _).bind fun _ hg => (Res.fine_guardErr _).bind fun _ he => (deriveSecret_fine hsd _ _).bind fun secret hsec => ?_
  rw [Res.guardErr_ok_iff, beq_iff_eq] at hg he
  refine (decryptSenderData_fine hsd _ _).bind fun data hdata => (deriveSecret_fine hsd _ _).bind fun es _ => ?_
  have hin := hs secret data hg he hsec hdata
  have hin' := nodeOfLeaf_inside hi hin
  have hnum := numLeaves_pow hd hl
  rw [hnum] at hin
  obtain ⟨tree, path, h1, -, h2⟩ := C35_leaf_secret pr _ sd hsd d hd es data.leafIndex.toNat hin
  dsimp only
  rw [hnum, h1, Res.ok_bind]
  unfold deriveRatchetRoot
  rw [hsd]
  simp only [Res.ok_bind]
  rw [h2, Res.ok_bind]
  refine Res.Fine.bind ((expand_nh_fine hsd _ _ _).bind fun _ _ => Res.fine_ok _) fun rs hrs => ?_
  simp only [Res.bind_ok_iff] at hrs
  obtain ⟨rt, _, hrs⟩ := hrs
  cases hrs
  rw [C36_fast_forward pr _ sd hsd, Res.ok_bind]
  refine Res.Fine.bind ?_ fun c hdc => ?_
  · exact (keyAndNonce_fine hsd hc _ _).bind fun _ _ => Res.Fine.bind (privateContentAAD_fine _ _ _ _) fun _ _ =>
      (aeadOpen_fine hsd _ _ _ _).bind fun _ _ => decodePadded_fine _ _
  · unfold PrivateMessage.decryptContent at hdc
    simp only [Res.bind_ok_iff] at hdc
    obtain ⟨_, _, _, _, _, _, hdc⟩ := hdc
    have hk := decodePadded_read hdc
    refine (getLeaf_fine ((Shaped.of hi.tree hf.leaves).isTree st.heap) hin'.1).bind fun o ho => (fine_orErr _).bind fun l hl => ?_
    rw [orErr_ok_iff] at hl
    exact (contentSignature_fine hsd hk.known (hkeys _ l (getLeaf_ok_some_iff.1 (hl ▸ ho)))).bind fun _ _ => (Res.fine_guardErr _).bind fun _ _ => Res.fine_ok _

end Mls
