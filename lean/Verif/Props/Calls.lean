import Verif.Proofs.FineJoin
import Verif.Props.Invitation
import Verif.Props.NoPanic
/-
C72: when joining cannot panic. C73: sending does not panic.
-/
namespace Mls

open Spec (Ratchet nodeAt IsAncestor)
open Spec.Ratchet (addsOf)

variable {pr : Prims}

/-! ### C72 -/

/-- The tree of a welcome has leaves at even and parents at odd positions; its unmerged
leaves and the signer are inside; its signature keys can be read; with a path secret no node above both the signer and the joiner is blank. -/
structure Spec.TreeInOrder (pr : Prims) (cs : UInt16) (t : List (Option Node)) (signer : UInt32) (joinerKey : Bytes) (pathSecret : Bool) : Prop where
  shape : Spec.IsTree t
  unmerged : ∀ x q, nodeAt t x = some (.parent q) → ∀ u ∈ q.unmergedLeaves, Spec.leafNumber u < t.length
  inside : Spec.leafNumber signer < t.length
  keys : ∀ x l, nodeAt t x = some (.leaf l) → Spec.Readable pr cs l.signatureKey
  path : pathSecret = true → ∀ d r l x, t.length = 2 ^ (d + 1) - 1 → nodeAt t (2 * r) = some (.leaf l) → l.encryptionKey = joinerKey →
    IsAncestor d r x → IsAncestor d (signer.toNat % 2 ^ 31) x → ∃ n, nodeAt t x = some n

/-- What a welcome decrypts to has known cipher suites and such a tree. -/
structure Spec.WelcomeInOrder (pr : Prims) (w : Welcome) (kp : KeyPairPackage) : Prop where
  suite : ∃ sd, Mls.suite w.cipherSuite = .ok sd
  own : ∃ sd, Mls.suite kp.pub.cipherSuite = .ok sd
  credential : ∀ ty, kp.pub.leafNode.credential ≠ .other ty
  info : ∀ ref gs psk info, kp.pub.generateRef pr = .ok ref → w.decryptGroupSecrets pr ref kp.priv.initKey = .ok gs →
    extractPSKSecret pr w.cipherSuite gs.psks [] = .ok psk → w.decryptGroupInfo pr gs.joinerSecret psk = .ok info →
    (∃ sd, Mls.suite info.groupContext.cipherSuite = .ok sd) ∧
    (gs.pathSecret.isSome → supported w.cipherSuite = .ok true) ∧
    ∀ raw t, findExtensionData info.extensions 2 = some raw → unmarshal decTree raw = .ok t →
      Spec.TreeInOrder pr info.groupContext.cipherSuite t info.signer kp.pub.leafNode.encryptionKey gs.pathSecret.isSome

theorem known_of_ne {c : Credential} (h : ∀ ty, c ≠ .other ty) : c.Known := by
  cases c with
  | other ty => exact absurd rfl (h ty)
  | _ => trivial

theorem groupInfo_signature_fine {i : GroupInfo} {sd : SuiteDesc} (hsd : suite i.groupContext.cipherSuite = .ok sd) {k : Bytes}
    (hk : Spec.Readable pr i.groupContext.cipherSuite k) : (i.verifySignature pr k).Fine :=
  orFalse_fine (groupInfo_encTBS_fine i) fun _ _ => verifyWithLabel_fine hsd hk _ _ _

theorem groupInfo_tag_fine {i : GroupInfo} {sd : SuiteDesc} (hsd : suite i.groupContext.cipherSuite = .ok sd) (j p : Bytes) :
    (i.verifyConfirmationTag pr j p).Fine :=
  orFalse_fine (extractEpochSecret_fine hsd _ _) fun _ _ => orFalse_fine (deriveSecret_fine hsd _ _) fun _ _ => verifyMAC_fine hsd _ _ _

/-- **C72**, for welcomes in order: whatever else the welcome, the key package and the private keys are, GroupFromWelcome
returns. Missing: the welcomes excluded, among which are some that an honest member makes (C72_honest) and some that panic
before anything is authenticated (C72_signer). -/
theorem C72_partial (hc : pr.Correct) (w : Welcome) (kp : KeyPairPackage) (now : GoTime) (hw : Spec.WelcomeInOrder pr w kp) :
    (groupFromWelcome pr w kp now).Fine := by
  obtain ⟨sd, hsd⟩ := hw.suite
  obtain ⟨sd', hsd'⟩ := hw.own
  have hcred := known_of_ne hw.credential
  unfold groupFromWelcome
  refine Res.Fine.bind (Res.Fine.bind (keyPackage_enc_fine hcred) fun _ _ => refHash_fine hsd' _ _) fun ref href => ?_
  refine Res.Fine.bind ((fine_orErr _).bind fun _ _ => (decryptWithLabel_fine hsd _ _ _ _).bind fun _ _ =>
    unmarshal_safe groupSecrets_safe _) fun gs hgs => ?_
  refine (Res.fine_guardErr _).bind fun _ _ => (Res.fine_guardErr _).bind fun _ h0 => ?_
  rw [Res.guardErr_ok_iff, beq_iff_eq, List.length_eq_zero_iff] at h0
  unfold groupFromSecrets
  refine Res.Fine.bind (by rw [h0]; exact extractPSKSecret_nil_fine hsd) fun psk hpsk => ?_
  refine Res.Fine.bind ((welcomeKeyAndNonce_fine hsd _ _).bind fun _ _ => (aeadOpen_fine hsd _ _ _ _).bind fun _ _ =>
    unmarshal_safe groupInfo_safe _) fun info hinfo => ?_
  obtain ⟨⟨si, hsi⟩, hsup, htree⟩ := hw.info ref gs psk info href hgs hpsk hinfo
  refine (fine_orErr _).bind fun raw hraw => ?_
  rw [Option.none_or, orErr_ok_iff] at hraw
  refine Res.Fine.bind (C26_safe raw) fun t ht => ?_
  have ho := htree raw t hraw ht
  have hk : KnownTree t := tree_yields.unmarshal ht
  have hread : ReadableTree pr info.groupContext.cipherSuite t := fun x l hx => ho.keys x l (nodeAt_eq hx)
  refine (getLeaf_fine ho.shape ho.inside).bind fun o hol => (fine_orErr _).bind fun sl hsl => ?_
  rw [orErr_ok_iff] at hsl
  refine (groupInfo_signature_fine hsi (hread _ sl (getLeaf_ok_some_iff.1 (hsl ▸ hol)))).bind fun _ _ => (Res.fine_guardErr _).bind fun _ _ => ?_
  refine (groupInfo_tag_fine hsi _ _).bind fun _ _ => (Res.fine_guardErr _).bind fun _ _ => (Res.fine_guardErr _).bind fun _ hcs => ?_
  rw [Res.guardErr_ok_iff, beq_iff_eq] at hcs
  refine (verifyIntegrity_fine hsi ho.shape hk hread ho.unmerged now).bind fun _ _ => ?_
  refine (extractEpochSecret_fine hsi _ _).bind fun _ _ => (deriveSecret_fine hsi _ _).bind fun _ _ => (nextInterim_fine hsi _ _).bind fun _ _ => ?_
  refine (findLeafLoop_fine ho.shape hk hcred _ _ (by omega)).bind fun li hli => (fine_orErr _).bind fun r hr => ?_
  rw [orErr_ok_iff] at hr
  rw [hr] at hli
  obtain ⟨d, hd, hlen⟩ := ho.shape.1
  have hlt := findLeafLoop_lt _ _ _ hli
  rw [numLeaves_pow hd hlen, Nat.zero_add] at hlt
  obtain ⟨l, hl, hkey⟩ := findLeafLoop_key _ _ _ hli
  have h31 : 2 ^ d ≤ 2 ^ 31 := Nat.pow_le_pow_right (by decide) hd
  refine (joinerPrivTree_fine hc hsi hd hlen hlt hl ho.inside _ fun hps => ⟨hcs ▸ hsup hps, fun x h1 h2 => ?_⟩).bind fun _ _ => Res.fine_ok _
  refine ho.path hps d r l x hlen ?_ hkey h1 h2
  rw [getLeaf_ok_some_iff, nodeOfLeaf_idx (by omega), idx_zero] at hl
  exact nodeAt_eq hl

/-- Before anything in it is authenticated: a welcome that opens, and whose signer is outside the tree it carries, makes the receiver panic. -/
theorem C72_signer (w : Welcome) (kp : KeyPairPackage) (now : GoTime) {ref : Bytes} {gs : GroupSecrets} {psk : Bytes} {info : GroupInfo} {raw : Bytes}
    {t : VTree} (h1 : kp.pub.generateRef pr = .ok ref) (h2 : w.decryptGroupSecrets pr ref kp.priv.initKey = .ok gs) (h3 : gs.psks = [])
    (h4 : extractPSKSecret pr w.cipherSuite gs.psks [] = .ok psk) (h5 : w.decryptGroupInfo pr gs.joinerSecret psk = .ok info)
    (h6 : findExtensionData info.extensions 2 = some raw) (h7 : unmarshal decTree raw = .ok t) (h8 : t.length ≤ Spec.leafNumber info.signer) :
    groupFromWelcome pr w kp now = .panic := by
  unfold groupFromWelcome
  rw [h1, Res.ok_bind, h2, Res.ok_bind]
  have e : gs.verifySingleReinitOrBranchPSK = true := by
    unfold GroupSecrets.verifySingleReinitOrBranchPSK
    rw [h3]
    rfl
  rw [e, Res.guardErr_true, Res.ok_bind, h3]
  simp only [List.length_nil, beq_self_eq_true, Res.guardErr_true, Res.ok_bind]
  unfold groupFromSecrets
  rw [h4, Res.ok_bind, h5, Res.ok_bind, Option.none_or, h6]
  simp only [orErr, Res.ok_bind]
  rw [h7, Res.ok_bind, getLeaf_panic h8]
  rfl

theorem applyRemoves_adds (t : RTree) : ∀ (l : List KeyPackage), applyRemoves (l.map .add) t = .ok t := by
  intro l
  induction l with
  | nil => rfl
  | cons k l ih => exact ih

theorem applyAdds_valid : ∀ (l : List KeyPackage) (h h' : Heap) (t t' : RTree), ValidTree h t → applyAdds (l.map .add) h t = .ok (h', t') →
    ValidTree h' t' := by
  intro l
  induction l with
  | nil => intro h h' t t' hv hr; cases hr; exact hv
  | cons k l ih =>
    intro h h' t t' hv hr
    simp only [List.map_cons, applyAdds, Res.bind_ok_iff] at hr
    obtain ⟨⟨h1, t1⟩, h2, hr⟩ := hr
    exact ih _ _ _ _ (valid_treeAdd (.inr hv) h2) hr

theorem treeApply_added {h h' : Heap} {t t' : RTree} {kps : List KeyPackage} {ss : List UInt32} (hr : treeApply h t (kps.map .add) ss = .ok (h', t')) :
    applyAdds (kps.map .add) h t = .ok (h', t') := by
  unfold treeApply at hr
  simp only [Res.bind_ok_iff] at hr
  obtain ⟨t1, a1, t2, a2, a3⟩ := hr
  rw [applyUpdates_adds] at a1
  cases a1
  rw [applyRemoves_adds] at a2
  cases a2
  exact a3

/-- **C72**, for invitations: joining from what CreateWelcome made in any group in use returns, if the inviter is still in the group. -/
theorem C72_invited (hc : pr.Correct) {st st1 : GroupState} (hr : Reachable pr st) {kps : List KeyPackage} {r : WelcomeRand} {w : Welcome} {raw : Bytes}
    (h : createWelcome pr st kps r = (.ok (w, raw), st1)) (hown : ∃ l, nodeAt st.vtree (2 * st.group.myLeafIndex.toNat) = some (.leaf l))
    (kp : KeyPairPackage) (now : GoTime) {sd : SuiteDesc} (hs : suite st.group.groupContext.cipherSuite = .ok sd)
    (ho : Spec.KeyOpens pr sd kp.pub.initKey kp.priv.initKey) (hk : ∃ sd, suite kp.pub.cipherSuite = .ok sd)
    (hcred : ∀ ty, kp.pub.leafNode.credential ≠ .other ty) (hcol : ¬ RefCollision pr kps kp.pub)
    (hkeys : ∀ x l, nodeAt st.vtree x = some (.leaf l) → Spec.Readable pr st.group.groupContext.cipherSuite l.signatureKey)
    (hnew : ∀ k ∈ kps, Spec.Readable pr st.group.groupContext.cipherSuite k.leafNode.signatureKey) :
    (groupFromWelcome pr w kp now).Fine := by
  have hi := hr.inv hc
  obtain ⟨hp, t, sd', th, psk, sig, cth, js, es, tag, rawTree, isig, ctx, run, _⟩ := createWelcome_run h
  obtain rfl := Res.ok.inj (run.suite.symm.trans hs)
  refine C72_partial hc w kp now ⟨⟨_, by rw [run.cipherSuite]; exact hs⟩, hk, hcred, fun ref gs psk' info h1 h2 h3 h4 => ?_⟩
  have h2' := h2
  unfold Welcome.decryptGroupSecrets at h2'
  simp only [Res.bind_ok_iff, orErr_ok_iff] at h2'
  obtain ⟨s, hfind, _⟩ := h2'
  rcases run.secrets_open ho h1 hfind with e | e
  · rw [h2] at e
    cases e
    rw [run.cipherSuite, run.noPsk] at h3
    cases h3
    have h4' := run.info_open hc h4
    rw [h4] at h4'
    cases h4'
    have hcs : ctx.cipherSuite = st.group.groupContext.cipherSuite := by rw [run.context]
    refine ⟨⟨_, by rw [← hs, ← hcs]; rfl⟩, fun hsome => by simp at hsome, fun raw' t' g1 g2 => ?_⟩
    have g1 : some rawTree = some raw' := g1
    cases g1
    have hv := applyAdds_valid _ _ _ _ _ hi.tree (treeApply_added run.apply)
    obtain ⟨-, hsub, hum⟩ := treeApply_effect (.inr hi.tree) run.apply
    have hm : Member t st.group.myLeafIndex.toNat := (applyAdds_member _ _ _ _ _ hi.tree (member_iff.2 hown) (treeApply_added run.apply)).2
    obtain ⟨t2, g3, hsame, -⟩ := C26_nodes run.tree
    rw [g2] at g3
    cases g3
    obtain ⟨k, hk31, hlen⟩ := C26_decoded_length g2
    have hin : ∀ x n, nodeAt t' x = some n → x < t'.length := fun x n hx => nodeAt_lt hx
    obtain ⟨l, hl⟩ := (member_iff (h := hp)).1 hm
    have hl' := (hsame _).trans hl
    have hlt := hin _ _ hl'
    have hk0 : k ≠ 0 := by rintro rfl; simp at hlen; rw [hlen] at hlt; simp at hlt
    obtain ⟨d, rfl⟩ := Nat.exists_eq_succ_of_ne_zero hk0
    have hd31 : 2 ^ (d + 1) ≤ 2 ^ 31 := Nat.pow_le_pow_right (by decide) hk31
    refine ⟨⟨⟨d, by omega, hlen⟩, fun x l hx => ?_, fun x q hx => ?_⟩, fun x q hx u hu => ?_, ?_, fun x l hx => ?_, fun hps => by simp at hps⟩
    · exact hv.leaves (derefTree_leaf.1 (nodeAt_some.1 ((hsame x).symm.trans (nodeAt_eq hx))))
    · obtain ⟨p, hp', _⟩ := nodeAt_parent.1 ((hsame x).symm.trans (nodeAt_eq hx))
      exact hv.parents hp'
    · obtain ⟨q0, k1, _, k3⟩ := applied_nodes hi.tree.owned hsub (treeApply_grown run.apply) hum ((hsame x).symm.trans hx)
      have hov : Over (u.toNat % 2 ^ 31) x := by
        rcases k3 u hu with hu | hu
        · exact hi.unmerged x q0 k1 u hu
        · exact hu
      have := (hov.inside (hlen ▸ hin _ _ hx)).1
      show 2 * u.toNat % 4294967296 < _
      rw [hlen, Nat.pow_succ]
      omega
    · show 2 * st.group.myLeafIndex.toNat % 4294967296 < _
      omega
    · have hall : AllLeaves (fun l => Spec.Readable pr st.group.groupContext.cipherSuite l.signatureKey) t := by
        refine AllLeaves.apply (fun x l hx => hkeys x l ?_) (fun l hl => ?_) (fun k hk => ?_) run.apply
        · exact nodeAt_eq (derefTree_leaf.2 hx)
        · simp at hl
        · simp only [List.mem_map, Proposal.add.injEq, exists_eq_right] at hk
          exact hnew k hk
      have hx' := (hsame x).symm.trans hx
      have := hall x l (derefTree_leaf.1 (nodeAt_some.1 hx'))
      show Spec.Readable pr ctx.cipherSuite _
      rw [hcs]
      exact this
  · exact absurd e hcol

/-- Honest welcomes are not all in order: this one describes a group in use, and with its path secret joining panics. -/
theorem C72_honest : ∃ (st : GroupState) (w : Welcome) (kp : KeyPairPackage) (info : GroupInfo) (ps : Bytes) (now : GoTime),
    Reachable toyPrims st ∧ Spec.Describes toyPrims w kp info ps st [1, 7] ∧ groupFromWelcome toyPrims w kp now = .panic := by
  obtain ⟨st, w, kp, info, ps, now, h1, h2, _, h3⟩ := C56_panic
  exact ⟨st, w, kp, info, ps, now, h1, h2, h3⟩

/-- Such a welcome as in C72_signer can be made by anyone who has the key package; this one claims to be from leaf 100. -/
theorem C72_refuted : ∃ (w : Welcome) (kp : KeyPairPackage) (now : GoTime), groupFromWelcome toyPrims w kp now = .panic := by
  have key : toyTwo.holds (fun (a, b) => (toyWelcome a b 100 0 [] [] 1).holds fun w =>
      decide (groupFromWelcome toyPrims w (toyMember 1) toyLater = .panic)) = true := by decide +kernel
  obtain ⟨⟨a, b⟩, _, key⟩ := Res.holds_ok key
  obtain ⟨w, _, key⟩ := Res.holds_ok key
  exact ⟨w, _, _, of_decide_eq_true key⟩

/-- The hypotheses of C72_invited are met: three members, of which the first invites two more; one of them joins, and so
does not the other with another's private key. -/
example : toyThree.holds (fun (a, _, _) =>
    match createWelcome toyPrims a [(toyMember 3).pub, (toyMember 4).pub] default with
    | (.ok (w, _), _) => (nodeAt a.vtree (2 * a.group.myLeafIndex.toNat)).isSome && (groupFromWelcome toyPrims w (toyMember 3) toyLater).holds (fun _ => true) &&
      decide (groupFromWelcome toyPrims w { toyMember 4 with priv := (toyMember 3).priv } toyLater = .err) &&
      decide ((toyMember 3).pub.generateRef toyPrims ≠ (toyMember 4).pub.generateRef toyPrims)
    | _ => false) = true := by decide +kernel

/-! ### C73 -/

theorem encTree_fine {t : VTree} (hk : KnownTree t) : Res.Fine (encTree t) := by
  refine writeVector_fine fun o ho => optNode_enc_fine fun l hl => ?_
  have hm : o ∈ t := by
    obtain ⟨n, hn, _⟩ := stripBlanks_spec t
    rw [hn]
    exact List.mem_append_left _ ho
  obtain ⟨x, hx⟩ := List.mem_iff_getElem?.1 hm
  exact hk x l (hl ▸ hx)

theorem groupEncrypt_fine (hc : pr.Correct) {st : GroupState} (hi : GroupInv pr st) (content : FramedContent) {c : PrivateMessageContent}
    (hk : c.content.Known) (guard : Bytes4) : (st.group.encryptPrivateMessage pr content c guard).Fine := by
  obtain ⟨sd, hsd⟩ := hi.suite
  obtain ⟨d, hd, hl⟩ := hi.tree.complete
  have hown : st.group.myLeafIndex.toNat < 2 ^ d := by
    have := hi.own
    rw [hl, Nat.pow_succ] at this
    omega
  unfold Group.encryptPrivateMessage
  dsimp only
  refine (deriveSecret_fine hsd _ _).bind fun es _ => ?_
  obtain ⟨tree, path, h1, -, h2⟩ := C35_leaf_secret pr _ sd hsd d hd es _ hown
  rw [numLeaves_pow hd hl, h1, Res.ok_bind]
  unfold deriveRatchetRoot
  rw [hsd]
  simp only [Res.ok_bind]
  rw [h2, Res.ok_bind]
  refine Res.Fine.bind ((expand_nh_fine hsd _ _ _).bind fun _ _ => Res.fine_ok _) fun rs hrs => ?_
  refine (deriveSecret_fine hsd _ _).bind fun _ _ => (encryptPrivateMessage_fine hsd hc _ _ _ hk _).bind fun m _ => ?_
  exact enc_append_fine (enc_append_fine (addU16_fine _) (wireFormat_enc_fine _)) (privateMessage_enc_fine m)

/-- **C73**, for application messages: in every group in use CreateApplicationMessage returns, whatever the data. -/
theorem C73_application (hc : pr.Correct) {st : GroupState} (hr : Reachable pr st) (data rand : Bytes) (guard : Bytes4) :
    (createApplicationMessage pr st data rand guard).Fine := by
  have hi := hr.inv hc
  obtain ⟨sd, hsd⟩ := hi.suite
  unfold createApplicationMessage
  refine (signPrivateMessageContent_fine hsd (show Content.Known (.application data) from trivial) _ _ _).bind fun c h => ?_
  refine groupEncrypt_fine hc hi _ ?_ _
  unfold signPrivateMessageContent at h
  simp only [Res.bind_ok_iff] at h
  obtain ⟨_, _, h⟩ := h
  cases h
  trivial

theorem encryptSecretsLoop_fine {cs : UInt16} {sd : SuiteDesc} (hsd : suite cs = .ok sd) {gs : GroupSecrets} {e : Bytes} {r : Nat → Bytes} :
    ∀ (ks : List KeyPackage) (i : Nat), (∀ k ∈ ks, (∃ sd, suite k.cipherSuite = .ok sd) ∧ k.leafNode.credential.Known) →
    (encryptSecretsLoop pr cs gs e r i ks).Fine := by
  intro ks
  induction ks with
  | nil => intro i _; exact Res.fine_ok _
  | cons k ks ih =>
    intro i h
    obtain ⟨⟨sk, hsk⟩, hk⟩ := h k (List.mem_cons_self ..)
    unfold encryptSecretsLoop
    refine Res.Fine.bind (Res.Fine.bind (keyPackage_enc_fine hk) fun _ _ => refHash_fine hsk _ _) fun _ _ => ?_
    refine Res.Fine.bind (Res.Fine.bind (groupSecrets_enc_fine gs) fun _ _ => encryptWithLabel_fine hsd _ _ _ _ _) fun _ _ => ?_
    exact (ih (i + 1) fun k' hk' => h k' (List.mem_cons_of_mem _ hk')).bind fun _ _ => Res.fine_ok _

/-- **C73**, for invitations: in every group in use with room in its tree CreateWelcome returns, for every non-empty list of key packages of
known suites. Missing: the empty list and unknown suites, for which it panics (C73_empty, C73_suite). -/
theorem C73_partial (hc : pr.Correct) {st : GroupState} (hr : Reachable pr st) (hroom : st.group.tree.length < 2 ^ 31)
    (kps : List KeyPackage) (rand : WelcomeRand) (hne : kps ≠ []) (hfew : kps.length ≤ 2 ^ 30)
    (hk : ∀ k ∈ kps, (∃ sd, suite k.cipherSuite = .ok sd) ∧ ∀ ty, k.leafNode.credential ≠ .other ty) :
    (createWelcome pr st kps rand).1.Fine := by
  have hi := hr.inv hc
  have hf := hr.fineInv hc
  obtain ⟨sd, hsd⟩ := hi.suite
  have hk' : ∀ k ∈ kps, (∃ sd, suite k.cipherSuite = .ok sd) ∧ k.leafNode.credential.Known := fun k h => ⟨(hk k h).1, known_of_ne (hk k h).2⟩
  unfold createWelcome
  rw [if_neg (by simpa using hne)]
  obtain ⟨d, hd, s, hs⟩ := hi.tree.holds
  have hap : ∃ h t, treeApply st.heap st.group.tree (kps.map .add) [st.group.myLeafIndex] = .ok (h, t) := by
    have hd30 : d ≤ 30 := by
      have := hs.length
      by_contra hd'
      have : 2 ^ 32 ≤ 2 ^ (d + 1) := Nat.pow_le_pow_right (by decide) (by omega)
      omega
    have hsz := size_bound s
    have hp : 2 ^ d ≤ 2 ^ 30 := Nat.pow_le_pow_right (by decide) hd30
    have hadds : (addsOf (kps.map .add)).length ≤ kps.length := by
      have := List.length_filterMap_le (fun p : Proposal => match p with | .add k => some k.leafNode | _ => none) (kps.map .add)
      rw [List.length_map] at this
      exact this
    unfold treeApply
    rw [applyUpdates_adds, Res.ok_bind]
    rw [applyRemoves_adds, Res.ok_bind]
    rcases applyAdds_spec (kps.map .add) st.heap st.group.tree (some ⟨d, s⟩) hd hs with ⟨h', t', e, -, -⟩ | ⟨-, hns⟩
    · exact ⟨h', t', e⟩
    · exact absurd (small_adds (addsOf (kps.map .add)) ⟨d, s⟩ hd (by show s.size + _ ≤ _; omega)) hns
  obtain ⟨h, t, hap⟩ := hap
  rw [hap]
  dsimp only
  have hkl : KnownLeaves t := hf.leaves.apply (fun p hp => by
    obtain ⟨k, hkm, rfl⟩ := List.mem_map.1 hp
    exact (hk' k hkm).2) hap
  have hv : ValidTree h t := applyAdds_valid _ _ _ _ _ hi.tree (treeApply_added hap)
  have hsh := (Shaped.of hv hkl).isTree h
  unfold finishWelcome
  dsimp only
  refine (computeRootTreeHash_fine hsd hsh (hkl.deref h)).bind fun th _ => ?_
  rw [hsd]
  simp only [Res.ok_bind]
  have hcon : Content.Known (.commit { proposals := kps.map fun k => .proposal (.add k), path := none }) := by
    refine ⟨fun p hp => ?_, fun u hu => by cases hu⟩
    obtain ⟨k, hkm, rfl⟩ := List.mem_map.1 hp
    exact (hk' k hkm).2
  refine (extractPSKSecret_nil_fine hsd).bind fun psk _ => (signPrivateMessageContent_fine hsd hcon _ _ _).bind fun c hcc => ?_
  refine (confirmedTranscriptHash_fine hsd hcon _ _ _).bind fun cth _ => ?_
  generalize hctx : ({ st.group.groupContext with
    epoch := st.group.groupContext.epoch + 1, treeHash := th, confirmedTranscriptHash := cth } : GroupContext) = ctx
  have hcs : ctx.cipherSuite = st.group.groupContext.cipherSuite := by rw [← hctx]
  have hsc : suite ctx.cipherSuite = .ok sd := by rw [hcs]; exact hsd
  refine (extractJoinerSecret_fine hsc _ _).bind fun js _ => (extractEpochSecret_fine hsc _ _).bind fun es _ => ?_
  refine (signConfirmationTag_fine hsc _).bind fun tag _ => Res.Fine.bind (encTree_fine (hkl.deref h)) fun raw _ => ?_
  refine Res.Fine.bind (Res.Fine.bind (groupInfo_encTBS_fine _) fun _ _ => (signWithLabel_fine hsc _ _ _ _).bind fun _ _ => Res.fine_ok _) fun info hinfo => ?_
  have hics : info.groupContext.cipherSuite = st.group.groupContext.cipherSuite := by
    unfold GroupInfo.sign at hinfo
    simp only [Res.bind_ok_iff] at hinfo
    obtain ⟨_, _, _, _, hinfo⟩ := hinfo
    cases hinfo
    exact hcs
  refine Res.Fine.bind ?_ fun egi _ => (encryptSecretsLoop_fine hsd kps 0 hk').bind fun secrets _ =>
    (groupEncrypt_fine hc hi _ ?_ _).bind fun _ _ => Res.fine_ok _
  · have hsi : suite info.groupContext.cipherSuite = .ok sd := by rw [hics]; exact hsd
    exact (welcomeKeyAndNonce_fine hsi _ _).bind fun _ _ => Res.Fine.bind (groupInfo_enc_fine _) fun _ _ => aeadSeal_fine hsi _ _ _ _
  · unfold signPrivateMessageContent at hcc
    simp only [Res.bind_ok_iff] at hcc
    obtain ⟨_, hs, hcc⟩ := hcc
    cases hcc
    exact hcon

/-- The empty list: CreateWelcome panics in every state. -/
theorem C73_empty (st : GroupState) (rand : WelcomeRand) : (createWelcome pr st [] rand).1 = .panic := rfl

/-- A key package of a suite the library does not know (its lengths are not checked either): CreateWelcome panics, after
it has added the new member to the shared nodes of the tree. -/
theorem C73_suite : ∃ st kps rand, Reachable toyPrims st ∧ kps ≠ [] ∧ (createWelcome toyPrims st kps rand).1 = .panic := by
  have key : toyTwo.holds (fun (a, _) =>
      decide ((createWelcome toyPrims a [{ (toyMember 2).pub with cipherSuite := 9 }] default).1 = .panic)) = true := by decide +kernel
  obtain ⟨⟨a, b⟩, h, key⟩ := Res.holds_ok key
  exact ⟨a, _, _, (toyTwo_reachable h).1, by simp, of_decide_eq_true key⟩

/-- The hypotheses of C73_partial and C73_application are met. -/
example : toyThree.holds (fun (a, b, _) => decide (a.group.tree.length < 2 ^ 31) &&
    (createWelcome toyPrims a [(toyMember 3).pub, (toyMember 4).pub] default).1.holds (fun _ => true) &&
    (createApplicationMessage toyPrims b [1, 2] [] default).holds fun _ => true) = true := by decide +kernel

end Mls
