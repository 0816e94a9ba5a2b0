import Verif.Proofs.FollowCommit
import Verif.Props.Invariant
/-
C71: who follows an honest commit.
-/
namespace Mls

open Spec (Ratchet nodeAt IsAncestor)

variable {pr : Prims}

/-! ### The keys members hold -/

/-- Key packages made by the library come with the private key of their leaf. -/
theorem generated_opens (hc : pr.Correct) {cs : UInt16} {cred : Credential} {rand : KeyPackageRand} {kp : KeyPairPackage}
    (h : generateKeyPairPackage pr cs cred rand = .ok kp) {sd : SuiteDesc} (hsd : suite cs = .ok sd) :
    Spec.KeyOpens pr sd kp.pub.leafNode.encryptionKey kp.priv.encryptionKey := by
  unfold generateKeyPairPackage generateEncryptionKeyPair at h
  rw [hsd] at h
  simp only [Res.bind_ok_iff, Res.ok_bind, Res.pure_eq] at h
  obtain ⟨leaf, h1, kpk, h2, h3⟩ := h
  cases h3
  have e1 : kpk.leafNode = leaf := by
    unfold KeyPackage.sign at h2
    simp only [Res.bind_ok_iff] at h2
    obtain ⟨_, _, _, _, h2⟩ := h2
    cases h2
    rfl
  have e2 : leaf.encryptionKey = (pr.kemKeyPair sd.kem rand.enc).1 := by
    unfold LeafNode.sign at h1
    simp only [Res.bind_ok_iff] at h1
    obtain ⟨_, _, _, _, h1⟩ := h1
    cases h1
    rfl
  simp only [e1, e2]
  exact fun info p r ko ct hs => hc.hpke_open_gen sd rand.enc info p r ko ct hs

/-- Whoever creates a group with such a key package holds its keys. -/
theorem create_keyed {id : Bytes} {kp : KeyPairPackage} {rand : Nat → UInt8} {st : GroupState}
    (h : createGroup pr id kp rand = .ok st)
    (ho : ∀ sd, suite st.group.groupContext.cipherSuite = .ok sd →
      Spec.KeyOpens pr sd kp.pub.leafNode.encryptionKey kp.priv.encryptionKey) : Keyed pr st := by
  obtain ⟨sd, hsd⟩ := (createGroup_inv h).suite
  unfold createGroup at h
  simp only [Res.bind_ok_iff] at h
  obtain ⟨⟨hp, t⟩, h1, pt, h2, _, _, d, h3, _, _, _, _, _, _, _, _, h⟩ := h
  have e : treeAdd [] [none] kp.pub.leafNode = .ok ([], [some (.leaf kp.pub.leafNode)]) := rfl
  rw [e] at h1
  cases h1
  rw [Res.setIdx_ok_iff] at h2
  obtain ⟨_, rfl⟩ := h2
  cases h
  refine ⟨0, sd, rfl, hsd, ⟨kp.pub.leafNode, kp.priv.encryptionKey, rfl, rfl, ho sd hsd⟩, fun x q _ hq => ?_⟩
  obtain ⟨p, hp, _⟩ := nodeAt_parent.1 hq
  cases x <;> simp at hp

theorem findLeafLoop_key {t : VTree} {n : LeafNode} : ∀ (k li i : Nat), findLeafLoop t n k li = .ok (some i) →
    ∃ l, getLeaf t i = .ok (some l) ∧ l.encryptionKey = n.encryptionKey := by
  intro k
  induction k with
  | zero => intro li i h; simp [findLeafLoop] at h
  | succ k ih =>
    intro li i h
    simp only [findLeafLoop, Res.bind_ok_iff] at h
    obtain ⟨o, ho, h⟩ := h
    split at h
    · exact ih _ _ h
    · next l =>
      split at h
      · exact ih _ _ h
      · next hk =>
        split at h
        · simp only [Res.pure_eq, Res.ok.injEq] at h
          split at h
          · cases h
            exact ⟨l, ho, Decidable.not_not.1 hk⟩
          · cases h
        all_goals cases h

theorem joinerPrivTree_own {cs : UInt16} {v : VTree} {d i : Nat} {signer : UInt32} {ek : Bytes} {ps : Option Bytes}
    {pt : List (Option Bytes)} (hd : d ≤ 31) (hl : v.length = 2 ^ (d + 1) - 1) (hi : i < 2 ^ d)
    (hs : signer.toNat % 2 ^ 31 < 2 ^ d) (h : joinerPrivTree pr cs v i signer ek ps = .ok pt) :
    ∃ k, pt[2 * i]? = some (some k) ∧ (k = ek ∨ ∃ n, nodeAt v (2 * i) = some n ∧ KeyPair pr cs n.encryptionKey k) := by
  have h31 : i < 2 ^ 31 := Nat.lt_of_lt_of_le hi (Nat.pow_le_pow_right (by decide) hd)
  unfold joinerPrivTree at h
  simp only [Res.bind_ok_iff] at h
  obtain ⟨pt0, h0, h⟩ := h
  rw [Res.setIdx_ok_iff, nodeOfLeaf_idx h31] at h0
  obtain ⟨hlt, rfl⟩ := h0
  rw [← idx_zero]
  cases ps with
  | none =>
    cases h
    exact ⟨ek, by rw [List.getElem?_set_self hlt], .inl rfl⟩
  | some ps =>
    have hs31 : signer.toNat % 2 ^ 31 < 2 ^ 31 := Nat.mod_lt _ (by decide)
    obtain ⟨m, hmeet, hmin, hca⟩ := commonAncestor_leaves h31 hs31
    simp only [nodeOfLeaf_mod signer.toNat, nodeOfLeaf_idx h31, nodeOfLeaf_idx hs31, hca] at h
    unfold processPathSecret at h
    simp only [Res.bind_ok_iff] at h
    obtain ⟨pub, h2, priv, h3, pt1, h4, h⟩ := h
    rw [Res.setIdx_ok_iff] at h4
    obtain ⟨hlt', rfl⟩ := h4
    obtain ⟨n, hn, rfl⟩ := nodeKey_ok h2
    have hm : m ≤ d := hmin d (by rw [Nat.div_eq_of_lt hi, Nat.div_eq_of_lt hs])
    obtain ⟨e1, e2⟩ := processPathSecretLoop_ok hd hi (numLeaves_pow hd hl) 64 m _ _ hm h
    rcases e2 (idx 0 i) with he | ⟨ho, _⟩
    · by_cases hx' : idx m (i / 2 ^ m) = idx 0 i
      · rw [← hx'] at he ⊢
        rw [List.getElem?_set_self (by simp only [List.length_set] at hlt' ⊢; exact hlt')] at he
        exact ⟨priv, he, .inr ⟨n, hn, nodePriv_pair h3⟩⟩
      · rw [List.getElem?_set_ne hx', List.getElem?_set_self hlt] at he
        exact ⟨ek, he, .inl rfl⟩
    · have := ho.odd
      rw [idx_zero] at this
      omega

/-- A joiner holds its keys, if the tree it is given has it as an unmerged leaf of all nodes above that it has
no key for. -/
theorem join_keyed (hc : pr.Correct) {w : Welcome} {kp : KeyPairPackage} {now : GoTime} {st : GroupState}
    (h : groupFromWelcome pr w kp now = .ok st)
    (ho : ∀ sd, suite st.group.groupContext.cipherSuite = .ok sd →
      Spec.KeyOpens pr sd kp.pub.leafNode.encryptionKey kp.priv.encryptionKey)
    (ha : ∀ x q, Over st.group.myLeafIndex.toNat x → nodeAt st.vtree x = some (.parent q) →
      (∀ u ∈ q.unmergedLeaves, Spec.leafNumber u ≠ 2 * st.group.myLeafIndex.toNat) →
      ∃ k, st.group.privTree[x]? = some (some k)) : Keyed pr st := by
  have hinv := join_inv hc h
  obtain ⟨sd0, hsd0⟩ := hinv.suite
  unfold groupFromWelcome at h
  simp only [Res.bind_ok_iff] at h
  obtain ⟨ref, _, gs, _, _, _, _, _, h⟩ := h
  obtain ⟨psk, info, raw, v, leaf, li, pt, _, _, _, hdec, hget, _, _, _, hv, hfind, hjoin, hh, ht, hctx, _, _, _, _, hmy, hpt, _⟩ :=
    groupFromSecrets_ok h
  obtain ⟨k, hk, hlen⟩ := C26_decoded_length hdec
  cases k with
  | zero =>
    have : v = [] := List.eq_nil_of_length_eq_zero (by simpa using hlen)
    subst this
    simp [getLeaf, Res.idx] at hget
  | succ d =>
    have hd : d ≤ 31 := by omega
    have hpow : 2 ^ (d + 1) ≤ 2 ^ 31 := Nat.pow_le_pow_right (by decide) hk
    have hpd : 2 ^ (d + 1) = 2 * 2 ^ d := by rw [Nat.pow_succ]; omega
    have hvt : st.vtree = v := by
      unfold GroupState.vtree
      rw [hh, ht]
      exact (deref_alloc v []).2
    have hli : li < 2 ^ d := by
      have := findLeafLoop_lt _ _ _ hfind
      rw [numLeaves_pow hd hlen] at this
      omega
    have hsg : info.signer.toNat % 2 ^ 31 < 2 ^ d := by
      rw [getLeaf_mod] at hget
      unfold getLeaf at hget
      simp only [Res.bind_ok_iff, Res.idx_ok_iff] at hget
      obtain ⟨o, hget, _⟩ := hget
      rw [nodeOfLeaf_idx (Nat.mod_lt _ (by decide)), idx_zero] at hget
      have := (List.getElem?_eq_some_iff.1 hget).1
      omega
    have hmy' : st.group.myLeafIndex.toNat = li := by
      rw [hmy, UInt32.toNat_ofNat']
      omega
    obtain ⟨l, hgl, hkey⟩ := findLeafLoop_key _ _ _ hfind
    have hnode : nodeAt v (2 * li) = some (.leaf l) := by
      unfold getLeaf at hgl
      simp only [Res.bind_ok_iff, Res.idx_ok_iff] at hgl
      obtain ⟨o, hgl, hl'⟩ := hgl
      rw [nodeOfLeaf_idx (by omega), idx_zero] at hgl
      rw [nodeAt_some, hgl]
      cases o with
      | none => simp at hl'
      | some nd =>
        cases nd with
        | leaf l' => simp at hl'; rw [hl']
        | parent q => simp at hl'
    obtain ⟨k, hk', hkk⟩ := joinerPrivTree_own hd hlen hli hsg hjoin
    refine Keyed.of hinv hsd0 ?_ fun {x q} => ha x q
    rw [hmy', hvt, hpt]
    refine ⟨l, k, hnode, hk', ?_⟩
    rcases hkk with rfl | ⟨n, hn, hkp⟩
    · rw [hkey]
      exact ho sd0 hsd0
    · rw [hnode] at hn
      cases hn
      rw [← hctx] at hkp
      exact hkp.opens hc hsd0

/-- Messages that are refused, and invitations, change nothing about the keys a member is meant to hold. -/
theorem Keyed.heap {st : GroupState} (hi : GroupInv pr st) (hk : Keyed pr st) {h : Heap} (hg : HeapGrown st.heap h)
    (hu : UnmergedFrom st.heap h st.group.tree) : Keyed pr { st with heap := h } := by
  obtain ⟨sd, hsd⟩ := hi.suite
  obtain ⟨lf, k0, hlf, hk0, hopen⟩ := hk.leaf hsd
  refine Keyed.of (hi.heap hg hu) hsd ⟨lf, k0, ?_, hk0, hopen⟩ fun {x q} ho hq hun => ?_
  · have h1 : nodeAt (derefTree st.heap st.group.tree) (2 * st.group.myLeafIndex.toNat) = some (.leaf lf) := hlf
    show nodeAt (derefTree h st.group.tree) _ = _
    rw [nodeAt_some, derefTree_get] at h1 ⊢
    revert h1
    cases st.group.tree[2 * st.group.myLeafIndex.toNat]? with
    | none => exact fun h1 => h1
    | some o =>
      cases o with
      | none => exact fun h1 => h1
      | some n =>
        cases n with
        | leaf l => exact fun h1 => h1
        | parent p => simp [TNode.deref]
  · obtain ⟨q0, e1, e2⟩ := applied_nodes_grown (.refl _) hg hq
    exact hk.above ho e1 fun u hu' => hun u (e2.mem hu')

/-- The message leaves the member's own leaf as it was. -/
def LeafKept (st st' : GroupState) (r : Nat) : Prop := nodeAt st'.vtree (2 * r) = nodeAt st.vtree (2 * r)

theorem message_keyed (hc : pr.Correct) {st st' : GroupState} (hi : GroupInv pr st) (hk : Keyed pr st) {raw : Bytes} {now : GoTime}
    {r : Res (Option Bytes)} (hr : unmarshalAndProcessMessage pr st raw now = (r, st'))
    (hown : LeafKept st st' st.group.myLeafIndex.toNat) : Keyed pr st' := by
  by_cases ho : ∃ d, r = .ok d
  · obtain ⟨d, rfl⟩ := ho
    obtain ⟨a, e, _, ⟨p, hp, _, hpp⟩ | ⟨c, hcm, _, hpc⟩ | ⟨_, _, _, rfl, _⟩⟩ := accepted_cases hr
    · rcases processProposal_cases (pr := pr) st a p hp with ⟨ref, _, he⟩ | ⟨hne, _⟩
      · rw [hpp] at he
        obtain rfl := (Prod.mk.inj he).2
        exact hk
      · rw [hpp] at hne
        exact absurd rfl hne
    · rcases processCommit_cases (pr := pr) st a c hcm [] [] now with ⟨ps, ss, h, t, st1, h1, h2, h3, h4⟩ | ⟨hne, _⟩
      · rw [hpc] at h4
        obtain rfl := (Prod.mk.inj h4).2
        exact finishCommit_keyed hc hi hk h1 h2 h3 hown
      · rw [hpc] at hne
        exact absurd rfl hne
    · exact hk
  · rcases rejected_cases hr (fun d hd => ho ⟨d, hd⟩) with rfl | ⟨a, e, c, ps, ss, h, t, _, _, _, h2, rfl, _⟩
    · exact hk
    · exact hk.heap hi (treeApply_grown h2) (treeApply_effect (.inr hi.tree) h2).2.2

theorem welcome_keyed {st st' : GroupState} (hi : GroupInv pr st) (hk : Keyed pr st) {kps : List KeyPackage} {r : WelcomeRand}
    {o : Res (Welcome × Bytes)} (hr : createWelcome pr st kps r = (o, st')) : Keyed pr st' := by
  unfold createWelcome at hr
  split at hr
  · cases hr; exact hk
  · split at hr
    · next h t ht =>
      cases hr
      exact hk.heap hi (treeApply_grown ht) (treeApply_effect (.inr hi.tree) ht).2.2
    all_goals cases hr; exact hk

/-! ### C71 -/

/-- The path of the commit in the message, by which a member gets from `st` to `st'`, is made as RFC 9420 section 7.5
prescribes, with the leaves `new` left out of those it is encrypted to. -/
def HonestCommit (pr : Prims) (st st' : GroupState) (raw : Bytes) (new : List Nat) : Prop :=
  ∀ a e c path, Carries pr st raw a e → a.content.content = .commit c → c.path = some path →
    ∃ (sd : SuiteDesc) (d : Nat) (s : Ratchet ParentNode d) (ctx ps : Bytes), suite st.group.groupContext.cipherSuite = .ok sd ∧
      st'.vtree = s.flat .leaf .parent ∧
      (Spec.Rfc.groupContext { st'.group.groupContext with
        confirmedTranscriptHash := st.group.groupContext.confirmedTranscriptHash }).bytes = some ctx ∧
      Spec.HonestPath pr sd s ctx (a.content.sender.leafIndex.toNat % 2 ^ 31) new path ps

/-- The `r`-th leaf is not the sender of a commit with a path in the message; and the path secret that is meant for it, in
the tree that the commit leads to, is encrypted to no leaf among `new`. -/
def Apart (pr : Prims) (st st' : GroupState) (raw : Bytes) (new : List Nat) (r : Nat) : Prop :=
  ∀ a e c path, Carries pr st raw a e → a.content.content = .commit c → c.path = some path →
    a.content.sender.leafIndex.toNat % 2 ^ 31 ≠ r ∧
    ∀ (d : Nat) (s : Ratchet ParentNode d), st'.vtree = s.flat .leaf .parent → ∀ x res,
      s.meet 0 (a.content.sender.leafIndex.toNat % 2 ^ 31) r = some (x, res) → ∀ y ∈ res, y ∉ new

/-- **C71**, who is left behind: nobody accepts a commit whose path, made as RFC 9420 prescribes, leaves out a leaf of the resolution
on its side. -/
theorem C71_apart (hc : pr.Correct) {st st' : GroupState} (hr : Reachable pr st) {raw : Bytes} {now : GoTime} {r : Option Bytes}
    (h : unmarshalAndProcessMessage pr st raw now = (.ok r, st')) {new : List Nat} (hon : HonestCommit pr st st' raw new) :
    Apart pr st st' raw new st.group.myLeafIndex.toNat := by
  intro a e c path hca hcm hp
  have hi := hr.inv hc
  obtain ⟨l, hh, t, k1, k2, k3, k4⟩ := accepted_commit hca hcm h
  obtain ⟨⟨sd, hsd⟩, pt, hcp, ⟨hn, _⟩ | ⟨path', ctx', sec, hp', hpath⟩⟩ := finishCommit_parts k4
  · rw [hp] at hn; cases hn
  rw [hp] at hp'
  cases hp'
  obtain ⟨_, th, _, _, _, hctx, hdec⟩ := commitPath_ok hpath
  obtain ⟨d, s, m, e', ps, u1, u2, u3, u4, u5⟩ := commit_secret
    (newCtx := { st.group.groupContext with epoch := st.group.groupContext.epoch + 1 }) hc hi hsd k3 rfl hpath
  refine ⟨fun he => u5.apart.2 (by rw [he]), fun d2 s2 hs2 x res hm => ?_⟩
  obtain rfl : d = d2 := by
    have := congrArg List.length (u4.symm.trans hs2)
    rw [flat_length, flat_length] at this
    exact tree_depth_eq this
  obtain rfl := flat_inj _ _ (u4.symm.trans hs2)
  obtain ⟨sd2, d3, s3, ctx, ps3, v1, v2, v3, v4⟩ := hon a e c path hca hcm hp
  obtain rfl : d = d3 := by
    have := congrArg List.length (u4.symm.trans v2)
    rw [flat_length, flat_length] at this
    exact tree_depth_eq this
  obtain rfl := flat_inj _ _ (u4.symm.trans v2)
  rw [hsd] at v1
  cases v1
  rw [u4] at u5
  exact honest_path_whole (ctx := ctx') (by rw [hctx]; exact hsd) u1 u2 u3 v4 u5 x res hm

/-- **C71.** Two members with the same view of the group, both holding the keys they are meant to hold. If one accepts a
message whose commit, if any, has an honest path, and the message leaves the leaves of the two alone, then so does the
other at any time, unless a leaf of the resolution on its side was left out: it gets the same data and the same view of the group; and both
still hold the keys they are meant to hold. -/
theorem C71_partial (hc : pr.Correct) {st st2 st' : GroupState} (hr : Reachable pr st) (hr2 : Reachable pr st2)
    (hv : SameView st st2) (hk : Keyed pr st) (hk2 : Keyed pr st2) {raw : Bytes} {now : GoTime} {r : Option Bytes}
    (h : unmarshalAndProcessMessage pr st raw now = (.ok r, st')) {new : List Nat} (hon : HonestCommit pr st st' raw new)
    (ho : LeafKept st st' st.group.myLeafIndex.toNat) (ho2 : LeafKept st st' st2.group.myLeafIndex.toNat)
    (ha : Apart pr st st' raw new st2.group.myLeafIndex.toNat) (now2 : GoTime) :
    ∃ st2', unmarshalAndProcessMessage pr st2 raw now2 = (.ok r, st2') ∧ SameView st' st2' ∧ Keyed pr st' ∧ Keyed pr st2' := by
  have hi := hr.inv hc
  have hi2 := hr2.inv hc
  suffices hsuf : ∃ st2', unmarshalAndProcessMessage pr st2 raw now2 = (.ok r, st2') ∧ SameView st' st2' by
    obtain ⟨st2', h2, hv'⟩ := hsuf
    refine ⟨st2', h2, hv', message_keyed hc hi hk h ho, message_keyed hc hi2 hk2 h2 ?_⟩
    unfold LeafKept at ho2 ⊢
    rw [← hv'.tree, ho2, hv.tree]
  have hapart := C71_apart hc hr h hon
  obtain ⟨a, e, hca, hcase⟩ := accepted_cases h
  have hca2 := hv.carries hca
  rw [upm_of_carries hca2]
  unfold dispatch
  rcases hcase with ⟨p, hp, rfl, hpp⟩ | ⟨c, hcm, rfl, hpc⟩ | ⟨data, hdata, rfl, rfl, rfl⟩
  · rw [hp]
    simp only
    rcases processProposal_cases (pr := pr) st a p hp with ⟨ref, hrf, he⟩ | ⟨hne, _⟩
    · rw [hpp] at he
      obtain rfl := (Prod.mk.inj he).2
      rcases processProposal_cases (pr := pr) st2 a p hp with ⟨ref2, hrf2, he2⟩ | ⟨hne, _⟩
      · rw [hv.context, hrf2] at hrf
        cases hrf
        rw [he2]
        exact ⟨_, rfl, hv.tree, hv.keys, by simp only [hv.pending]⟩
      · exfalso
        unfold processProposal at hne
        rw [hp] at hne
        simp only [← hv.context, hrf, ne_eq, not_true_eq_false] at hne
    · rw [hpp] at hne; exact absurd rfl hne
  · rw [hcm]
    simp only
    obtain ⟨l, hh, t, k1, k2, k3, k4⟩ := accepted_commit hca hcm h
    obtain ⟨sd, hsd⟩ := hi.suite
    have hsd2 : suite st2.group.groupContext.cipherSuite = .ok sd := by rw [← hv.context]; exact hsd
    obtain ⟨hh2, t2, j3, hview⟩ := treeApply_view hi.tree hi2.tree hv.tree k3
    have j2 : checkProposals pr st2.group a.content.sender.leafIndex c = .ok (l.map (·.1), l.map (·.2)) := by
      rw [checkProposals_view hv.context.symm hv.pending.symm]
      exact k2
    obtain ⟨pt2, hcp2⟩ := copyPrivTree_total (b := t2.length) hi2.length
    have hfin : ∃ st2', finishCommit pr st2.group hh2 t2 a c [] [] now2 = .ok st2' ∧ SameView st' st2' := by
      refine finishCommit_view hv.keys.symm hview k4 hcp2 fun path pt ctx' sec hp hpath hcp => ?_
      obtain ⟨leaf, th, g1, g2, g3, g4, g5⟩ := commitPath_ok hpath
      have g1' := g1
      rw [getLeaf_mod] at g1
      have g2' := g2
      rw [mergeUpdatePath_mod] at g2
      have hlt : 2 * (a.content.sender.leafIndex.toNat % 2 ^ 31) < t.length := by
        unfold getLeaf at g1
        simp only [Res.bind_ok_iff, Res.idx_ok_iff] at g1
        obtain ⟨o, g1, _⟩ := g1
        rw [nodeOfLeaf_idx (Nat.mod_lt _ (by decide)), idx_zero] at g1
        have := (List.getElem?_eq_some_iff.1 g1).1
        rwa [derefTree_length] at this
      have hlen : t.length = t2.length := by
        have := congrArg List.length hview
        rwa [derefTree_length, derefTree_length] at this
      have hvt : ValidTree hh t := by
        rcases (treeApply_effect (.inr hi.tree) k3).1 with rfl | hv
        · simp at hlt
        · exact hv
      have hvt2 : ValidTree hh2 t2 := by
        rcases (treeApply_effect (.inr hi2.tree) j3).1 with rfl | hv
        · simp at hlen; simp [hlen] at hlt
        · exact hv
      obtain ⟨h2', t2', m1, m2⟩ := mergeUpdatePath_view hc ⟨sd, hsd⟩ hvt hvt2 hview hlt g2
      obtain ⟨d, s, s', hm⟩ := path_merged hc ⟨sd, hsd⟩ hvt hlt g2
      obtain ⟨d2, s2, s2', hm2⟩ := path_merged hc ⟨sd, hsd⟩ hvt2 (by rw [← hlen]; exact hlt) m1
      obtain rfl : d = d2 := by
        have := hm.before.length
        rw [hlen, hm2.before.length] at this
        exact (tree_depth_eq this).symm
      obtain rfl := flat_inj _ _ (hm.after.flat.symm.trans (m2.trans hm2.after.flat))
      obtain ⟨sd3, d3, s3, ctx, ps, v1, v2, v3, v4⟩ := hon a e c path hca hcm hp
      rw [hsd] at v1
      cases v1
      have hvt' : st'.vtree = s'.flat .leaf .parent := hm.after.flat
      obtain rfl : d = d3 := by
        have := congrArg List.length (hvt'.symm.trans v2)
        rw [flat_length, flat_length] at this
        exact tree_depth_eq this
      obtain rfl := flat_inj _ _ (hvt'.symm.trans v2)
      obtain ⟨hsz, raw', hraw', hb⟩ := decryptPathSecrets_sized hc hsd g5
      have hctx : ({ st'.group.groupContext with
          confirmedTranscriptHash := st.group.groupContext.confirmedTranscriptHash } : GroupContext) = ctx' := by
        obtain ⟨th', sec', input, raw'', e1, _, _, e4, _⟩ := finishCommit_next hsd k4
        have := e4.context
        simp only [Group.keyState] at this
        have e1' : computeRootTreeHash pr st.group.groupContext.cipherSuite (derefTree st'.heap st'.group.tree) = .ok th' := e1
        rw [g3] at e1'
        cases e1'
        rw [g4, this]
      rw [hctx, context_some.2 hraw'] at v3
      cases v3
      have hcs : ctx'.cipherSuite = st.group.groupContext.cipherSuite := by rw [g4]
      obtain ⟨f1, f2⟩ := hapart a e c path hca hcm hp
      obtain ⟨f3, f4⟩ := ha a e c path hca hcm hp
      obtain ⟨pt', q1⟩ := member_follows hc hi hk hsd hsz k3 hcp hm ho f1 hcs hraw' hb v4 (f2 d s' hvt')
      obtain ⟨pt2', q2⟩ := member_follows hc hi2 hk2 hsd2 hsz j3 hcp2 hm2 (by rw [← m2, ← hv.tree]; exact ho2) f3
        (by rw [hcs, hv.context]) hraw' hb v4 (f4 d s' hvt')
      have hsec : sec = Spec.pathSecret pr sd ps (s'.filteredPath 0 (a.content.sender.leafIndex.toNat % 2 ^ 31)).length := by
        rw [decryptPathSecrets_mod, ← hcs] at g5
        rw [g5] at q1
        exact (Prod.mk.inj (Res.ok.inj q1)).1
      refine ⟨h2', t2', pt2', ?_, m2⟩
      refine commitPath_view hview hpath (by rw [mergeUpdatePath_mod]; exact m1) m2 ?_
      rw [decryptPathSecrets_mod, hsec, m2, ← hcs]
      exact q2
    obtain ⟨st2', hf2, hv'⟩ := hfin
    refine ⟨st2', ?_, hv'⟩
    unfold processCommit
    rw [hcm]
    simp only [j2, j3, hf2]
    rfl
  · rw [hdata]
    exact ⟨st2, rfl, hv⟩

/-- A history that the member at `st` accepts, and that the member at the `r`-th leaf is meant to follow: paths are honest, and leave
out no leaf on its side; the leaves of both are left alone. -/
inductive HonestRun (pr : Prims) (r : Nat) : GroupState → List Bytes → List (Option Bytes) → GroupState → Prop where
  | nil (st : GroupState) : HonestRun pr r st [] [] st
  | cons {st st1 st2 : GroupState} {raw : Bytes} {raws : List Bytes} {now : GoTime} {d : Option Bytes} {ds : List (Option Bytes)}
      {new : List Nat} (h : unmarshalAndProcessMessage pr st raw now = (.ok d, st1)) (hon : HonestCommit pr st st1 raw new)
      (ho : LeafKept st st1 st.group.myLeafIndex.toNat) (ho2 : LeafKept st st1 r) (ha : Apart pr st st1 raw new r)
      (hs : HonestRun pr r st1 raws ds st2) : HonestRun pr r st (raw :: raws) (d :: ds) st2

/-- **C71**, over a history. -/
theorem C71_history_partial (hc : pr.Correct) {st st2 st' : GroupState} (hr : Reachable pr st) (hr2 : Reachable pr st2)
    (hv : SameView st st2) (hk : Keyed pr st) (hk2 : Keyed pr st2) {raws : List Bytes} {ds : List (Option Bytes)}
    (h : HonestRun pr st2.group.myLeafIndex.toNat st raws ds st') :
    ∃ st2', Accepts pr st2 raws ds st2' ∧ SameView st' st2' ∧ Keyed pr st' ∧ Keyed pr st2' := by
  generalize hq : st2.group.myLeafIndex.toNat = q at h
  induction h generalizing st2 with
  | nil => exact ⟨st2, .nil _, hv, hk, hk2⟩
  | @cons st st1 st3 raw raws now d ds new h hon ho ho2 ha hs ih =>
    subst hq
    obtain ⟨u, g1, g2, g3, g4⟩ := C71_partial hc hr hr2 hv hk hk2 h hon ho ho2 ha now
    have hid := (message_effect (pr := pr) st2 raw now).1
    rw [g1] at hid
    obtain ⟨st2', k1, k2⟩ := ih (.message hr h ⟨by simp, by simp⟩) (.message hr2 g1 ⟨by simp, by simp⟩) g2 g3 g4
      (by rw [hid.myLeafIndex])
    exact ⟨st2', .cons g1 k1, k2⟩

/-! ### Concrete cases -/

/-- The tree that an array stands for. -/
def ratchetOf (v : VTree) : (d : Nat) → Nat → Ratchet ParentNode d
  | 0, off => .leaf (match nodeAt v off with | some (.leaf l) => some l | _ => none)
  | d + 1, off => .node (match nodeAt v (off + 2 ^ (d + 1) - 1) with | some (.parent q) => some q | _ => none)
      (ratchetOf v d off) (ratchetOf v d (off + 2 ^ (d + 1)))

def honestCheck (sd : SuiteDesc) {d : Nat} (s : Ratchet ParentNode d) (raw : Bytes) (i : Nat) (new : List Nat) (path : UpdatePath)
    (ps : Bytes) : Bool :=
  decide (path.nodes.length = (s.sends 0 i).length) &&
    (List.range path.nodes.length).all fun n =>
      match (s.sends 0 i)[n]?, path.nodes[n]? with
      | some (_, res), some pn =>
        decide (pn.encryptionKey = (Spec.nodeKeys toyPrims sd (Spec.pathSecret toyPrims sd ps n)).1) &&
        decide (pn.encryptedPathSecret.length = (res.filter (· ∉ new)).length) &&
        (List.range pn.encryptedPathSecret.length).all fun j =>
          match (res.filter (· ∉ new))[j]?, pn.encryptedPathSecret[j]? with
          | some y, some ct =>
            match nodeAt (s.flat Node.leaf Node.parent) y with
            | some q => decide (toyPrims.hpkeSeal sd (Spec.keyOf q) (Spec.encryptContext "UpdatePathNode" raw)
                (Spec.pathSecret toyPrims sd ps n) [] = some (ct.kemOutput, ct.ciphertext))
            | none => false
          | _, _ => true
      | _, _ => true

theorem honestCheck_true {sd : SuiteDesc} {d : Nat} {s : Ratchet ParentNode d} {raw : Bytes} {i : Nat} {new : List Nat}
    {path : UpdatePath} {ps : Bytes} (h : honestCheck sd s raw i new path ps = true) :
    Spec.HonestPath toyPrims sd s raw i new path ps := by
  unfold honestCheck at h
  rw [Bool.and_eq_true, decide_eq_true_eq, List.all_eq_true] at h
  refine ⟨h.1, fun n x res pn h1 h2 => ?_⟩
  have := h.2 n (List.mem_range.2 (List.getElem?_eq_some_iff.1 h2).1)
  rw [h1, h2] at this
  simp only [Bool.and_eq_true, decide_eq_true_eq, List.all_eq_true] at this
  obtain ⟨⟨g1, g2⟩, g3⟩ := this
  refine ⟨g1, g2, fun j y ct h3 h4 => ?_⟩
  have := g3 j (List.mem_range.2 (List.getElem?_eq_some_iff.1 h4).1)
  rw [h3, h4] at this
  simp only at this
  cases hq : nodeAt (s.flat Node.leaf Node.parent) y with
  | none => rw [hq] at this; cases this
  | some q =>
    rw [hq] at this
    exact ⟨q, [], rfl, of_decide_eq_true this⟩

/-- The content of a public message and its path. -/
def toyCarried (st : GroupState) (raw : Bytes) : Res (AuthenticatedContent × UpdatePath) := do
  let m ← unmarshal MlsMessage.dec raw
  match m with
  | ⟨_, .publicMessage m⟩ =>
    let a ← verifyPublicMessage toyPrims st m
    match a.content.content with
    | .commit c =>
      match c.path with
      | some path => return (a, path)
      | none => .err
    | _ => .err
  | _ => .err

theorem toyCarried_ok {st : GroupState} {raw : Bytes} {a : AuthenticatedContent} {path : UpdatePath}
    (h : toyCarried st raw = .ok (a, path)) {a' : AuthenticatedContent} {e : Bool} {c : Commit} {path' : UpdatePath}
    (hc : Carries toyPrims st raw a' e) (hm : a'.content.content = .commit c) (hp : c.path = some path') : a = a' ∧ path = path' := by
  unfold toyCarried at h
  simp only [Res.bind_ok_iff] at h
  obtain ⟨m, h1, h⟩ := h
  split at h
  · next v m =>
    simp only [Res.bind_ok_iff] at h
    obtain ⟨b, h2, h⟩ := h
    obtain ⟨rfl, _⟩ := (Carries.pub h1 h2).unique hc
    rw [hm] at h
    simp only [hp] at h
    cases h
    exact ⟨rfl, rfl⟩
  · cases h

/-- HonestCommit and Apart, tested for a tree of depth `d`. -/
def toyHonest (st st' : GroupState) (raw : Bytes) (new : List Nat) (d : Nat) (ps : Bytes) : Bool :=
  (toyCarried st raw).holds fun (a, path) => (suite st.group.groupContext.cipherSuite).holds fun sd =>
    (({ st'.group.groupContext with
        confirmedTranscriptHash := st.group.groupContext.confirmedTranscriptHash } : GroupContext).enc : Res Bytes).holds fun ctx =>
      decide (st'.vtree = (ratchetOf st'.vtree d 0).flat .leaf .parent) &&
        honestCheck sd (ratchetOf st'.vtree d 0) ctx (a.content.sender.leafIndex.toNat % 2 ^ 31) new path ps

theorem toyHonest_true {st st' : GroupState} {raw : Bytes} {new : List Nat} {d : Nat} {ps : Bytes}
    (h : toyHonest st st' raw new d ps = true) : HonestCommit toyPrims st st' raw new := by
  intro a e c path h1 h2 h3
  unfold toyHonest at h
  obtain ⟨⟨a', path'⟩, hc, h⟩ := Res.holds_ok h
  obtain ⟨rfl, rfl⟩ := toyCarried_ok hc h1 h2 h3
  obtain ⟨sd, hsd, h⟩ := Res.holds_ok h
  obtain ⟨ctx, hctx, h⟩ := Res.holds_ok h
  rw [Bool.and_eq_true, decide_eq_true_eq] at h
  exact ⟨sd, d, _, ctx, ps, hsd, h.1, context_some.2 hctx, honestCheck_true h.2⟩

def toyApart (st st' : GroupState) (raw : Bytes) (new : List Nat) (d r : Nat) : Bool :=
  (toyCarried st raw).holds fun (a, _) =>
    decide (st'.vtree = (ratchetOf st'.vtree d 0).flat .leaf .parent) &&
      decide (a.content.sender.leafIndex.toNat % 2 ^ 31 ≠ r) &&
        match (ratchetOf st'.vtree d 0).meet 0 (a.content.sender.leafIndex.toNat % 2 ^ 31) r with
        | some (_, res) => res.all (· ∉ new)
        | none => true

theorem toyApart_true {st st' : GroupState} {raw : Bytes} {new : List Nat} {d r : Nat}
    (h : toyApart st st' raw new d r = true) : Apart toyPrims st st' raw new r := by
  intro a e c path h1 h2 h3
  unfold toyApart at h
  obtain ⟨⟨a', path'⟩, hc, h⟩ := Res.holds_ok h
  obtain ⟨rfl, rfl⟩ := toyCarried_ok hc h1 h2 h3
  simp only [Bool.and_eq_true, decide_eq_true_eq] at h
  obtain ⟨⟨hf, hne⟩, h⟩ := h
  refine ⟨hne, fun d2 s hs x res hm => ?_⟩
  obtain rfl : d = d2 := by
    have := congrArg List.length (hf.symm.trans hs)
    rw [flat_length, flat_length] at this
    exact tree_depth_eq this
  obtain rfl := flat_inj _ _ (hf.symm.trans hs)
  rw [hm] at h
  simpa using h

/-- Keyed, tested for a tree of depth `d`. -/
def toyKeyed (st : GroupState) (d : Nat) : Bool :=
  decide (st.group.tree.length = 2 ^ (d + 1) - 1) && decide (st.group.myLeafIndex.toNat < 2 ^ d) &&
    (suite st.group.groupContext.cipherSuite).holds fun _ =>
      (match nodeAt st.vtree (2 * st.group.myLeafIndex.toNat) with
      | some (.leaf l) => decide (st.group.privTree[2 * st.group.myLeafIndex.toNat]? = some (some l.encryptionKey))
      | _ => false) &&
      (upPath d 0 st.group.myLeafIndex.toNat).all fun x =>
        match nodeAt st.vtree x with
        | some (.parent q) => q.unmergedLeaves.any (fun u => Spec.leafNumber u == 2 * st.group.myLeafIndex.toNat) ||
          (st.group.privTree.getD x none).isSome
        | _ => true

theorem toyKeyed_true {st : GroupState} {d : Nat} (h : toyKeyed st d = true) : Keyed toyPrims st := by
  unfold toyKeyed at h
  simp only [Bool.and_eq_true, decide_eq_true_eq] at h
  obtain ⟨⟨h1, h2⟩, h⟩ := h
  obtain ⟨sd, hsd, h⟩ := Res.holds_ok h
  simp only [Bool.and_eq_true, List.all_eq_true] at h
  obtain ⟨h3, h4⟩ := h
  refine ⟨d, sd, h1, hsd, ?_, fun x q hx hq hu => ?_⟩
  · split at h3
    · next l hl =>
      refine ⟨l, _, hl, of_decide_eq_true h3, ?_⟩
      intro info p rand ko ct hs
      have := toyPrims_correct.hpke_open_derive sd l.encryptionKey info p rand ko ct
      exact this hs
    · cases h3
  · have := h4 x ((isAncestor_iff h2).1 hx)
    rw [hq] at this
    simp only [Bool.or_eq_true, List.any_eq_true, beq_iff_eq] at this
    rcases this with ⟨u, h5, h6⟩ | h5
    · exact absurd h6 (hu u h5)
    · rw [List.getD_eq_getElem?_getD] at h5
      cases hx' : st.group.privTree[x]? with
      | none => rw [hx'] at h5; simp at h5
      | some o =>
        rw [hx'] at h5
        cases o with
        | none => simp at h5
        | some k => exact ⟨k, rfl⟩

theorem toyThree_reachable {a b c : GroupState} (h : toyThree = .ok (a, b, c)) :
    Reachable toyPrims a ∧ Reachable toyPrims b ∧ Reachable toyPrims c := by
  unfold toyThree at h
  simp only [Res.bind_ok_iff] at h
  obtain ⟨a0, h0, ⟨a1, w⟩, h1, b1, h2, c1, h3, h⟩ := h
  cases h
  exact ⟨(Reachable.create h0).invited h1, .join h2, .join h3⟩

/-- The hypotheses of C71_partial are met: three members, of which the second commits. -/
example : toyThree.holds (fun (a, _, c) =>
    let m := toyCommit a 1 1 [] (List.replicate 32 9) []
    (a.after m).holds fun a' => decide (SameView a c) && toyKeyed a 2 && toyKeyed c 2 && toyHonest a a' m [] 2 (List.replicate 32 9) &&
      decide (nodeAt a'.vtree 0 = nodeAt a.vtree 0) && decide (nodeAt a'.vtree 4 = nodeAt a.vtree 4) && toyApart a a' m [] 2 2 &&
      decide (c.group.myLeafIndex = 2) && decide (a'.group.epochSecret ≠ a.group.epochSecret)) = true := by decide +kernel

/-- C71 is false as RFC 9420 has it: members that agree and hold their keys; a commit by the first of them with a path that is honest, the new
leaf 6 being left out of those it is encrypted to, which does not touch the leaves of the two others. One accepts it, the other refuses. -/
theorem C71_refuted : ∃ (st st2 st' : GroupState) (raw : Bytes) (now : GoTime), Reachable toyPrims st ∧ Reachable toyPrims st2 ∧
    SameView st st2 ∧ Keyed toyPrims st ∧ Keyed toyPrims st2 ∧ unmarshalAndProcessMessage toyPrims st raw now = (.ok none, st') ∧
    nodeAt st.vtree 6 = none ∧ nodeAt st'.vtree 6 = some (.leaf (toyMember 3).pub.leafNode) ∧
    HonestCommit toyPrims st st' raw [6] ∧ LeafKept st st' st.group.myLeafIndex.toNat ∧ LeafKept st st' st2.group.myLeafIndex.toNat ∧
    (unmarshalAndProcessMessage toyPrims st2 raw now).1 = .err := by
  have key : toyThree.holds (fun (_, b, c) =>
      let m := toyCommit b 0 0 [.add (toyMember 3).pub] (List.replicate 32 9) [6]
      (b.after m).holds fun b' => decide (SameView b c) && (toyKeyed b 2 && (toyKeyed c 2 &&
        (toyHonest b b' m [6] 2 (List.replicate 32 9) && (decide (nodeAt b.vtree 6 = none ∧
          nodeAt b'.vtree 6 = some (.leaf (toyMember 3).pub.leafNode) ∧
          nodeAt b'.vtree (2 * b.group.myLeafIndex.toNat) = nodeAt b.vtree (2 * b.group.myLeafIndex.toNat) ∧
          nodeAt b'.vtree (2 * c.group.myLeafIndex.toNat) = nodeAt b.vtree (2 * c.group.myLeafIndex.toNat) ∧
          (unmarshalAndProcessMessage toyPrims b m toyLater).1 = .ok none ∧
          (unmarshalAndProcessMessage toyPrims c m toyLater).1 = .err)))))) = true := by decide +kernel
  obtain ⟨⟨a, b, c⟩, ht, key⟩ := Res.holds_ok key
  obtain ⟨hr1, hr2, hr3⟩ := toyThree_reachable ht
  simp only at key
  clear ht
  generalize toyCommit b 0 0 [.add (toyMember 3).pub] (List.replicate 32 9) [6] = m at key
  obtain ⟨b', hb', key⟩ := Res.holds_ok key
  rw [Bool.and_eq_true, Bool.and_eq_true, Bool.and_eq_true, Bool.and_eq_true, decide_eq_true_eq, decide_eq_true_eq] at key
  obtain ⟨k1, k2, k3, k4, k5, k6, k7, k8, k9, k10⟩ := key
  have hb : unmarshalAndProcessMessage toyPrims b m toyLater = (.ok none, b') := by
    unfold GroupState.after at hb'
    split at hb' <;> try cases hb'
    next r _ hm =>
    rw [hm] at k9 ⊢
    cases k9
    rfl
  exact ⟨b, c, b', m, toyLater, hr2, hr3, k1, toyKeyed_true k2, toyKeyed_true k3, hb, k5, k6, toyHonest_true k4, k7, k8, k10⟩

end Mls
