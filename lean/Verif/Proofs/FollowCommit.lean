import Verif.Proofs.Follow
import Verif.Props.Commit
/-
A commit with an honest path is followed by every member holding its keys, and leaves it holding its keys.
-/
namespace Mls

open Spec (Ratchet nodeAt IsAncestor)

variable {pr : Prims}

/-- A member holds the keys it is meant to hold. -/
def Keyed (pr : Prims) (st : GroupState) : Prop :=
  ∃ d sd, st.group.tree.length = 2 ^ (d + 1) - 1 ∧ suite st.group.groupContext.cipherSuite = .ok sd ∧
    Spec.HoldsKeys pr sd st.vtree d st.group.myLeafIndex.toNat st.group.privTree

theorem tree_depth_eq {d e : Nat} (h : 2 ^ (d + 1) - 1 = 2 ^ (e + 1) - 1) : d = e := by
  have p1 : 0 < 2 ^ (d + 1) := Nat.two_pow_pos _
  have p2 : 0 < 2 ^ (e + 1) := Nat.two_pow_pos _
  have : 2 ^ (d + 1) = 2 ^ (e + 1) := by omega
  have := Nat.pow_right_injective (Nat.le_refl 2) this
  omega

/-- The keys a member is meant to hold, whatever the depth. -/
theorem Keyed.leaf {st : GroupState} (hk : Keyed pr st) {sd : SuiteDesc} (hsd : suite st.group.groupContext.cipherSuite = .ok sd) :
    ∃ l k, nodeAt st.vtree (2 * st.group.myLeafIndex.toNat) = some (.leaf l) ∧
      st.group.privTree[2 * st.group.myLeafIndex.toNat]? = some (some k) ∧ Spec.KeyOpens pr sd l.encryptionKey k := by
  obtain ⟨d, sd', _, h2, h3⟩ := hk
  rw [hsd] at h2
  cases h2
  exact h3.leaf

theorem Keyed.above {st : GroupState} (hk : Keyed pr st) {x : Nat} {q : ParentNode} (ho : Over st.group.myLeafIndex.toNat x)
    (hq : nodeAt st.vtree x = some (.parent q)) (hu : ∀ u ∈ q.unmergedLeaves, Spec.leafNumber u ≠ 2 * st.group.myLeafIndex.toNat) :
    ∃ k, st.group.privTree[x]? = some (some k) := by
  obtain ⟨d, sd', h1, _, h3⟩ := hk
  have hx : x < 2 ^ (d + 1) - 1 := by
    rw [← h1, ← derefTree_length st.heap]
    rw [nodeAt_some] at hq
    exact (List.getElem?_eq_some_iff.1 hq).1
  exact h3.above x q (ho.inside hx).2 hq hu

theorem Keyed.of {st : GroupState} (hi : GroupInv pr st) {sd : SuiteDesc} (hsd : suite st.group.groupContext.cipherSuite = .ok sd)
    (hl : ∃ l k, nodeAt st.vtree (2 * st.group.myLeafIndex.toNat) = some (.leaf l) ∧
      st.group.privTree[2 * st.group.myLeafIndex.toNat]? = some (some k) ∧ Spec.KeyOpens pr sd l.encryptionKey k)
    (ha : ∀ {x q}, Over st.group.myLeafIndex.toNat x → nodeAt st.vtree x = some (.parent q) →
      (∀ u ∈ q.unmergedLeaves, Spec.leafNumber u ≠ 2 * st.group.myLeafIndex.toNat) →
      ∃ k, st.group.privTree[x]? = some (some k)) : Keyed pr st := by
  obtain ⟨d, _, s, hs⟩ := hi.tree.holds
  have hl' := hs.length
  refine ⟨d, sd, hl', hsd, hl, fun x q hx hq hu => ha (IsAncestor.over ?_ hx) hq hu⟩
  have := hi.own
  rw [hl', Nat.pow_succ] at this
  omega

/-! ### What merging a path does, whoever does it -/

structure PathMerged (h : Heap) (t : RTree) (h' : Heap) (t' : RTree) (i : Nat) (path : UpdatePath) (d : Nat)
    (s s' : Ratchet ParentNode d) : Prop where
  depth : d ≤ 31
  before : Holds h t s
  after : Holds h' t' s'
  sender : i < 2 ^ d
  newLeaf : nodeAt (derefTree h' t') (2 * i) = some (.leaf path.leafNode)
  onPath : ∀ (n x : Nat) (pn : UpdatePathNode), (s'.filteredPath 0 i)[n]? = some x → path.nodes[n]? = some pn → ∃ ph,
    nodeAt (derefTree h' t') x = some (.parent { encryptionKey := pn.encryptionKey, parentHash := ph, unmergedLeaves := [] })
  length : (s'.filteredPath 0 i).length = path.nodes.length
  blanked : ∀ x, IsAncestor d i x → x ∉ s'.filteredPath 0 i → nodeAt (derefTree h' t') x = none
  offPath : ∀ x, x ≠ 2 * i → ¬ IsAncestor d i x → nodeAt (derefTree h' t') x = nodeAt (derefTree h t) x

theorem path_merged (hc : pr.Correct) {cs : UInt16} (hsd : ∃ sd, suite cs = .ok sd) {h h' : Heap} {t t' : RTree} (hv : ValidTree h t)
    {i : Nat} (hlt : 2 * i < t.length) {path : UpdatePath} (hm : mergeUpdatePath pr cs h t i path = .ok (h', t')) :
    ∃ d s s', PathMerged h t h' t' i path d s s' := by
  obtain ⟨d, s, s', sd, _, e1, e2, e3, e4, e5, e6, e7, e8, _, e9⟩ := C31_merge hc hv hlt hm hsd
  have hd : d ≤ 31 := by
    obtain ⟨d', hd', hl⟩ := hv.complete
    rw [← derefTree_length h, e1, flat_length] at hl
    rw [tree_depth_eq hl]
    exact hd'
  have hid : i < 2 ^ d := by
    rw [← derefTree_length h, e1, flat_length, Nat.pow_succ] at hlt
    omega
  refine ⟨d, s, s', hd, ⟨hv.owned, e1⟩, ⟨e3.owned, e2⟩, hid, e4, fun n x pn hx hn => ?_, by rw [e9, e5],
    fun x h1 h2 => e7 x h1 (by rw [← e9]; exact h2), e8⟩
  rw [e9] at hx
  obtain ⟨ph, hnode, _⟩ := e6 n x pn hx hn
  exact ⟨ph, hnode⟩

theorem copyPrivTree_get {pt pt' : List (Option Bytes)} {a b : Nat} (h : copyPrivTree pt a b = .ok pt') {x : Nat}
    (ha : x < a) (hb : x < b) : pt'[x]? = pt[x]? := by
  unfold copyPrivTree at h
  split at h
  · cases h
  · cases h
    rw [List.getElem?_append_left (by simp; omega), List.getElem?_take_of_lt (by omega)]

/-- What applying proposals does to the parent nodes, with all the unmerged leaves kept. -/
theorem applied_nodes_grown {h h' : Heap} {t t0 : RTree} (hs : Sub t0 t) (hg : HeapGrown h h') {x : Nat} {q : ParentNode}
    (hq : nodeAt (derefTree h' t0) x = some (.parent q)) :
    ∃ q0, nodeAt (derefTree h t) x = some (.parent q0) ∧ q0.unmergedLeaves <+: q.unmergedLeaves := by
  obtain ⟨p, hp, rfl⟩ := nodeAt_parent.1 hq
  exact ⟨h.getD p default, nodeAt_parent.2 ⟨p, hs x p hp, rfl⟩, (hg.nodes p).unmerged⟩

theorem nodeAt_lt {t : VTree} {x : Nat} {n : Node} (h : nodeAt t x = some n) : x < t.length := by
  rw [nodeAt_some] at h
  exact (List.getElem?_eq_some_iff.1 h).1

theorem KeyPair.opens (hc : pr.Correct) {cs : UInt16} {sd : SuiteDesc} (hsd : suite cs = .ok sd) {pub priv : Bytes}
    (h : KeyPair pr cs pub priv) : Spec.KeyOpens pr sd pub priv := by
  obtain ⟨sd', seed, h1, h2⟩ := h
  rw [hsd] at h1
  cases h1
  intro info plain rand ko ct hseal
  have := hc.hpke_open_derive sd seed info plain rand ko ct
  rw [h2] at this
  exact this hseal

/-- A member that holds its keys gets the commit secret off an honest path, if the commit leaves its leaf alone. -/
theorem member_follows (hc : pr.Correct) {st : GroupState} (hi : GroupInv pr st) (hk : Keyed pr st) {sd : SuiteDesc}
    (hsd : suite st.group.groupContext.cipherSuite = .ok sd) (hsz : sd.kem.seedSize = sd.kdf.size) {l : List Proposal}
    {ss : List UInt32} {h : Heap} {t : RTree} (ht : treeApply st.heap st.group.tree l ss = .ok (h, t)) {pt : List (Option Bytes)}
    (hp : copyPrivTree st.group.privTree st.group.tree.length t.length = .ok pt) {i : Nat} {path : UpdatePath} {h' : Heap} {t' : RTree}
    {d : Nat} {s s' : Ratchet ParentNode d} (hm : PathMerged h t h' t' i path d s s')
    (hown : nodeAt (derefTree h' t') (2 * st.group.myLeafIndex.toNat) = nodeAt st.vtree (2 * st.group.myLeafIndex.toNat))
    (hne : i ≠ st.group.myLeafIndex.toNat) {ctx : GroupContext} (hcs : ctx.cipherSuite = st.group.groupContext.cipherSuite)
    {raw ps : Bytes} (hraw : ctx.enc = .ok raw) (hb : raw.length < 2 ^ 30) {new : List Nat} (hon : Spec.HonestPath pr sd s' raw i new path ps)
    (hnew : ∀ x res, s'.meet 0 i st.group.myLeafIndex.toNat = some (x, res) → ∀ y ∈ res, y ∉ new) :
    ∃ pt', decryptPathSecrets pr ctx.cipherSuite (derefTree h' t') ctx i st.group.myLeafIndex.toNat path pt =
      .ok (Spec.pathSecret pr sd ps (s'.filteredPath 0 i).length, pt') := by
  obtain ⟨hv, hs, hu⟩ := treeApply_effect (.inr hi.tree) ht
  have hg := treeApply_grown ht
  obtain ⟨hl, hcopy⟩ := copyPrivTree_ok hp
  have hn := fun {x q} => applied_nodes (x := x) (q := q) hi.tree.owned hs hg hu
  have hlen := hm.before.length
  have hlen' := hm.after.length
  obtain ⟨lf, k0, hlf, hk0, hopen⟩ := hk.leaf hsd
  have hvl : st.vtree.length = st.group.tree.length := by unfold GroupState.vtree; rw [derefTree_length]
  have hown2 : 2 * st.group.myLeafIndex.toNat < 2 ^ (d + 1) - 1 := by
    have := nodeAt_lt (hown.trans hlf)
    rwa [derefTree_length, hlen'] at this
  have hr : st.group.myLeafIndex.toNat < 2 ^ d := by
    rw [Nat.pow_succ] at hown2
    omega
  have hpt0 : pt[2 * st.group.myLeafIndex.toNat]? = some (some k0) := by
    rw [copyPrivTree_get hp hi.own (by omega)]
    exact hk0
  have hpar : ∀ x q, nodeAt (derefTree h' t') x = some (.parent q) → x ≠ 2 * i := by
    rintro x q hq rfl
    rw [hm.newLeaf] at hq
    cases hq
  have hodd : ∀ x, x % 2 = 1 → ∀ n, nodeAt (derefTree h' t') x = some n → ∃ q, n = .parent q := by
    intro x hx n hn
    cases n with
    | parent q => exact ⟨q, rfl⟩
    | leaf l' =>
      rw [nodeAt_some, derefTree_get] at hn
      cases ht' : t'[x]? with
      | none => rw [ht'] at hn; simp at hn
      | some o =>
        rw [ht'] at hn
        cases o with
        | none => simp at hn
        | some q =>
          cases q with
          | leaf _ =>
            have := (hm.after.valid hm.depth).leaves ht'
            omega
          | parent p => simp [TNode.deref] at hn
  rw [hm.after.flat] at *
  refine decryptPathSecrets_of hc (by rw [hcs]; exact hsd) hsz hm.depth hm.sender hr hne hraw hb (by rw [hl, hlen]) hon hnew
    (fun n x pn hx hpn => ?_) (fun y k q h1 h2 hy hq => ?_) (fun x q hq u hu' => ?_) (by rw [hown, hlf]; simp) ⟨k0, hpt0⟩
    (fun x q h1 h2 ha hq hun => ?_)
  · obtain ⟨ph, hnode⟩ := hm.onPath n x pn hx hpn
    rw [hm.after.flat] at hnode
    exact ⟨_, hnode, rfl⟩
  · rcases hi.held y k (hcopy y k hy) with rfl | ho
    · rw [hown, hlf] at hq
      cases hq
      rw [hpt0] at hy
      cases hy
      exact hopen
    · obtain ⟨q, rfl⟩ := hodd y ho.odd q hq
      have hq' := hq
      rw [← hm.after.flat, hm.offPath y h1 h2] at hq'
      obtain ⟨q0, g1, g2, _⟩ := hn hq'
      have := (hi.keys y q0 k g1 (hcopy y k hy)).opens hc hsd
      rw [← g2] at this
      exact this
  · by_cases ha : IsAncestor d i x
    · by_cases hF : x ∈ s'.filteredPath 0 i
      · obtain ⟨e, he, hxe⟩ := List.mem_iff_getElem.1 hF
        obtain ⟨ph, hnode⟩ := hm.onPath e x (path.nodes[e]'(by rw [← hm.length]; exact he))
          (by rw [List.getElem?_eq_getElem he, hxe]) (List.getElem?_eq_getElem _)
        rw [hm.after.flat, hq] at hnode
        cases hnode
        simp at hu'
      · have := hm.blanked x ha hF
        rw [hm.after.flat, hq] at this
        cases this
    · have hq' := hq
      rw [← hm.after.flat, hm.offPath x (hpar x q hq) ha] at hq'
      obtain ⟨q0, g1, _, g3⟩ := hn hq'
      rcases g3 u hu' with hm' | hm'
      · exact hi.unmerged x q0 g1 u hm'
      · exact hm'
  · have hlt := nodeAt_lt hq
    rw [flat_length] at hlt
    rw [← hm.after.flat, hm.offPath x h1 h2] at hq
    obtain ⟨q0, g1, g2⟩ := applied_nodes_grown hs hg hq
    obtain ⟨k, hk'⟩ := hk.above (IsAncestor.over hr ha) g1 fun u hu' => hun u (g2.mem hu')
    have hlt2 := nodeAt_lt g1
    rw [derefTree_length] at hlt2
    exact ⟨k, by rw [copyPrivTree_get hp hlt2 (by omega)]; exact hk'⟩

/-! ### The steps of processing a commit, for two members with the same view -/

theorem decryptPathSecrets_sized (hc : pr.Correct) {cs : UInt16} {sd : SuiteDesc} (hsd : suite cs = .ok sd) {v : VTree}
    {ctx : GroupContext} {i r : Nat} {path : UpdatePath} {pt pt' : List (Option Bytes)} {sec : Bytes}
    (h : decryptPathSecrets pr cs v ctx i r path pt = .ok (sec, pt')) :
    sd.kem.seedSize = sd.kdf.size ∧ ∃ raw, ctx.enc = .ok raw ∧ raw.length < 2 ^ 30 := by
  unfold decryptPathSecrets at h
  simp only [Res.bind_ok_iff] at h
  obtain ⟨fdp, _, _, _, h⟩ := h
  cases hpos : List.idxOf? (commonAncestor (nodeOfLeaf i) (nodeOfLeaf r)) fdp with
  | none => rw [hpos] at h; cases h
  | some e =>
    rw [hpos] at h
    simp only [Res.bind_ok_iff] at h
    obtain ⟨pn, _, cop, _, res, _, _, _, found, _, h⟩ := h
    cases found with
    | none => cases h
    | some a =>
      obtain ⟨j, k⟩ := a
      simp only [Res.bind_ok_iff] at h
      obtain ⟨ct, _, ps, hps, pub, _, np, hnp, _⟩ := h
      refine ⟨((nodePriv_iff hc hsd).1 hnp).1, ?_⟩
      unfold decryptPathSecret decryptWithLabel at hps
      simp only [Res.bind_ok_iff] at hps
      obtain ⟨raw, h1, ec, h2, _⟩ := hps
      unfold encEncryptContext at h2
      rw [Enc.append_ok_iff] at h2
      obtain ⟨x, y, _, h5, _⟩ := h2
      exact ⟨raw, h1, writeOpaqueVec_bound h5⟩

theorem treeApply_view {h h2 h' : Heap} {t t2 t' : RTree} (hv : ValidTree h t) (hv2 : ValidTree h2 t2)
    (he : derefTree h t = derefTree h2 t2) {l : List (Proposal × UInt32)}
    (hr : treeApply h t (l.map (·.1)) (l.map (·.2)) = .ok (h', t')) :
    ∃ h2' t2', treeApply h2 t2 (l.map (·.1)) (l.map (·.2)) = .ok (h2', t2') ∧ derefTree h' t' = derefTree h2' t2' := by
  obtain ⟨d, hd, s, hs⟩ := hv.holds
  obtain ⟨d2, hd2, s2, hs2⟩ := hv2.holds
  obtain rfl : d = d2 := by
    have := congrArg List.length he
    rw [derefTree_length, derefTree_length, hs.length, hs2.length] at this
    exact tree_depth_eq this
  obtain rfl := flat_inj _ _ (hs.flat.symm.trans (he.trans hs2.flat))
  obtain ⟨r, hr1, hr2, hr3⟩ := treeApply_proposals (s := some ⟨d, s⟩) hd hs hr
  have key := treeApply_outcome (s := some ⟨d, s⟩) hd hs2 l
  rw [hr1] at key
  rcases key with ⟨_, h2', t2', k1, k2⟩ | ⟨k1, _⟩
  · refine ⟨h2', t2', k1, ?_⟩
    match r, hr3, k2 with
    | none, e1, e2 => cases e1; cases e2; rfl
    | some ⟨d', s'⟩, e1, e2 => rw [e1.view, e2.view]
  · exact absurd hr2 k1

theorem mergeUpdatePath_view (hc : pr.Correct) {cs : UInt16} (hsd : ∃ sd, suite cs = .ok sd) {h h2 h' : Heap} {t t2 t' : RTree}
    (hv : ValidTree h t) (hv2 : ValidTree h2 t2) (he : derefTree h t = derefTree h2 t2) {i : Nat} (hlt : 2 * i < t.length)
    {path : UpdatePath} (hm : mergeUpdatePath pr cs h t i path = .ok (h', t')) :
    ∃ h2' t2', mergeUpdatePath pr cs h2 t2 i path = .ok (h2', t2') ∧ derefTree h' t' = derefTree h2' t2' := by
  obtain ⟨sd, hsd⟩ := hsd
  obtain ⟨d, hd, s, hs⟩ := hv.holds
  obtain ⟨d2, hd2, s2, hs2⟩ := hv2.holds
  obtain rfl : d = d2 := by
    have := congrArg List.length he
    rw [derefTree_length, derefTree_length, hs.length, hs2.length] at this
    exact tree_depth_eq this
  obtain rfl := flat_inj _ _ (hs.flat.symm.trans (he.trans hs2.flat))
  have hid : i < 2 ^ d := by
    rw [hs.length, Nat.pow_succ] at hlt
    omega
  obtain ⟨m1, m2⟩ := mergeUpdatePath_spec hc hsd hd hid hs path
  cases hmp : s.mergePath (pr.hash sd.hash) i path with
  | none => exact absurd hm (m2 hmp _)
  | some s' =>
    obtain ⟨h1, t1, k1, k2, _⟩ := m1 s' hmp
    rw [hm] at k1
    obtain ⟨rfl, rfl⟩ := Prod.mk.inj (Res.ok.inj k1)
    obtain ⟨h3, t3, k3, k4, _⟩ := (mergeUpdatePath_spec hc hsd hd hid hs2 path).1 s' hmp
    exact ⟨h3, t3, k3, by rw [k2.flat, k4.flat]⟩

theorem LeafNode.lifetimeOk_commit {n : LeafNode} (h : n.isCommit = true) (now : GoTime) : n.lifetimeOk now = true := by
  unfold LeafNode.isCommit at h
  unfold LeafNode.lifetimeOk
  cases hs : n.source <;> rw [hs] at h <;> simp_all

theorem commitPath_view {ctx newCtx ctx' : GroupContext} {h h2 h' h2' : Heap} {t t2 t' t2' : RTree} {sender my my2 : UInt32}
    {pt pt' pt2 pt2' : List (Option Bytes)} {path : UpdatePath} {now now2 : GoTime} {sec sec2 : Bytes}
    (he : derefTree h t = derefTree h2 t2)
    (hok : commitPath pr ctx newCtx h t sender my pt path now = .ok (h', t', ctx', pt', sec))
    (hm : mergeUpdatePath pr ctx.cipherSuite h2 t2 sender.toNat path = .ok (h2', t2'))
    (he' : derefTree h' t' = derefTree h2' t2')
    (hd : decryptPathSecrets pr ctx.cipherSuite (derefTree h' t') ctx' sender.toNat my2.toNat path pt2 = .ok (sec2, pt2')) :
    commitPath pr ctx newCtx h2 t2 sender my2 pt2 path now2 = .ok (h2', t2', ctx', pt2', sec2) := by
  unfold commitPath at hok ⊢
  simp only [Res.bind_ok_iff] at hok
  obtain ⟨_, k1, o, k2, ⟨sk, ek⟩, k3, leaf, k4, cr, k5, _, k6, _, k7, ⟨h3, t3⟩, k8, th, k9, ⟨sec', pt3⟩, k10, k11⟩ := hok
  cases k11
  have k6' : path.leafNode.verify pr
      { cipherSuite := ctx.cipherSuite, groupID := ctx.groupID, leafIndex := sender, supportedCreds := cr,
        signatureKeys := sk.filter (· != leaf.signatureKey), encryptionKeys := ek, now := now2 } = .ok () := by
    unfold LeafNode.verify at k6 ⊢
    simp only at k6 ⊢
    rw [LeafNode.lifetimeOk_commit (by rw [Res.guardErr_ok_iff] at k1; exact k1)] at k6 ⊢
    exact k6
  simp only [← he, k1, k2, k3, k4, k5, k6', k7, hm, ← he', k9, hd, Res.ok_bind, Res.pure_eq]

theorem finishCommit_view {g g2 : Group} (hg : g2.keyState = g.keyState) {h h2 : Heap} {t t2 : RTree}
    (he : derefTree h t = derefTree h2 t2) {a : AuthenticatedContent} {c : Commit} {ids : List PreSharedKeyID} {psks : List Bytes}
    {now now2 : GoTime} {st' : GroupState} (hf : finishCommit pr g h t a c ids psks now = .ok st') {pt2 : List (Option Bytes)}
    (hcp : copyPrivTree g2.privTree g2.tree.length t2.length = .ok pt2)
    (hpath : ∀ path pt ctx' sec, c.path = some path →
      commitPath pr g.groupContext { g.groupContext with epoch := g.groupContext.epoch + 1 } h t
        a.content.sender.leafIndex g.myLeafIndex pt path now = .ok (st'.heap, st'.group.tree, ctx', st'.group.privTree, sec) →
      copyPrivTree g.privTree g.tree.length t.length = .ok pt →
      ∃ h2' t2' pt2', commitPath pr g.groupContext { g.groupContext with epoch := g.groupContext.epoch + 1 } h2 t2
        a.content.sender.leafIndex g2.myLeafIndex pt2 path now2 = .ok (h2', t2', ctx', pt2', sec) ∧
        st'.vtree = derefTree h2' t2') :
    ∃ st2', finishCommit pr g2 h2 t2 a c ids psks now2 = .ok st2' ∧ SameView st' st2' := by
  have hgc : g2.groupContext = g.groupContext := congrArg Spec.Epoch.context hg
  have hgi : g2.interimTranscriptHash = g.interimTranscriptHash := congrArg Spec.Epoch.interim hg
  have hgn : g2.initSecret = g.initSecret := congrArg Spec.Epoch.initSecret hg
  have hf' := hf
  unfold finishCommit at hf
  simp only [Res.bind_ok_iff] at hf
  obtain ⟨pt, h1, d, hsd, ⟨h3, t3, ctx3, pt3, cs3⟩, hp, cth, hcth, itm, hitm, js, hjs, psk, hpsk, es, hes, is, his, hst⟩ := hf
  cases hst
  cases hcc : c.path with
  | none =>
    rw [hcc] at hp
    simp only [Res.bind_ok_iff] at hp
    obtain ⟨th, hth, hp⟩ := hp
    cases hp
    refine ⟨?st, ?_, ?_⟩
    rotate_left
    · unfold finishCommit
      simp only [hcc, hgc, hgi, hgn, hcp, hsd, ← he, hth, hcth, hitm, hjs, hpsk, hes, his, Res.ok_bind, Res.pure_eq]
      rfl
    · exact ⟨he, rfl, rfl⟩
  | some path =>
    rw [hcc] at hp
    obtain ⟨h2', t2', pt2', k1, k2⟩ := hpath path pt ctx3 cs3 hcc hp h1
    refine ⟨?st2, ?_, ?_⟩
    rotate_left
    · unfold finishCommit
      simp only [hcc, hgc, hgi, hgn, hcp, hsd, k1, hcth, hitm, hjs, hpsk, hes, his, Res.ok_bind, Res.pure_eq]
      rfl
    · exact ⟨k2, rfl, rfl⟩

theorem checkProposals_view {g g2 : Group} (hx : g2.groupContext = g.groupContext) (hp : g2.pendingProposals = g.pendingProposals)
    (s : UInt32) (c : Commit) : checkProposals pr g2 s c = checkProposals pr g s c := by
  unfold checkProposals
  rw [hx, hp]

theorem copyPrivTree_total {pt : List (Option Bytes)} {a b : Nat} (h : pt.length = a) : ∃ pt', copyPrivTree pt a b = .ok pt' := by
  unfold copyPrivTree
  rw [if_neg (by omega)]
  exact ⟨_, rfl⟩

/-! ### The keys a member holds after a commit -/

theorem finishCommit_keyed (hc : pr.Correct) {st st' : GroupState} (hi : GroupInv pr st) (hk : Keyed pr st) {a : AuthenticatedContent}
    {c : Commit} {ps : List Proposal} {ss : List UInt32} {h : Heap} {t : RTree} {now : GoTime} {ids : List PreSharedKeyID}
    {psks : List Bytes} (hch : checkProposals pr st.group a.content.sender.leafIndex c = .ok (ps, ss))
    (ht : treeApply st.heap st.group.tree ps ss = .ok (h, t))
    (hf : finishCommit pr st.group h t a c ids psks now = .ok st')
    (hown : nodeAt st'.vtree (2 * st.group.myLeafIndex.toNat) = nodeAt st.vtree (2 * st.group.myLeafIndex.toNat)) :
    Keyed pr st' := by
  have hinv := finishCommit_inv hc hi hch ht hf
  obtain ⟨_, _, g3, _, _, g6, _⟩ := finishCommit_group hf
  obtain ⟨⟨sd, hsd⟩, pt, hp, hcase⟩ := finishCommit_parts hf
  obtain ⟨lf, k0, hlf, hk0, hopen⟩ := hk.leaf hsd
  obtain ⟨hv, hs, hu⟩ := treeApply_effect (.inr hi.tree) ht
  have hg := treeApply_grown ht
  obtain ⟨hl, hcopy⟩ := copyPrivTree_ok hp
  have hsd' : suite st'.group.groupContext.cipherSuite = .ok sd := by rw [g3]; exact hsd
  have hlt' := hinv.own
  rw [g6] at hlt'
  -- a node that only the proposals have touched
  have hkept : ∀ x q, Over st.group.myLeafIndex.toNat x → nodeAt (derefTree h t) x = some (.parent q) →
      (∀ u ∈ q.unmergedLeaves, Spec.leafNumber u ≠ 2 * st.group.myLeafIndex.toNat) → ∃ k, pt[x]? = some (some k) := by
    intro x q ho hq hun
    have hlt := nodeAt_lt hq
    rw [derefTree_length] at hlt
    obtain ⟨q0, e1, e2⟩ := applied_nodes_grown hs hg hq
    obtain ⟨k, hk'⟩ := hk.above ho e1 fun u hu' => hun u (e2.mem hu')
    have hlt2 := nodeAt_lt e1
    rw [derefTree_length] at hlt2
    exact ⟨k, by rw [copyPrivTree_get hp hlt2 hlt]; exact hk'⟩
  rcases hcase with ⟨_, e1, e2, e3⟩ | ⟨path, ctx', sec, _, hpath⟩
  · refine Keyed.of hinv hsd' ?_ ?_
    · rw [g6]
      refine ⟨lf, k0, hown.trans hlf, ?_, hopen⟩
      rw [e3, copyPrivTree_get hp hi.own (by rw [← e2]; exact hlt')]
      exact hk0
    · intro x q
      rw [g6]
      intro ho hq hun
      unfold GroupState.vtree at hq
      rw [e1, e2] at hq
      rw [e3]
      exact hkept x q ho hq hun
  · obtain ⟨d, s, s', m, hpc⟩ := committed_path hc hi ht hpath
    have hlen := hpc.before.length
    have hlen' := hpc.after.length
    refine Keyed.of hinv hsd' ?_ ?_
    · rw [g6]
      refine ⟨lf, k0, hown.trans hlf, ?_, hopen⟩
      rw [hpc.read.old _ fun m' hm' he => by
        rw [← idx_zero] at he
        obtain ⟨rfl, -⟩ := idx_inj he
        have := hpc.read.pos
        omega, copyPrivTree_get hp hi.own (by omega)]
      exact hk0
    · intro x q
      rw [g6]
      intro ho hq hun
      have hne : x ≠ 2 * (a.content.sender.leafIndex.toNat % 2 ^ 31) := by
        have := ho.odd
        omega
      by_cases ha : IsAncestor d (a.content.sender.leafIndex.toNat % 2 ^ 31) x
      · obtain ⟨m', h0, hm', rfl⟩ := mem_path.1 ((isAncestor_iff hpc.sender).1 ha)
        by_cases hF : idx m' (a.content.sender.leafIndex.toNat % 2 ^ 31 / 2 ^ m') ∈
            s'.filteredPath 0 (a.content.sender.leafIndex.toNat % 2 ^ 31)
        · rcases Nat.lt_or_ge m' m with hlt | hge
          · obtain ⟨m3, h3, he⟩ := ho
            obtain ⟨rfl, he⟩ := idx_inj he
            exact absurd (div_pow_congr he (by omega)) hpc.read.apart
          · obtain ⟨n, k', _, hx', _⟩ := hpc.read.new m' hge hF
            exact ⟨k', hx'⟩
        · rw [hpc.blanked _ ha hF] at hq
          cases hq
      · rw [hpc.offPath x hne ha] at hq
        rw [hpc.read.old x fun m' h1 h2 => by
          intro hF
          apply ha
          have := mem_filteredPath (s := s') (i := a.content.sender.leafIndex.toNat % 2 ^ 31) (j := 0)
            (Nat.div_eq_of_lt hpc.sender) (by rw [Nat.zero_mul, Nat.zero_mul, Nat.sub_zero]; exact hF)
          exact (isAncestor_iff hpc.sender).2 this]
        exact hkept x q ho hq hun

end Mls
