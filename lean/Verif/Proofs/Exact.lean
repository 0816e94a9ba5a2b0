import Verif.Proofs.FineCommit
import Verif.Proofs.FollowCommit
/-
Exactly which update paths a receiver follows.
-/
namespace Mls

open Spec (Ratchet nodeAt IsAncestor)

variable {pr : Prims}

/-! ### Specification -/

/-- The `r`-th leaf can read the path of the `i`-th, in the tree `s` the path has been merged into; `raw` is the provisional group
context and `keys` are the private keys of the receiver. The path has a node for every node of the filtered direct
path. The `e`-th is where the two leaves meet, and has a ciphertext for every node of the resolution on the receiver's
side. The one for the first of them the receiver has the key of opens to a path secret `ps`; and the public keys of that node and
of those above come from `ps`, as RFC 9420 section 7.4 derives them. -/
structure Spec.PathReadable (pr : Prims) (sd : SuiteDesc) {d : Nat} (s : Ratchet ParentNode d) (raw : Bytes) (i r : Nat) (path : UpdatePath)
    (keys : List (Option Bytes)) (e : Nat) (ps : Bytes) : Prop where
  supported : sd.kem.seedSize = sd.kdf.size
  inside : r < 2 ^ d
  apart : i ≠ r
  length : path.nodes.length = (s.filteredPath 0 i).length
  opened : ∃ (x : Nat) (res : List Nat) (pn : UpdatePathNode) (j y : Nat) (k : Bytes) (ct : HpkeCiphertext),
    s.meet 0 i r = some (x, res) ∧ (s.filteredPath 0 i)[e]? = some x ∧ path.nodes[e]? = some pn ∧
    pn.encryptedPathSecret.length = res.length ∧ res[j]? = some y ∧ keys[y]? = some (some k) ∧
    (∀ j' y' k', j' < j → res[j']? = some y' → keys[y']? ≠ some (some k')) ∧
    pn.encryptedPathSecret[j]? = some ct ∧
    pr.hpkeOpen sd k (Spec.encryptContext "UpdatePathNode" raw) ct.kemOutput ct.ciphertext = some ps
  node : ∀ n x, (s.filteredPath 0 i)[e + n]? = some x → ∃ q, nodeAt (s.flat Node.leaf Node.parent) x = some q ∧
    Spec.keyOf q = (Spec.nodeKeys pr sd (Spec.pathSecret pr sd ps n)).1

theorem Spec.PathReadable.congr {sd : SuiteDesc} {d : Nat} {s : Ratchet ParentNode d} {raw : Bytes} {i r : Nat} {path : UpdatePath}
    {keys keys' : List (Option Bytes)} {e : Nat} {ps : Bytes} (hk : ∀ (y : Nat) k, keys[y]? = some (some k) ↔ keys'[y]? = some (some k))
    (h : Spec.PathReadable pr sd s raw i r path keys e ps) : Spec.PathReadable pr sd s raw i r path keys' e ps := by
  obtain ⟨x, res, pn, j, y, k, ct, o1, o2, o3, o4, o5, o6, o7, o8⟩ := h.opened
  exact ⟨h.supported, h.inside, h.apart, h.length, ⟨x, res, pn, j, y, k, ct, o1, o2, o3, o4, o5, (hk _ _).1 o6,
    fun j' y' k' a b hn => o7 j' y' k' a b ((hk _ _).2 hn), o8⟩, h.node⟩

/-! ### Reading the path secrets -/

theorem decryptPathSecret_bound {ctx : GroupContext} {cs : UInt16} {k ps raw : Bytes} {ct : HpkeCiphertext}
    (hraw : ctx.enc = .ok raw) (h : decryptPathSecret pr cs k ctx ct = .ok ps) : raw.length < 2 ^ 30 := by
  unfold decryptPathSecret decryptWithLabel at h
  simp only [Res.bind_ok_iff] at h
  obtain ⟨raw', h1, ec, h2, _⟩ := h
  rw [hraw] at h1
  cases h1
  unfold encEncryptContext at h2
  rw [Enc.append_ok_iff] at h2
  obtain ⟨x, y, _, h5, rfl⟩ := h2
  exact writeOpaqueVec_bound h5

theorem findPriv_at {pt : List (Option Bytes)} : ∀ (xs : List Nat) (i j x : Nat) (k : Bytes), (∀ x ∈ xs, x < pt.length) →
    xs[j]? = some x → pt[x]? = some (some k) → (∀ j' x' k', j' < j → xs[j']? = some x' → pt[x']? ≠ some (some k')) →
    findPriv pt i xs = .ok (some (i + j, k)) := by
  intro xs
  induction xs with
  | nil => intro i j x k _ h; simp at h
  | cons y ys ih =>
    intro i j x k hlt hx hk hf
    have hy := hlt y List.mem_cons_self
    unfold findPriv
    rw [Res.idx_ok_iff.2 (List.getElem?_eq_getElem hy)]
    simp only [Res.ok_bind]
    cases j with
    | zero =>
      simp only [List.getElem?_cons_zero, Option.some.injEq] at hx
      subst hx
      rw [List.getElem?_eq_getElem hy, Option.some.injEq] at hk
      rw [hk]
      rfl
    | succ j =>
      have hn : pt[y] = none := by
        cases hp : pt[y] with
        | none => rfl
        | some k' => exact absurd (by rw [List.getElem?_eq_getElem hy, hp]) (hf 0 y k' (by omega) rfl)
      rw [hn]
      simp only
      rw [ih (i + 1) j x k (fun z hz => hlt z (List.mem_cons_of_mem _ hz)) (by simpa using hx) hk
        (fun j' x' k' a b => hf (j' + 1) x' k' (by omega) (by simpa using b))]
      congr 3
      omega

theorem decryptPathSecrets_iff (hc : pr.Correct) {sd : SuiteDesc} {ctx : GroupContext}
    (hsd : suite ctx.cipherSuite = .ok sd) {d i r : Nat} (hd : d ≤ 31)
    (hi : i < 2 ^ d) (hr31 : r < 2 ^ 31) {s : Ratchet ParentNode d} {path : UpdatePath} {pt : List (Option Bytes)}
    (hl : pt.length = 2 ^ (d + 1) - 1)
    (hu : ∀ x q, nodeAt (s.flat Node.leaf Node.parent) x = some (.parent q) → ∀ u ∈ q.unmergedLeaves, Over (u.toNat % 2 ^ 31) x) :
    (∃ x, decryptPathSecrets pr ctx.cipherSuite (s.flat .leaf .parent) ctx i r path pt = .ok x) ↔
      ∃ raw e ps, ctx.enc = .ok raw ∧ raw.length < 2 ^ 30 ∧ Spec.PathReadable pr sd s raw i r path pt e ps := by
  have h31 : i < 2 ^ 31 := Nat.lt_of_lt_of_le hi (Nat.pow_le_pow_right (by decide) hd)
  constructor
  · rintro ⟨⟨sec, pt'⟩, hok⟩
    obtain ⟨m, hread⟩ := decryptPathSecrets_ok hd hi hr31 hok
    have hsz := (decryptPathSecrets_sized hc hsd hok).1
    have hr : r < 2 ^ d := by
      have h1 := div_pow_congr hread.meet hread.le
      rw [Nat.div_eq_of_lt hi] at h1
      exact (Nat.div_eq_zero_iff_lt (Nat.two_pow_pos d)).1 h1.symm
    obtain ⟨m, e, ps, h⟩ := decryptPathSecrets_secrets hc hsd hd hi hr31 hok
    have hne : i ≠ r := fun he => h.apart.2 (by rw [he])
    obtain ⟨res, pn, j, x, k, ct, h1, h2, h3, h4, h5, hf, h6, h7⟩ := h.opened
    obtain ⟨raw, hraw, hopen⟩ := decryptPathSecret_ok hsd h7
    refine ⟨raw, e, ps, hraw, decryptPathSecret_bound hraw h7, hsz, hr, hne, h.length, ?_, fun n x hx => ?_⟩
    · obtain ⟨m', res', g1, g2, g3, g4, g5, g6⟩ := meet_spec (t := s.flat .leaf .parent) (vflat_lt hd s) (at_flat _ _ s) hd
        (Nat.div_eq_of_lt hi) (Nat.div_eq_of_lt hr) hne
      obtain rfl := meet_level h.meet h.apart g3 ⟨g1, g4⟩
      rw [h1] at g6
      cases g6
      rw [Nat.zero_mul, Nat.zero_mul, Nat.sub_zero, Nat.sub_zero] at g5
      exact ⟨_, res, pn, j, x, k, ct, g5, h.pos, h2, h3, h4, h5, fun j' y' k' a b => by rw [hf j' y' a b]; simp, h6, hopen⟩
    · obtain ⟨q, e1, e2⟩ := h.node n x hx
      exact ⟨q, e1, by rw [← node_keyOf]; exact (Prod.mk.inj e2).1⟩
  · rintro ⟨raw, n, ps, hraw, hb, h⟩
    have hsz := h.supported
    have hr := h.inside
    have hroot := at_flat Node.leaf Node.parent s
    obtain ⟨x, res, pn, j, y, k, ct, o1, o2, o3, o4, o5, o6, o7, o8, o9⟩ := h.opened
    obtain ⟨m, res', hm0, hmd, hmeet, hapart, hx, hres⟩ := meet_spec (t := s.flat Node.leaf Node.parent) (vflat_lt hd s) hroot hd
      (Nat.div_eq_of_lt hi) (Nat.div_eq_of_lt hr) h.apart
    rw [Nat.zero_mul, Nat.zero_mul, Nat.sub_zero, Nat.sub_zero, o1] at hx
    obtain ⟨rfl, rfl⟩ := Prod.mk.inj (Option.some.inj hx)
    obtain ⟨m', hmeet', hmin, hca⟩ := commonAncestor_leaves h31 hr31
    obtain rfl : m = m' := by
      have h1 := hmin _ hmeet
      rcases Nat.lt_or_ge m' m with hlt | hge
      · exact absurd (div_pow_congr hmeet' (by omega)) hapart
      · omega
    obtain ⟨e, rfl⟩ : ∃ e, m = e + 1 := ⟨m - 1, by omega⟩
    rw [Nat.add_sub_cancel] at hapart hres
    obtain ⟨sub, hsub⟩ := at_sub hroot (below_root (k := e) (by omega) hr)
    have hres' := hres
    rw [resolve_spec (vflat_lt hd s) hsub (by omega)] at hres'
    have hres' := Res.ok.inj hres'
    have hoff : ∀ y ∈ res, y < pt.length := by
      intro y hy
      rw [← hres'] at hy
      obtain ⟨m', y', hb, rfl⟩ := resolution_below hsub hu hy
      rw [hl]
      exact ((below_root (k := e) (by omega) hr).trans hb).lt
    have hnd := filteredPath_nodup (s := s) (i := i) (j := 0) (Nat.div_eq_of_lt hi)
    rw [Nat.zero_mul, Nat.zero_mul, Nat.sub_zero] at hnd
    have hn := (List.getElem?_eq_some_iff.1 o2).1
    have hpos : List.idxOf? (idx (e + 1) (i / 2 ^ (e + 1))) (s.filteredPath 0 i) = some n := by
      cases hp : List.idxOf? (idx (e + 1) (i / 2 ^ (e + 1))) (s.filteredPath 0 i) with
      | none =>
        rw [List.idxOf?_eq_none_iff] at hp
        exact absurd (List.mem_of_getElem? o2) hp
      | some n' =>
        rw [List.idxOf?, List.findIdx?_eq_some_iff_getElem] at hp
        obtain ⟨he, heq, _⟩ := hp
        simp only [beq_iff_eq] at heq
        congr 1
        exact (List.getElem?_inj he hnd).1 (by rw [List.getElem?_eq_getElem he, heq, o2])
    have hfind := findPriv_at res 0 j y k hoff o5 o6 o7
    rw [Nat.zero_add] at hfind
    have hdec := decryptPathSecret_of (pr := pr) hsd hraw hb o9
    have hnode : ∀ (n' x : Nat), (s.filteredPath 0 i)[n + n']? = some x → x < pt.length ∧ ∃ q, nodeAt (s.flat Node.leaf Node.parent) x = some q ∧
        q.encryptionKey = (Spec.nodeKeys pr sd (Spec.pathSecret pr sd ps n')).1 := by
      intro n' x hx'
      obtain ⟨q, hq, hk⟩ := h.node n' x hx'
      refine ⟨?_, q, hq, by rw [node_keyOf]; exact hk⟩
      have := nodeAt_lt hq
      rw [flat_length] at this
      omega
    obtain ⟨hlt, q2, hq2, hk2⟩ := hnode 0 _ o2
    have hnp := (nodePriv_iff hc hsd (ps := ps) (pub := q2.encryptionKey)
        (priv := (Spec.nodeKeys pr sd ps).2)).2 ⟨hsz, by rw [hk2]; rfl⟩
    obtain ⟨pt', hloop⟩ := pathSecretLoop_of hc hsd hsz (t := s.flat Node.leaf Node.parent) ((s.filteredPath 0 i).drop (n + 1))
      ps (pt.set (idx (e + 1) (i / 2 ^ (e + 1))) (some (Spec.nodeKeys pr sd ps).2))
      fun n' x hx' => by
        rw [List.length_set]
        rw [List.getElem?_drop, show n + 1 + n' = n + (n' + 1) from by omega] at hx'
        exact hnode _ x hx'
    unfold decryptPathSecrets
    simp only [nodeOfLeaf_idx h31, nodeOfLeaf_idx hr31]
    rw [filteredDirectPath_spec hd hi]
    simp only [Res.ok_bind]
    rw [h.length, hca]
    simp only [beq_self_eq_true, Res.guardErr_true, Res.ok_bind]
    rw [hpos]
    simp only
    rw [Res.idx_ok_iff.2 o3]
    simp only [Res.ok_bind]
    rw [copath_child hd hmd hi hmeet hapart]
    simp only [Res.deref, Res.ok_bind]
    rw [hres]
    simp only [Res.ok_bind]
    rw [o4]
    simp only [beq_self_eq_true, Res.guardErr_true, Res.ok_bind]
    rw [hfind]
    simp only [Res.ok_bind]
    rw [Res.idx_ok_iff.2 o8]
    simp only [Res.ok_bind]
    rw [hdec]
    simp only [Res.ok_bind]
    rw [nodeKey_of hq2]
    simp only [Res.ok_bind]
    rw [hnp]
    simp only [Res.ok_bind]
    rw [Res.setIdx_of_lt _ hlt]
    simp only [Res.ok_bind]
    rw [hloop]
    simp only [Res.ok_bind]
    rw [deriveSecret_eq hsd _ lblPath_name (by decide)]
    simp only [Res.ok_bind, Res.pure_eq]
    exact ⟨_, rfl⟩

/-! ### The update path of a commit -/

/-- What is asked of the update path of a commit, in a group with the context `ctx`, at the time `now`. `s` is the tree with the
proposals applied, `s'` the one with the path merged as well, and `th` its tree hash; `my` and `keys` are the leaf index and
the private keys of the receiver.

The committer has a leaf in `s`; the leaf node of the path says it is from a commit and is valid (RFC 9420 section 7.3); the credential
types are counted as for a tree (see C30); the signature key is the committer's old one or that of no member, and the
encryption keys, of the leaf and of the nodes, are those of no member; the path can be merged, parent hash included; and
the receiver can read it. -/
structure Spec.PathOk (pr : Prims) (sd : SuiteDesc) (ctx : GroupContext) (now : GoTime) {d : Nat} (s s' : Ratchet ParentNode d)
    (sender : UInt32) (my : Nat) (keys : List (Option Bytes)) (path : UpdatePath) (th : Bytes) : Prop where
  inside : sender.toNat % 2 ^ 31 < 2 ^ d
  source : ∃ ph, path.leafNode.source = .commit ph
  leaf : Spec.LeafValid pr ctx now sender.toNat path.leafNode
  credential : ((s.leaves.filterMap id).flatMap fun m => m.capabilities.credentials).count path.leafNode.credential.ty =
    (s.leaves.filterMap id).length
  signatureKey : ∃ old, s.leaves[sender.toNat % 2 ^ 31]? = some (some old) ∧
    (path.leafNode.signatureKey = old.signatureKey ∨ ∀ m, some m ∈ s.leaves → m.signatureKey ≠ path.leafNode.signatureKey)
  encryptionKeys : ∀ m, some m ∈ s.leaves →
    m.encryptionKey ≠ path.leafNode.encryptionKey ∧ ∀ n ∈ path.nodes, m.encryptionKey ≠ n.encryptionKey
  merged : s.mergePath (pr.hash sd.hash) (sender.toNat % 2 ^ 31) path = some s'
  treeHash : s'.treeHash (pr.hash sd.hash) 0 = some th
  opens : ∃ provisional e ps, (Spec.Rfc.groupContext { ctx with epoch := ctx.epoch + 1, treeHash := th }).bytes = some provisional ∧
    provisional.length < 2 ^ 30 ∧ Spec.PathReadable pr sd s' provisional (sender.toNat % 2 ^ 31) my path keys e ps

theorem merged_unmerged (hc : pr.Correct) {st : GroupState} (hi : GroupInv pr st) {ps : List Proposal} {ss : List UInt32}
    {h : Heap} {t : RTree} (ht : treeApply st.heap st.group.tree ps ss = .ok (h, t)) (hv : ValidTree h t) {cs : UInt16}
    (hsd : ∃ sd, suite cs = .ok sd) {i : Nat} (hlt : 2 * i < t.length) {path : UpdatePath} {h' : Heap} {t' : RTree}
    (hx : mergeUpdatePath pr cs h t i path = .ok (h', t')) :
    ∀ x q, nodeAt (derefTree h' t') x = some (.parent q) → ∀ u ∈ q.unmergedLeaves, Over (u.toNat % 2 ^ 31) x := by
  obtain ⟨d, s, s', hpm⟩ := path_merged hc hsd hv hlt hx
  obtain ⟨-, hs, hu⟩ := treeApply_effect (.inr hi.tree) ht
  have hg := treeApply_grown ht
  have hn := fun {x q} => applied_nodes (x := x) (q := q) hi.tree.owned hs hg hu
  intro x q hq u hu'
  by_cases ha : IsAncestor d i x
  · by_cases hF : x ∈ s'.filteredPath 0 i
    · obtain ⟨e, he, hxe⟩ := List.mem_iff_getElem.1 hF
      obtain ⟨ph, hnode⟩ := hpm.onPath e x (path.nodes[e]'(by rw [← hpm.length]; exact he))
        (by rw [List.getElem?_eq_getElem he, hxe]) (List.getElem?_eq_getElem _)
      rw [hq] at hnode
      cases hnode
      simp at hu'
    · have := hpm.blanked x ha hF
      rw [hq] at this
      cases this
  · have hne : x ≠ 2 * i := by
      rintro rfl
      rw [hpm.newLeaf] at hq
      cases hq
    rw [hpm.offPath x hne ha] at hq
    obtain ⟨q0, g1, _, g3⟩ := hn hq
    rcases g3 u hu' with hm' | hm'
    · exact hi.unmerged x q0 g1 u hm'
    · exact hm'

theorem copyPrivTree_iff {pt pt' : List (Option Bytes)} {a b : Nat} (hl : pt.length = a) (h : copyPrivTree pt a b = .ok pt')
    (y : Nat) (k : Bytes) : pt'[y]? = some (some k) ↔ (pt.take b)[y]? = some (some k) := by
  obtain ⟨h1, h2⟩ := copyPrivTree_ok h
  constructor
  · intro hy
    rw [List.getElem?_take_of_lt (by rw [← h1]; exact (List.getElem?_eq_some_iff.1 hy).1)]
    exact h2 y k hy
  · intro hy
    have hlt := (List.getElem?_eq_some_iff.1 hy).1
    rw [List.length_take] at hlt
    rw [List.getElem?_take_of_lt (by omega)] at hy
    rw [copyPrivTree_get h (by omega) (by omega)]
    exact hy

theorem isCommit_iff {l : LeafNode} : l.isCommit = true ↔ ∃ ph, l.source = .commit ph := by
  unfold LeafNode.isCommit
  cases l.source <;> simp

/-- commitPath accepts a path exactly when it is good for the receiver. -/
theorem commitPath_iff (hc : pr.Correct) {st : GroupState} (hi : GroupInv pr st) {sd : SuiteDesc}
    (hsd : suite st.group.groupContext.cipherSuite = .ok sd) {ps : List Proposal} {ss : List UInt32} {h : Heap} {t : RTree}
    (ht : treeApply st.heap st.group.tree ps ss = .ok (h, t)) {d : Nat} (hd : d ≤ 31) {s : Ratchet ParentNode d} (hs : Holds h t s)
    {pt : List (Option Bytes)} (hpt : copyPrivTree st.group.privTree st.group.tree.length t.length = .ok pt) (sender : UInt32)
    (path : UpdatePath) (now : GoTime) (th : Bytes) :
    (∃ h' t' pt' sec, commitPath pr st.group.groupContext { st.group.groupContext with epoch := st.group.groupContext.epoch + 1 } h t
        sender st.group.myLeafIndex pt path now =
      .ok (h', t', { st.group.groupContext with epoch := st.group.groupContext.epoch + 1, treeHash := th }, pt', sec)) ↔
    ∃ s', Spec.PathOk pr sd st.group.groupContext now s s' sender st.group.myLeafIndex.toNat
      (st.group.privTree.take (2 ^ (d + 1) - 1)) path th := by
  have hi31 : sender.toNat % 2 ^ 31 < 2 ^ 31 := Nat.mod_lt _ (by decide)
  have hlen := hs.length
  have hmem := members_eq hd hs.flat
  have hke : treeKeys (derefTree h t) = .ok ((s.leaves.filterMap id).map LeafNode.signatureKey,
      (s.leaves.filterMap id).map LeafNode.encryptionKey) := by
    unfold treeKeys
    rw [hmem]
    rfl
  have hcr : supportedCreds (derefTree h t) = .ok (((s.leaves.filterMap id).flatMap fun l => l.capabilities.credentials).filter fun ct =>
      ((s.leaves.filterMap id).flatMap fun l => l.capabilities.credentials).count ct == (s.leaves.filterMap id).length) := by
    unfold supportedCreds
    rw [hmem]
    rfl
  have hleaves : ∀ l, l ∈ s.leaves.filterMap id ↔ some l ∈ s.leaves := by simp
  have hkeys := copyPrivTree_iff hi.length hpt
  have hptl := (copyPrivTree_ok hpt).1
  rw [hlen] at hkeys hptl
  -- the rest, once the committer's old leaf is known
  have key : ∀ old, getLeaf (derefTree h t) (sender.toNat % 2 ^ 31) = .ok (some old) → sender.toNat % 2 ^ 31 < 2 ^ d →
      s.leaves[sender.toNat % 2 ^ 31]? = some (some old) := by
    intro old ho hlt
    obtain ⟨o, g1, _, g2⟩ := getLeaf_at hd hs.flat hlt
    rw [ho] at g1
    rw [g2, ← Res.ok.inj g1]
  have hread : ∀ (s' : Ratchet ParentNode d) (h' : Heap) (t' : RTree), Holds h' t' s' → sender.toNat % 2 ^ 31 < 2 ^ d →
      mergeUpdatePath pr st.group.groupContext.cipherSuite h t (sender.toNat % 2 ^ 31) path = .ok (h', t') →
      ((∃ x, decryptPathSecrets pr st.group.groupContext.cipherSuite (derefTree h' t')
          { st.group.groupContext with epoch := st.group.groupContext.epoch + 1, treeHash := th } (sender.toNat % 2 ^ 31)
          st.group.myLeafIndex.toNat path pt = .ok x) ↔
        ∃ provisional e ps, (Spec.Rfc.groupContext { st.group.groupContext with
            epoch := st.group.groupContext.epoch + 1, treeHash := th }).bytes = some provisional ∧
          provisional.length < 2 ^ 30 ∧ Spec.PathReadable pr sd s' provisional (sender.toNat % 2 ^ 31) st.group.myLeafIndex.toNat path
            (st.group.privTree.take (2 ^ (d + 1) - 1)) e ps) := by
    intro s' h' t' hs' hlt hm
    have hu := merged_unmerged hc hi ht (hs.valid hd) ⟨sd, hsd⟩ (by rw [hlen, Nat.pow_succ]; omega) hm
    rw [hs'.flat] at hu ⊢
    have := decryptPathSecrets_iff (ctx := { st.group.groupContext with
      epoch := st.group.groupContext.epoch + 1, treeHash := th }) (path := path) hc hsd hd hlt hi.own_lt hptl hu
    rw [this]
    constructor
    · rintro ⟨raw, e, ps, g1, g2, g3⟩
      exact ⟨raw, e, ps, context_some.2 g1, g2, g3.congr hkeys⟩
    · rintro ⟨raw, e, ps, g1, g2, g3⟩
      exact ⟨raw, e, ps, context_some.1 g1, g2, g3.congr fun y k => (hkeys y k).symm⟩
  constructor
  · rintro ⟨h', t', pt', sec, hp⟩
    unfold commitPath at hp
    simp only [hke, hcr, Res.ok_bind, Res.bind_ok_iff, Res.guardErr_ok_iff, Res.deref_ok_iff, Res.pure_eq] at hp
    obtain ⟨_, hsrc, o, hget, old, rfl, _, hv, _, hk, ⟨h2, t2⟩, hmg, th', hth, ⟨sec', pt2⟩, hdec, he⟩ := hp
    cases he
    rw [getLeaf_mod] at hget
    rw [mergeUpdatePath_mod] at hmg
    rw [decryptPathSecrets_mod] at hdec
    have hin : sender.toNat % 2 ^ 31 < 2 ^ d := by
      have := nodeOfLeaf_idx hi31
      have hg := getLeaf_ok_some_iff.1 hget
      rw [this, idx_zero] at hg
      have := (List.getElem?_eq_some_iff.1 hg).1
      rw [derefTree_length, hlen, Nat.pow_succ] at this
      omega
    obtain ⟨m1, m2⟩ := mergeUpdatePath_spec hc hsd hd hin hs path
    cases hms : s.mergePath (pr.hash sd.hash) (sender.toNat % 2 ^ 31) path with
    | none => exact absurd hmg (m2 hms _)
    | some s' =>
      obtain ⟨h3, t3, k1, k2, _⟩ := m1 s' hms
      rw [hmg] at k1
      obtain ⟨rfl, rfl⟩ := Prod.mk.inj (Res.ok.inj k1)
      have hv' := (leafVerify_iff (ctx := st.group.groupContext) (i := sender.toNat)).1
        (by rw [UInt32.ofNat_toNat]; exact hv)
      obtain ⟨⟨hv1, hv2⟩, hv3, hv4⟩ := hv'
      refine ⟨s', hin, isCommit_iff.1 hsrc, hv1, ?_, ⟨old, key old hget hin, ?_⟩, fun m hm => ⟨?_, fun n hn => ?_⟩, hms, ?_,
        (hread s' _ _ k2 hin hmg).1 ⟨_, hdec⟩⟩
      · rw [List.mem_filter] at hv2
        simpa using hv2.2
      · by_cases hq : path.leafNode.signatureKey = old.signatureKey
        · exact .inl hq
        · refine .inr fun m hm hmk => hv3 (List.mem_filter.2 ⟨List.mem_map.2 ⟨m, (hleaves m).2 hm, hmk⟩, ?_⟩)
          simpa using hq
      · exact fun he => hv4 (List.mem_map.2 ⟨m, (hleaves m).2 hm, he⟩)
      · intro he
        have := List.all_eq_true.1 hk n hn
        simp only [Bool.not_eq_true', List.contains_eq_mem, decide_eq_false_iff_not] at this
        exact this (List.mem_map.2 ⟨m, (hleaves m).2 hm, he⟩)
      · rw [k2.flat] at hth
        exact (computeRootTreeHash_iff hc hsd hd s' _).1 hth
  · rintro ⟨s', g⟩
    have hin := g.inside
    obtain ⟨old, ho, hsig⟩ := g.signatureKey
    obtain ⟨o, g1, _, g2⟩ := getLeaf_at hd hs.flat hin
    rw [ho, Option.some.injEq] at g2
    subst g2
    obtain ⟨h2, t2, k1, k2, _⟩ := (mergeUpdatePath_spec hc hsd hd hin hs path).1 s' g.merged
    obtain ⟨⟨sec, pt'⟩, hdec⟩ := (hread s' _ _ k2 hin k1).2 g.opens
    have hth := (computeRootTreeHash_iff hc hsd hd s' _).2 g.treeHash
    rw [← k2.flat] at hth
    have hmo : old ∈ s.leaves.filterMap id := (hleaves old).2 (List.mem_of_getElem? ho)
    have hv := (leafVerify_iff (pr := pr) (ctx := st.group.groupContext) (i := sender.toNat) (now := now) (l := path.leafNode)
      (creds := ((s.leaves.filterMap id).flatMap fun l => l.capabilities.credentials).filter fun ct =>
        ((s.leaves.filterMap id).flatMap fun l => l.capabilities.credentials).count ct == (s.leaves.filterMap id).length)
      (sigs := ((s.leaves.filterMap id).map LeafNode.signatureKey).filter (· != old.signatureKey))
      (encs := (s.leaves.filterMap id).map LeafNode.encryptionKey)).2
      ⟨⟨g.leaf, List.mem_filter.2 ⟨List.count_pos_iff.1 (by rw [g.credential]; exact List.length_pos_of_mem hmo), by
        simpa using g.credential⟩⟩, by
        intro hm
        rw [List.mem_filter] at hm
        obtain ⟨hm, hne⟩ := hm
        obtain ⟨m, hm, he⟩ := List.mem_map.1 hm
        rcases hsig with hsig | hsig
        · simp [hsig] at hne
        · exact hsig m ((hleaves m).1 hm) he, by
        intro hm
        obtain ⟨m, hm, he⟩ := List.mem_map.1 hm
        exact (g.encryptionKeys m ((hleaves m).1 hm)).1 he⟩
    rw [UInt32.ofNat_toNat] at hv
    have hall : (path.nodes.all fun n => !((s.leaves.filterMap id).map LeafNode.encryptionKey).contains n.encryptionKey) = true := by
      rw [List.all_eq_true]
      intro n hn
      simp only [Bool.not_eq_true', List.contains_eq_mem, decide_eq_false_iff_not]
      intro hm
      obtain ⟨m, hm, he⟩ := List.mem_map.1 hm
      exact (g.encryptionKeys m ((hleaves m).1 hm)).2 n hn he
    refine ⟨h2, t2, pt', sec, ?_⟩
    rw [← getLeaf_mod] at g1
    rw [← mergeUpdatePath_mod] at k1
    rw [← decryptPathSecrets_mod] at hdec
    unfold commitPath
    simp only [isCommit_iff.2 g.source, g1, hke, hcr, hv, hall, k1, hth, hdec, Res.guardErr_true, Res.ok_bind, Res.deref, Res.pure_eq]

end Mls
