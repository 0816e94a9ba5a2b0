import Verif.Proofs.FineCalls
import Verif.Proofs.FollowCommit
import Verif.Proofs.Removed
/-
Which calls can panic: the functions on ratchet trees.
-/
namespace Mls

open Spec (Ratchet nodeAt IsAncestor)

variable {pr : Prims}

/-! ### Trees whose leaves can be written -/

/-- Every leaf has a credential of a type that can be written. -/
def KnownTree (t : VTree) : Prop := ∀ (x : Nat) l, t[x]? = some (some (.leaf l)) → l.credential.Known

/-- Every leaf of a tree of references satisfies `P`. -/
def AllLeaves (P : LeafNode → Prop) (t : RTree) : Prop := ∀ (x : Nat) l, t[x]? = some (some (.leaf l)) → P l

/-- The same of a tree of references. -/
abbrev KnownLeaves (t : RTree) : Prop := AllLeaves (fun l => l.credential.Known) t

theorem derefTree_leaf {h : Heap} {t : RTree} {x : Nat} {l : LeafNode} :
    (derefTree h t)[x]? = some (some (.leaf l)) ↔ t[x]? = some (some (.leaf l)) := by
  rw [derefTree_get]
  cases t[x]? with
  | none => simp
  | some o =>
    cases o with
    | none => simp
    | some n => cases n <;> simp [TNode.deref]

/-- Every signature key in the tree can be read. -/
def ReadableTree (pr : Prims) (cs : UInt16) (t : VTree) : Prop :=
  ∀ (x : Nat) l, t[x]? = some (some (.leaf l)) → Spec.Readable pr cs l.signatureKey

theorem KnownLeaves.deref {t : RTree} (hk : KnownLeaves t) (h : Heap) : KnownTree (derefTree h t) :=
  fun x l hx => hk x l (derefTree_leaf.1 hx)

theorem KnownLeaves.of_deref {h : Heap} {t : RTree} (hk : KnownTree (derefTree h t)) : KnownLeaves t :=
  fun x l hx => hk x l (derefTree_leaf.2 hx)

section
variable {P : LeafNode → Prop}

theorem AllLeaves.from {t t' : RTree} (hk : AllLeaves P t) (h : From t' t) : AllLeaves P t' :=
  fun x l hx => hk x l (h x _ hx)

theorem AllLeaves.set_leaf {t : RTree} (hk : AllLeaves P t) (x : Nat) {l : LeafNode} (hl : P l) :
    AllLeaves P (t.set x (some (.leaf l))) := by
  intro y l' hy
  rw [List.getElem?_set] at hy
  split at hy
  · split at hy
    · cases hy; exact hl
    · cases hy
  · exact hk y l' hy

theorem AllLeaves.grow {t : RTree} (hk : AllLeaves P t) (n : Nat) : AllLeaves P (t ++ List.replicate n none) := by
  intro y l hy
  rcases Nat.lt_or_ge y t.length with h | h
  · rw [List.getElem?_append_left h] at hy
    exact hk y l hy
  · rw [List.getElem?_append_right h, List.getElem?_replicate] at hy
    split at hy <;> simp at hy

theorem blankAncestors_from {n : Nat} : ∀ (fuel : Nat) (t : RTree) (x : Nat) (t' : RTree),
    blankAncestors n fuel t x = .ok t' → From t' t := by
  intro fuel
  induction fuel with
  | zero => intro t x t' h; simp [blankAncestors] at h
  | succ fuel ih =>
    intro t x t' h
    unfold blankAncestors at h
    split at h
    · cases h; exact fun _ _ hx => hx
    · simp only [Res.bind_ok_iff] at h
      obtain ⟨t1, h1, h⟩ := h
      obtain ⟨_, rfl⟩ := Res.setIdx_ok_iff.1 h1
      exact From.trans (ih _ _ _ h) (From.set_none _ _)

theorem AllLeaves.update {t t' : RTree} (hk : AllLeaves P t) {li : Nat} {l : LeafNode} (hl : P l)
    (h : treeUpdate t li l = .ok t') : AllLeaves P t' := by
  unfold treeUpdate at h
  simp only [Res.bind_ok_iff] at h
  obtain ⟨t1, h1, h⟩ := h
  obtain ⟨_, rfl⟩ := Res.setIdx_ok_iff.1 h1
  exact (hk.set_leaf _ hl).from (blankAncestors_from _ _ _ _ h)

theorem AllLeaves.add {h h' : Heap} {t t' : RTree} (hk : AllLeaves P t) {l : LeafNode} (hl : P l)
    (he : treeAdd h t l = .ok (h', t')) : AllLeaves P t' := by
  unfold treeAdd at he
  simp only [Res.bind_ok_iff] at he
  obtain ⟨⟨li, found⟩, _, h1, _, t1, h2, he⟩ := he
  cases he
  obtain ⟨_, rfl⟩ := Res.setIdx_ok_iff.1 h2
  refine AllLeaves.set_leaf ?_ _ hl
  split
  · exact hk
  · exact hk.grow _

theorem AllLeaves.apply {h h' : Heap} {t t' : RTree} (hk : AllLeaves P t) {ps : List Proposal} {ss : List UInt32}
    (hup : ∀ l, .update l ∈ ps → P l) (had : ∀ k, .add k ∈ ps → P k.leafNode) (he : treeApply h t ps ss = .ok (h', t')) : AllLeaves P t' := by
  unfold treeApply at he
  simp only [Res.bind_ok_iff] at he
  obtain ⟨t1, h1, t2, h2, he⟩ := he
  have hu : ∀ (ps : List Proposal) (i : Nat) (t t' : RTree), (∀ l, .update l ∈ ps → P l) → AllLeaves P t →
      applyUpdates ss i ps t = .ok t' → AllLeaves P t' := by
    intro ps
    induction ps with
    | nil => intro i t t' _ hk h; simp only [applyUpdates] at h; cases h; exact hk
    | cons p ps ih =>
      intro i t t' hp hk h
      have hps := fun q hq => hp q (List.mem_cons_of_mem _ hq)
      cases p with
      | update leaf =>
        simp only [applyUpdates, Res.bind_ok_iff] at h
        obtain ⟨s, _, t1, h1, h⟩ := h
        exact ih _ _ _ hps (hk.update (hp _ List.mem_cons_self) h1) h
      | add | remove | psk | reInit | externalInit | groupContextExtensions => exact ih _ _ _ hps hk h
  have ha : ∀ (ps : List Proposal) (h : Heap) (t : RTree), (∀ k, .add k ∈ ps → P k.leafNode) → AllLeaves P t →
      applyAdds ps h t = .ok (h', t') → AllLeaves P t' := by
    intro ps
    induction ps with
    | nil => intro h t _ hk h; simp only [applyAdds] at h; cases h; exact hk
    | cons p ps ih =>
      intro h t hp hk he
      have hps := fun q hq => hp q (List.mem_cons_of_mem _ hq)
      cases p with
      | add k =>
        simp only [applyAdds, Res.bind_ok_iff] at he
        obtain ⟨⟨h1, t1⟩, h2, he⟩ := he
        exact ih _ _ hps (hk.add (hp _ List.mem_cons_self) h2) he
      | update | remove | psk | reInit | externalInit | groupContextExtensions => exact ih _ _ hps hk he
  exact ha _ _ _ had ((hu _ _ _ _ hup hk h1).from (applyRemoves_from _ _ _ h2)) he

end

theorem KnownLeaves.apply {h h' : Heap} {t t' : RTree} (hk : KnownLeaves t) {ps : List Proposal} {ss : List UInt32}
    (hp : ∀ p ∈ ps, p.Known) (he : treeApply h t ps ss = .ok (h', t')) : KnownLeaves t' :=
  AllLeaves.apply hk (fun l hl => hp _ hl) (fun k hk => hp _ hk) he

/-! ### Readers -/

theorem getLeaf_fine {v : VTree} (hv : Spec.IsTree v) {i : Nat} (hi : nodeOfLeaf i < v.length) : (getLeaf v i).Fine := by
  unfold getLeaf
  refine (idx_fine hi).bind fun o ho => ?_
  rw [Res.idx_ok_iff] at ho
  match o, ho with
  | none, _ => exact Res.fine_ok _
  | some (.leaf l), _ => exact Res.fine_ok _
  | some (.parent p), ho =>
    have := hv.2.2 _ _ ho
    unfold nodeOfLeaf at this
    omega

theorem members_fine {v : VTree} (hv : Spec.IsTree v) : (members v).Fine := by
  obtain ⟨d, hd, s, rfl⟩ := isTree_iff.1 hv
  exact .of_ok (members_eq hd rfl)

theorem supportedCreds_fine {v : VTree} (hv : Spec.IsTree v) : (supportedCreds v).Fine :=
  (members_fine hv).bind fun _ _ => Res.fine_ok _

theorem treeKeys_fine {v : VTree} (hv : Spec.IsTree v) : (treeKeys v).Fine :=
  (members_fine hv).bind fun _ _ => Res.fine_ok _

theorem computeTreeHashLoop_fine {cs : UInt16} {sd : SuiteDesc} (hd : suite cs = .ok sd)
    {t : VTree} (hlen : t.length < 2 ^ 32) (hkn : KnownTree t) (ex : List UInt32) {fuel k j : Nat} {s : Ratchet ParentNode k}
    (h : VAt t j s) (hk : k ≤ 31) (hf : k < fuel) : (computeTreeHashLoop pr cs t ex fuel (idx k j)).Fine := by
  induction s generalizing fuel j with
  | leaf n =>
    obtain ⟨fuel, rfl⟩ : ∃ f, fuel = f + 1 := ⟨fuel - 1, by omega⟩
    unfold VAt at h
    rw [At] at h
    rw [computeTreeHashLoop, (Res.idx_ok_iff.2 h : Res.idx t (idx 0 j) = .ok _)]
    simp only [Res.ok_bind, leafOfNode_idx_zero, hashedLeaf_spec, hd]
    refine Res.Fine.bind ?_ fun _ _ => Res.fine_ok _
    unfold encLeafNodeHashInput
    refine enc_append_fine (enc_append_fine (addU8_fine _) (addU32_fine _)) ?_
    split
    · next l hl =>
      refine enc_append_fine (writeOptional_fine _) (leafNode_enc_fine ?_)
      cases n with
      | none => simp at hl
      | some l' =>
        split at hl
        · cases hl
        · cases hl
          exact hkn _ _ h
    · exact writeOptional_fine _
  | @node k p l r ihl ihr =>
    obtain ⟨fuel, rfl⟩ : ∃ f, fuel = f + 1 := ⟨fuel - 1, by omega⟩
    have hlt := at_root h
    rw [computeTreeHashLoop, (Res.idx_ok_iff.2 h.1 : Res.idx t (idx (k + 1) j) = .ok _)]
    simp only [Res.ok_bind, leafOfNode_idx_succ]
    rw [children_idx_succ (by omega) (by omega)]
    simp only [hashedParent_spec, Res.ok_bind, hd]
    refine Res.Fine.bind ((ihl h.2.1 (by omega) (by omega)).bind fun _ _ => (ihr h.2.2 (by omega) (by omega)).bind fun _ _ => ?_)
      fun _ _ => Res.fine_ok _
    unfold encParentNodeHashInput
    refine enc_append_fine (enc_append_fine (enc_append_fine (addU8_fine _) ?_) (writeOpaqueVec_fine _)) (writeOpaqueVec_fine _)
    split
    · exact enc_append_fine (writeOptional_fine _) (parentNode_enc_fine _)
    · exact writeOptional_fine _

theorem computeTreeHash_fine {cs : UInt16} {sd : SuiteDesc} (hd : suite cs = .ok sd) {v : VTree} (hv : Spec.IsTree v)
    (hkn : KnownTree v) {x : Nat} (hx : x < v.length) (ex : List UInt32) : (computeTreeHash pr cs v x ex).Fine := by
  obtain ⟨d, hd31, s, rfl⟩ := isTree_iff.1 hv
  have hx' := hx
  rw [flat_length] at hx'
  obtain ⟨m, y, hb, rfl⟩ := exists_below hx'
  obtain ⟨s', hs'⟩ := at_sub (at_flat Node.leaf Node.parent s) hb
  have := hb.1
  exact computeTreeHashLoop_fine hd (vflat_lt hd31 s) hkn ex hs' (by omega) (by omega)

theorem computeRootTreeHash_fine {cs : UInt16} {sd : SuiteDesc} (hd : suite cs = .ok sd) {v : VTree} (hv : Spec.IsTree v)
    (hkn : KnownTree v) : (computeRootTreeHash pr cs v).Fine := by
  refine computeTreeHash_fine hd hv hkn ?_ []
  obtain ⟨d, hd31, s, rfl⟩ := isTree_iff.1 hv
  rw [vflat_numLeaves hd31, root_idx hd31, flat_length]
  exact Below.lt ⟨Nat.le_refl _, by simp⟩

/-! ### Merging a path -/

/-- The conditions on the tree of references, whatever the heap. -/
structure Shaped (t : RTree) : Prop where
  complete : ∃ d, d ≤ 31 ∧ t.length = 2 ^ (d + 1) - 1
  leaves : ∀ (x : Nat) l, t[x]? = some (some (.leaf l)) → x % 2 = 0
  parents : ∀ (x p : Nat), t[x]? = some (some (.parent p)) → x % 2 = 1
  known : KnownLeaves t

theorem Shaped.of {h : Heap} {t : RTree} (hv : ValidTree h t) (hk : KnownLeaves t) : Shaped t :=
  ⟨hv.complete, fun _ _ hx => hv.leaves hx, fun _ _ hx => hv.parents hx, hk⟩

theorem Shaped.isTree {t : RTree} (hs : Shaped t) (h : Heap) : Spec.IsTree (derefTree h t) := by
  refine ⟨by rw [derefTree_length]; exact hs.complete, fun x l hx => hs.leaves x l (derefTree_leaf.1 hx), fun x q hx => ?_⟩
  obtain ⟨p, hp, _⟩ := nodeAt_parent.1 (nodeAt_eq hx)
  exact hs.parents x p hp

/-- A tree of the same length whose new nodes are parents at odd places. -/
theorem Shaped.of_parents {t t' : RTree} (hs : Shaped t) (hl : t'.length = t.length)
    (h : ∀ (x : Nat) n, t'[x]? = some (some n) → t[x]? = some (some n) ∨ x % 2 = 1 ∧ ∃ p, n = .parent p) : Shaped t' := by
  refine ⟨by rw [hl]; exact hs.complete, fun x l hx => ?_, fun x p hx => ?_, fun x l hx => ?_⟩
  · rcases h x _ hx with h | ⟨_, p, h⟩
    · exact hs.leaves x l h
    · cases h
  · rcases h x _ hx with h | ⟨h, _⟩
    · exact hs.parents x p h
    · exact h
  · rcases h x _ hx with h | ⟨_, p, h⟩
    · exact hs.known x l h
    · cases h

theorem children_inside {d x : Nat} (hd : d ≤ 31) (hx : x < 2 ^ (d + 1) - 1) (ho : x % 2 = 1) :
    ∃ l r, children x = some (l, r) ∧ l < 2 ^ (d + 1) - 1 ∧ r < 2 ^ (d + 1) - 1 := by
  obtain ⟨m, y, hb, rfl⟩ := exists_below hx
  cases m with
  | zero => rw [idx_zero] at ho; omega
  | succ m =>
    have h1 := hb.1
    have h2 := pow_tree_lt hd
    have hsub : ∀ b, b / 2 = y → Below d 0 m b := fun b hb' =>
      hb.trans ⟨by omega, by rw [Nat.add_sub_cancel_left, Nat.pow_one]; exact hb'⟩
    exact ⟨_, _, children_idx_succ (by omega) (by omega), (hsub (2 * y) (by omega)).lt, (hsub (2 * y + 1) (by omega)).lt⟩

theorem computeParentHash_fine {cs : UInt16} {sd : SuiteDesc} (hd : suite cs = .ok sd) (q : ParentNode) (b : Bytes) :
    (q.computeParentHash pr cs b).Fine := by
  unfold ParentNode.computeParentHash
  refine Res.Fine.bind (by unfold encParentHashInput; enc_fine) fun _ _ => ?_
  rw [hd]
  exact Res.fine_ok _

theorem parentHashLoop_fine {cs : UInt16} {sd : SuiteDesc} (hd : suite cs = .ok sd) {t : RTree} (hs : Shaped t) (dp : List Nat)
    (sender : Nat) : ∀ (nis : List Nat) (h : Heap) (prev : Bytes), (∀ x ∈ nis, ∃ p, t[x]? = some (some (.parent p))) →
    (parentHashLoop pr cs dp sender t nis h prev).Fine := by
  intro nis
  induction nis with
  | nil => intro h prev _; exact Res.fine_ok _
  | cons ni nis ih =>
    intro h prev hn
    obtain ⟨p, hp⟩ := hn ni List.mem_cons_self
    obtain ⟨d, hd31, hl⟩ := hs.complete
    have hlt := (List.getElem?_eq_some_iff.1 hp).1
    obtain ⟨l, r, hch, h1, h2⟩ := children_inside hd31 (by omega) (hs.parents _ _ hp)
    rw [parentHashLoop, Res.idx_ok_iff.2 hp, Res.ok_bind, hch]
    dsimp only [Res.deref, Res.ok_bind]
    refine Res.Fine.bind (computeTreeHash_fine hd (hs.isTree h) (hs.known.deref h) ?_ []) fun _ _ => ?_
    · rw [derefTree_length, hl]
      unfold pathSibling
      split <;> assumption
    · exact (computeParentHash_fine hd _ _).bind fun _ _ => ih _ _ fun x hx => hn x (List.mem_cons_of_mem _ hx)

theorem mergeUpdatePath_fine {cs : UInt16} {sd : SuiteDesc} (hd : suite cs = .ok sd) {t : RTree} (hs : Shaped t) (h : Heap) {i : Nat}
    (hi : nodeOfLeaf i < t.length) (path : UpdatePath) : (mergeUpdatePath pr cs h t i path).Fine := by
  rw [mergeUpdatePath_mod]
  rw [nodeOfLeaf_mod] at hi
  generalize hj : i % 2 ^ 31 = j at hi
  have hj31 : j < 2 ^ 31 := by rw [← hj]; exact Nat.mod_lt _ (by decide)
  rw [nodeOfLeaf_idx hj31] at hi
  obtain ⟨d, hd31, hl⟩ := hs.complete
  have hjd : j < 2 ^ d := by rw [idx_zero, hl, Nat.pow_succ] at hi; omega
  have h0 : j / 2 ^ d = 0 := Nat.div_eq_of_lt hjd
  have hdp : directPath (treeNumLeaves t) (idx 0 j) = .ok (upPath d 0 j) := by
    rw [numLeaves_pow hd31 hl]
    have := directPath_idx (k := 0) (j := j) hd31 (by omega) (by simpa using h0)
    simpa using this
  have hpathlt : ∀ x ∈ upPath d 0 j, x < t.length := by
    intro x hx
    obtain ⟨m, h1, h2, rfl⟩ := mem_path.1 hx
    rw [hl]
    exact (below_root h2 hjd).lt
  have hodd : ∀ x ∈ upPath d 0 j, x % 2 = 1 := by
    intro x hx
    obtain ⟨m, h1, h2, rfl⟩ := mem_path.1 hx
    obtain ⟨m, rfl⟩ : ∃ m', m = m' + 1 := ⟨m - 1, by omega⟩
    exact idx_succ_odd _ _
  obtain ⟨t1, b1, b2, b3⟩ := blankAll_spec hpathlt
  have hs1 : Shaped t1 := hs.of_parents b2 fun x n hx => by
    rw [b3] at hx
    split at hx
    · simp at hx
    · exact .inl hx
  obtain ⟨d', hd', s, hflat⟩ := isTree_iff.1 (hs1.isTree h)
  obtain rfl : d' = d := by
    have := congrArg List.length hflat
    rw [flat_length, derefTree_length, b2, hl] at this
    exact (tree_depth_eq this).symm
  have hfdp : filteredDirectPath (derefTree h t1) (idx 0 j) = .ok (s.filteredPath 0 j) := by
    rw [hflat, filteredDirectPath_spec hd31 hjd]
  generalize hFdef : s.filteredPath 0 j = F at hfdp
  have hFmem : ∀ x ∈ F, x ∈ upPath d' 0 j := by
    intro x hx
    refine mem_filteredPath h0 (s := s) ?_
    rw [Nat.zero_mul, Nat.zero_mul, Nat.sub_zero, hFdef]
    exact hx
  have hFnodup : F.Nodup := by
    have := filteredPath_nodup (s := s) h0
    rwa [Nat.zero_mul, Nat.zero_mul, Nat.sub_zero, hFdef] at this
  unfold mergeUpdatePath
  dsimp only
  rw [nodeOfLeaf_idx hj31, hdp, Res.ok_bind, b1, Res.ok_bind, hfdp, Res.ok_bind]
  refine (Res.fine_guardErr _).bind fun _ hg => ?_
  rw [Res.guardErr_ok_iff, beq_iff_eq] at hg
  obtain ⟨t2, s1, s2, s3, s4⟩ := setPathNodes_spec (h := h) (t := t1) (ns := path.nodes) hFnodup
    (fun x hx => by rw [b2]; exact hpathlt x (hFmem x hx)) hg
  rw [s1]
  have hnew : ∀ x ∈ F, ∃ p, t2[x]? = some (some (.parent p)) := by
    intro x hx
    obtain ⟨a, ha, rfl⟩ := List.mem_iff_getElem.1 hx
    exact ⟨_, s4 a _ (List.getElem?_eq_getElem ha)⟩
  have hs2 : Shaped t2 := hs1.of_parents s2 fun x n hx => by
    by_cases hxF : x ∈ F
    · obtain ⟨p, hp⟩ := hnew x hxF
      rw [hp] at hx
      cases hx
      exact .inr ⟨hodd x (hFmem x hxF), p, rfl⟩
    · rw [s3 x hxF] at hx
      exact .inl hx
  simp only [Res.ok_bind]
  refine Res.Fine.bind (parentHashLoop_fine hd hs2 _ _ _ _ _ fun x hx => hnew x (List.mem_reverse.1 hx)) fun _ _ =>
    (Res.fine_guardErr _).bind fun _ _ => (setIdx_fine (by rw [s2, b2]; exact hi)).bind fun _ _ => Res.fine_ok _

/-- The tree after the merge. -/
theorem AllLeaves.merge {P : LeafNode → Prop} (hc : pr.Correct) {cs : UInt16} (hsd : ∃ sd, suite cs = .ok sd) {h h' : Heap} {t t' : RTree}
    (hv : ValidTree h t) (hk : AllLeaves P t) {i : Nat} (hlt : 2 * i < t.length) {path : UpdatePath}
    (hp : P path.leafNode) (hm : mergeUpdatePath pr cs h t i path = .ok (h', t')) : AllLeaves P t' := by
  obtain ⟨d, s, s', hm⟩ := path_merged hc hsd hv hlt hm
  intro x l hx
  rw [← derefTree_leaf (h := h')] at hx
  have hat := nodeAt_eq hx
  have heven : x % 2 = 0 := (isTree_iff.2 ⟨d, hm.depth, s', hm.after.flat⟩).2.1 x l hx
  by_cases hxi : x = 2 * i
  · rw [hxi, hm.newLeaf] at hat
    cases hat
    exact hp
  · rw [hm.offPath x hxi fun ha => by have := (IsAncestor.over hm.sender ha).odd; omega] at hat
    exact hk x l (derefTree_leaf.1 (nodeAt_some.1 hat))

/-! ### Reading the path secrets -/

theorem nodePriv_fine (hc : pr.Correct) {cs : UInt16} (hs : supported cs = .ok true) (ps pub : Bytes) :
    (nodePrivFromPathSecret pr cs ps pub).Fine := by
  obtain ⟨d, hd⟩ : ∃ d, suite cs = .ok d := by
    unfold supported at hs
    cases hdesc : cipherSuiteDescriptions cs with
    | none => rw [hdesc] at hs; simp at hs
    | some d => exact ⟨d, suite_ok_iff.2 hdesc⟩
  obtain ⟨x, h1, h2⟩ := C41_derive_key_pair pr hc cs ((C41_known cs).1 ⟨d, hd⟩) ps lblNode (by decide)
  unfold nodePrivFromPathSecret
  rw [h1, Res.ok_bind]
  refine Res.Fine.bind ⟨fun hp => ?_, fun hp => ?_⟩ fun _ _ => ?_
  · rw [h2.1 hp] at hs
    cases hs
  · unfold deriveEncryptionKeyPair at hp
    rw [hd] at hp
    simp only [Res.ok_bind] at hp
    split at hp <;> simp at hp
  · dsimp only
    split
    · exact Res.fine_ok _
    · exact Res.fine_err

theorem findPriv_fine {pt : List (Option Bytes)} : ∀ (xs : List Nat) (i : Nat), (∀ x ∈ xs, x < pt.length) →
    (findPriv pt i xs).Fine ∧ ∀ j k, findPriv pt i xs = .ok (some (j, k)) → j < i + xs.length := by
  intro xs
  induction xs with
  | nil => intro i _; exact ⟨Res.fine_ok _, by simp [findPriv]⟩
  | cons x xs ih =>
    intro i hx
    have h1 := hx x List.mem_cons_self
    obtain ⟨e1, e2⟩ := ih (i + 1) fun y hy => hx y (List.mem_cons_of_mem _ hy)
    rw [findPriv, Res.idx_ok_iff.2 (List.getElem?_eq_getElem h1)]
    simp only [Res.ok_bind]
    cases pt[x] with
    | some p =>
      refine ⟨Res.fine_ok _, fun j k h => ?_⟩
      cases h
      simp
    | none =>
      refine ⟨e1, fun j k h => ?_⟩
      have := e2 j k h
      rw [List.length_cons]
      omega

theorem nodeKey_fine {v : VTree} {x : Nat} {n : Node} (h : nodeAt v x = some n) : (nodeKey v x).Fine := by
  rw [nodeAt_some] at h
  unfold nodeKey
  rw [Res.idx_ok_iff.2 h]
  exact Res.fine_ok _

theorem pathSecretLoop_fine (hc : pr.Correct) {cs : UInt16} {sd : SuiteDesc} (hd : suite cs = .ok sd)
    (hs : supported cs = .ok true) {v : VTree} : ∀ (nis : List Nat) (ps : Bytes) (pt : List (Option Bytes)),
    pt.length = v.length → (∀ x ∈ nis, ∃ n, nodeAt v x = some n) → (pathSecretLoop pr cs v nis ps pt).Fine := by
  intro nis
  induction nis with
  | nil => intro ps pt _ _; exact Res.fine_ok _
  | cons ni nis ih =>
    intro ps pt hl hn
    obtain ⟨n, hni⟩ := hn ni List.mem_cons_self
    have hlt := nodeAt_lt hni
    refine (deriveSecret_fine hd _ _).bind fun _ _ => (nodeKey_fine hni).bind fun _ _ => (nodePriv_fine hc hs _ _).bind fun _ _ =>
      (setIdx_fine (by omega)).bind fun pt' hpt => ih _ _ ?_ fun x hx => hn x (List.mem_cons_of_mem _ hx)
    rw [(Res.setIdx_ok_iff.1 hpt).2, List.length_set, hl]

theorem decryptPathSecrets_fine (hc : pr.Correct) {cs : UInt16} {sd : SuiteDesc} (hsd : suite cs = .ok sd)
    (hs : supported cs = .ok true) {d i r : Nat} (hd : d ≤ 31) (hi : i < 2 ^ d) (hr : r < 2 ^ 31) {s : Ratchet ParentNode d}
    {v : VTree} (hv : v = s.flat .leaf .parent)
    (hu : ∀ x q, nodeAt v x = some (.parent q) → ∀ u ∈ q.unmergedLeaves, Over (u.toNat % 2 ^ 31) x)
    (hF : ∀ x ∈ s.filteredPath 0 i, ∃ n, nodeAt v x = some n) (ctx : GroupContext)
    (path : UpdatePath) {pt : List (Option Bytes)} (hpt : pt.length = v.length) :
    (decryptPathSecrets pr cs v ctx i r path pt).Fine := by
  have h31 : i < 2 ^ 31 := leaf_lt hd hi
  obtain ⟨m, hmeet, hmin, hca⟩ := commonAncestor_leaves h31 hr
  have hlen : v.length = 2 ^ (d + 1) - 1 := by rw [hv, flat_length]
  unfold decryptPathSecrets
  dsimp only
  rw [nodeOfLeaf_idx h31, nodeOfLeaf_idx hr, hca, hv, filteredDirectPath_spec hd hi, ← hv, Res.ok_bind]
  refine (Res.fine_guardErr _).bind fun _ hg => ?_
  rw [Res.guardErr_ok_iff, beq_iff_eq] at hg
  cases hpos : List.idxOf? (idx m (i / 2 ^ m)) (s.filteredPath 0 i) with
  | none => exact Res.fine_err
  | some e =>
    rw [List.idxOf?, List.findIdx?_eq_some_iff_getElem] at hpos
    obtain ⟨he, heq, _⟩ := hpos
    simp only [beq_iff_eq] at heq
    have hmem : idx m (i / 2 ^ m) ∈ s.filteredPath 0 i := by rw [← heq]; exact List.getElem_mem he
    obtain ⟨m0, hm0, hmd, hx⟩ := mem_path.1 (mem_filteredPath (s := s) (i := i) (j := 0) (Nat.div_eq_of_lt hi)
      (by rw [Nat.zero_mul, Nat.zero_mul, Nat.sub_zero]; exact hmem))
    obtain ⟨rfl, -⟩ := idx_inj hx
    obtain ⟨e', rfl⟩ : ∃ e', m = e' + 1 := ⟨m - 1, by omega⟩
    have hapart : i / 2 ^ e' ≠ r / 2 ^ e' := fun hc => by
      have := hmin _ hc
      omega
    have hrd : r < 2 ^ d := by
      have h1 := div_pow_congr hmeet hmd
      rw [Nat.div_eq_of_lt hi] at h1
      exact (Nat.div_eq_zero_iff_lt (Nat.two_pow_pos d)).1 h1.symm
    have hcop := copath_child hd hmd hi hmeet hapart
    obtain ⟨sc, hsc⟩ := at_sub (at_flat Node.leaf Node.parent s) (below_root (k := e') (by omega) hrd)
    rw [← hv] at hsc
    have hres := resolve_spec (by rw [hlen]; exact pow_tree_lt hd) hsc (by omega)
    obtain ⟨n, hn⟩ := hF _ hmem
    have hlt := nodeAt_lt hn
    dsimp only
    refine (idx_fine (by omega)).bind fun pn _ => ?_
    rw [hcop]
    simp only [Res.deref, Res.ok_bind, hres]
    refine (Res.fine_guardErr _).bind fun _ hgl => ?_
    rw [Res.guardErr_ok_iff, beq_iff_eq] at hgl
    obtain ⟨f1, f2⟩ := findPriv_fine (pt := pt) (sc.resolution (r / 2 ^ e' * 2 ^ (e' + 1))) 0 fun x hx => by
      obtain ⟨a, b, hb, rfl⟩ := resolution_below hsc hu hx
      rw [hpt, hlen]
      exact ((below_root (k := e') (by omega) hrd).trans hb).lt
    refine f1.bind fun found hfound => ?_
    match found, hfound with
    | none, _ => exact Res.fine_err
    | some (j, k), hfound =>
      have hj := f2 _ _ hfound
      refine (idx_fine (by omega)).bind fun _ _ =>
        Res.Fine.bind (Res.Fine.bind (groupContext_enc_fine ctx) fun _ _ => decryptWithLabel_fine hsd _ _ _ _) fun _ _ =>
        (nodeKey_fine hn).bind fun _ _ => (nodePriv_fine hc hs _ _).bind fun _ _ =>
        (setIdx_fine (by omega)).bind fun pt' hpt' =>
        Res.Fine.bind (pathSecretLoop_fine hc hsd hs _ _ _ ?_ fun x hx => hF x (List.mem_of_mem_drop hx)) fun _ _ =>
        (deriveSecret_fine hsd _ _).bind fun _ _ => Res.fine_ok _
      rw [(Res.setIdx_ok_iff.1 hpt').2, List.length_set, hpt]

end Mls
