import Verif.Spec.History
import Verif.Props.Ratchet
import Verif.Props.Sharing
import Verif.Props.UpdatePath
import Verif.Props.Integrity
/-
What holds of every group in use: the ratchet tree is well formed, the unmerged leaves of a node are
below it, and the private keys held are those of nodes above the member's own leaf.
-/
namespace Mls

open Spec (Ratchet ITree nodeAt IsAncestor)

/-- Node `x` is above the leaf with index `i`, whatever the depth of the tree. -/
def Over (i x : Nat) : Prop := ∃ m, 0 < m ∧ x = idx m (i / 2 ^ m)

theorem IsAncestor.over {d i x : Nat} (hi : i < 2 ^ d) (h : IsAncestor d i x) : Over i x := by
  obtain ⟨m, h1, _, h2⟩ := mem_path.1 ((isAncestor_iff hi).1 h)
  exact ⟨m, h1, h2⟩

theorem idx_level_le {d m y : Nat} (h : idx m y < 2 ^ (d + 1) - 1) : m ≤ d := by
  by_contra hm
  have : 2 ^ (d + 1) ≤ 2 ^ m := Nat.pow_le_pow_right (by decide) (by omega)
  have := Nat.zero_le (2 ^ (m + 1) * y)
  unfold idx at h
  omega

/-- A node of the array above a leaf is one of its ancestors, and the leaf is in the array. -/
theorem Over.inside {d i x : Nat} (h : Over i x) (hx : x < 2 ^ (d + 1) - 1) : i < 2 ^ d ∧ IsAncestor d i x := by
  obtain ⟨m, hm, rfl⟩ := h
  have hmd := idx_level_le hx
  have hi : i < 2 ^ d := by
    have h1 : i / 2 ^ m / 2 ^ (d - m) = 0 := by
      obtain ⟨m', y, hb, he⟩ := exists_below hx
      obtain ⟨rfl, rfl⟩ := idx_inj he
      exact hb.2
    rw [Nat.div_div_eq_div_mul, ← Nat.pow_add, show m + (d - m) = d from by omega] at h1
    exact (Nat.div_eq_zero_iff_lt (Nat.two_pow_pos d)).1 h1
  exact ⟨hi, (isAncestor_iff hi).2 (mem_path.2 ⟨m, hm, hmd, rfl⟩)⟩

theorem Over.odd {i x : Nat} (h : Over i x) : x % 2 = 1 := by
  obtain ⟨m, hm, rfl⟩ := h
  obtain ⟨e, rfl⟩ : ∃ e, m = e + 1 := ⟨m - 1, by omega⟩
  exact idx_succ_odd _ _

/-! ### The effect of the proposals on the nodes -/

theorem treeUpdate_sub {t t' : RTree} {li : Nat} {leaf : LeafNode} (h : treeUpdate t li leaf = .ok t') : Sub t' t := by
  have key : ∀ (n fuel : Nat) (t : RTree) (x : Nat) (t' : RTree), blankAncestors n fuel t x = .ok t' → Sub t' t := by
    intro n fuel
    induction fuel with
    | zero => intro t x t' h; simp [blankAncestors] at h
    | succ fuel ih =>
      intro t x t' h
      unfold blankAncestors at h
      split at h
      · cases h; exact .refl _
      · simp only [Res.bind_ok_iff, Res.setIdx_ok_iff] at h
        obtain ⟨t1, ⟨_, rfl⟩, h⟩ := h
        exact (ih _ _ _ h).trans (Sub.set_none _ _)
  unfold treeUpdate at h
  simp only [Res.bind_ok_iff, Res.setIdx_ok_iff] at h
  obtain ⟨t1, ⟨_, rfl⟩, h⟩ := h
  exact (key _ _ _ _ _ h).trans (Sub.set_leaf _ _ _)

/-- What adding leaves does to the nodes of a tree `t0` sharing the heap. -/
def UnmergedFrom (h h' : Heap) (t : RTree) : Prop :=
  ∀ (p : Nat) (u : UInt32), u ∈ (h'.getD p default).unmergedLeaves → u ∈ (h.getD p default).unmergedLeaves ∨
    ∃ x, t[x]? = some (some (.parent p)) ∧ Over (u.toNat % 2 ^ 31) x

theorem UnmergedFrom.refl (h : Heap) (t : RTree) : UnmergedFrom h h t := fun _ _ hu => .inl hu

theorem UnmergedFrom.trans {h h' h'' : Heap} {t t' : RTree} (h1 : UnmergedFrom h h' t) (hs : Sub t' t)
    (h2 : UnmergedFrom h' h'' t') : UnmergedFrom h h'' t := by
  intro p u hu
  rcases h2 p u hu with hu | ⟨x, hx, ho⟩
  · exact h1 p u hu
  · exact .inr ⟨x, hs x p hx, ho⟩

theorem addAncestors_unmerged {t : RTree} {d i : Nat} {li : UInt32} (hd : d ≤ 31) (hi : i < 2 ^ d)
    (hli : li.toNat % 2 ^ 31 = i) :
    ∀ (fuel k : Nat) (h h' : Heap), k ≤ d → addAncestors t (2 ^ d) li fuel h (idx k (i / 2 ^ k)) = .ok h' →
      UnmergedFrom h h' t := by
  intro fuel
  induction fuel with
  | zero => intro k h h' _ hr; simp [addAncestors] at hr
  | succ fuel ih =>
    intro k h h' hk hr
    unfold addAncestors at hr
    rcases Nat.lt_or_ge k d with hkd | hkd
    · have hz : i / 2 ^ k / 2 ^ (d - k) = 0 := by
        rw [Nat.div_div_eq_div_mul, ← Nat.pow_add, show k + (d - k) = d from by omega]
        exact Nat.div_eq_of_lt hi
      have hpar := parent_idx hd hkd hz
      rw [Nat.div_div_eq_div_mul, ← Nat.pow_succ] at hpar
      rw [hpar] at hr
      simp only [Res.bind_ok_iff] at hr
      obtain ⟨node, hn, hr⟩ := hr
      rw [Res.idx_ok_iff] at hn
      split at hr
      · exact ih _ _ _ (by omega) hr
      · simp at hr
      · next ptr =>
        have h2 := ih _ _ _ (by omega) hr
        intro p u hu
        rcases h2 p u hu with hu | hu
        · by_cases hp : ptr = p
          · subst hp
            rcases Nat.lt_or_ge ptr h.length with hl | hl
            · have hm : (h.modify ptr fun q => { q with unmergedLeaves := q.unmergedLeaves ++ [li] }).getD ptr default =
                  { h.getD ptr default with unmergedLeaves := (h.getD ptr default).unmergedLeaves ++ [li] } := by
                simp [List.getD, List.getElem?_modify, hl]
              rw [hm] at hu
              rcases List.mem_append.1 hu with hu | hu
              · exact .inl hu
              · rw [List.mem_singleton] at hu
                subst hu
                exact .inr ⟨_, hn, k + 1, by omega, by rw [hli]⟩
            · left
              simpa [List.getD, List.getElem?_modify, List.getElem?_eq_none hl] using hu
          · left
            have : (h.modify ptr fun q => { q with unmergedLeaves := q.unmergedLeaves ++ [li] }).getD p default =
                h.getD p default := by
              simp only [List.getD, List.getElem?_modify, if_neg hp]
              cases h[p]? <;> rfl
            rwa [this] at hu
        · exact .inr hu
    · have hkd' : k = d := by omega
      subst hkd'
      rw [Nat.div_eq_of_lt hi, parent_root hd] at hr
      cases hr
      exact .refl _ _

theorem findFree_false {N : Type} {t : List (Option N)} : ∀ (fuel li i : Nat), findFree t fuel li = .ok (i, false) →
    t.length ≤ nodeOfLeaf i := by
  intro fuel
  induction fuel with
  | zero => intro li i h; simp [findFree] at h
  | succ fuel ih =>
    intro li i h
    unfold findFree at h
    simp only at h
    split at h
    · cases h; assumption
    · simp only [Res.bind_ok_iff] at h
      obtain ⟨n, _, h⟩ := h
      split at h
      · cases h
      · exact ih _ _ h

theorem treeAdd_effect {h h' : Heap} {t t' : RTree} {leaf : LeafNode} (hv : ValidOrEmpty h t)
    (hr : treeAdd h t leaf = .ok (h', t')) : UnmergedFrom h h' t ∧ Sub t' t ∧ t.length ≤ t'.length := by
  unfold treeAdd at hr
  simp only [Res.bind_ok_iff] at hr
  obtain ⟨⟨li, found⟩, hf, h1, h2, t1, h3, he⟩ := hr
  rw [Res.setIdx_ok_iff] at h3
  obtain ⟨hlt, rfl⟩ := h3
  cases he
  have hli : (UInt32.ofNat li).toNat % 2 ^ 31 = li % 2 ^ 31 := by
    rw [UInt32.toNat_ofNat']
    omega
  cases found with
  | true =>
    simp only [if_true] at h2 hlt ⊢
    rcases hv with rfl | hv
    · simp at hlt
    obtain ⟨d, hd, hl⟩ := hv.complete
    have hpow : 2 ^ d ≤ 2 ^ 31 := Nat.pow_le_pow_right (by decide) hd
    have hi : li % 2 ^ 31 < 2 ^ d := by
      rw [hl, Nat.pow_succ] at hlt
      unfold nodeOfLeaf at hlt
      omega
    rw [numLeaves_pow hd hl, nodeOfLeaf_mod, nodeOfLeaf_idx (leaf_lt hd hi)] at h2
    refine ⟨addAncestors_unmerged hd hi hli 64 0 h _ (by omega) (by rw [Nat.pow_zero, Nat.div_one]; exact h2),
      Sub.set_leaf _ _ _, by simp⟩
  | false =>
    simp only [Bool.false_eq_true, if_false] at h2 hlt ⊢
    have hge := findFree_false _ _ _ hf
    have hsub : Sub (t ++ List.replicate (t.length + 1) none) t := Sub.grow _ _
    obtain ⟨d, hd, hl⟩ : ∃ d, d ≤ 31 ∧ (t ++ List.replicate (t.length + 1) none).length = 2 ^ (d + 1) - 1 := by
      rcases hv with rfl | hv
      · exact ⟨0, by omega, rfl⟩
      · obtain ⟨d, hd, hl⟩ := hv.complete
        refine ⟨d + 1, ?_, ?_⟩
        · by_contra hc
          have : d = 31 := by omega
          subst this
          unfold nodeOfLeaf at hge
          omega
        · have hp : 0 < 2 ^ (d + 1) := Nat.two_pow_pos _
          simp only [List.length_append, List.length_replicate, hl]
          rw [Nat.pow_succ 2 (d + 1)]
          omega
    have hpow : 2 ^ d ≤ 2 ^ 31 := Nat.pow_le_pow_right (by decide) hd
    have hi : li % 2 ^ 31 < 2 ^ d := by
      rw [hl, Nat.pow_succ] at hlt
      unfold nodeOfLeaf at hlt
      omega
    rw [numLeaves_pow hd hl, nodeOfLeaf_mod, nodeOfLeaf_idx (leaf_lt hd hi)] at h2
    have hu := addAncestors_unmerged hd hi hli 64 0 h _ (by omega) (by rw [Nat.pow_zero, Nat.div_one]; exact h2)
    refine ⟨fun p u hp => ?_, (Sub.set_leaf _ _ _).trans hsub, by simp⟩
    rcases hu p u hp with hp | ⟨x, hx, ho⟩
    · exact .inl hp
    · exact .inr ⟨x, hsub x p hx, ho⟩

theorem valid_treeAdd {h h' : Heap} {t t' : RTree} {leaf : LeafNode} (hv : ValidOrEmpty h t)
    (hr : treeAdd h t leaf = .ok (h', t')) : ValidTree h' t' := by
  obtain ⟨s, hs, hh⟩ := validOrEmpty_iff.1 hv
  rcases treeAdd_opt hs hh leaf with ⟨h2, t2, e1, e2, e3⟩ | ⟨e1, _⟩
  · rw [hr] at e1
    cases e1
    exact Holds.valid e2 e3
  · rw [hr] at e1
    cases e1

theorem valid_treeUpdate {h : Heap} {t t' : RTree} {li : Nat} {leaf : LeafNode} (hv : ValidOrEmpty h t)
    (hr : treeUpdate t li leaf = .ok t') : ValidOrEmpty h t' :=
  C20_shape hv [.update li leaf] (h' := h) (by simp only [List.foldlM_cons, TreeOp.run, hr]; rfl)

theorem valid_treeRemove {h : Heap} {t t' : RTree} {li : Nat} (hv : ValidOrEmpty h t)
    (hr : treeRemove t li = .ok t') : ValidOrEmpty h t' :=
  C20_shape hv [.remove li] (h' := h) (by simp only [List.foldlM_cons, TreeOp.run, hr]; rfl)

theorem applyUpdates_effect {h : Heap} {ss : List UInt32} : ∀ (ps : List Proposal) (i : Nat) (t t' : RTree),
    ValidOrEmpty h t → applyUpdates ss i ps t = .ok t' → ValidOrEmpty h t' ∧ Sub t' t := by
  intro ps
  induction ps with
  | nil => intro i t t' hv hr; simp only [applyUpdates] at hr; cases hr; exact ⟨hv, .refl _⟩
  | cons p ps ih =>
    intro i t t' hv hr
    cases p with
    | update leaf =>
      simp only [applyUpdates, Res.bind_ok_iff] at hr
      obtain ⟨s, _, t1, h1, hr⟩ := hr
      obtain ⟨e1, e2⟩ := ih _ _ _ (valid_treeUpdate hv h1) hr
      exact ⟨e1, e2.trans (treeUpdate_sub h1)⟩
    | add | remove | psk | reInit | externalInit | groupContextExtensions => exact ih _ _ _ hv hr

theorem applyRemoves_effect {h : Heap} : ∀ (ps : List Proposal) (t t' : RTree),
    ValidOrEmpty h t → applyRemoves ps t = .ok t' → ValidOrEmpty h t' ∧ Sub t' t := by
  intro ps
  induction ps with
  | nil => intro t t' hv hr; simp only [applyRemoves] at hr; cases hr; exact ⟨hv, .refl _⟩
  | cons p ps ih =>
    intro t t' hv hr
    cases p with
    | remove li =>
      simp only [applyRemoves, Res.bind_ok_iff] at hr
      obtain ⟨t1, h1, hr⟩ := hr
      obtain ⟨e1, e2⟩ := ih _ _ (valid_treeRemove hv h1) hr
      exact ⟨e1, e2.trans (treeRemove_sub h1)⟩
    | add | update | psk | reInit | externalInit | groupContextExtensions => exact ih _ _ hv hr

theorem applyAdds_effect : ∀ (ps : List Proposal) (h : Heap) (t : RTree) (h' : Heap) (t' : RTree),
    ValidOrEmpty h t → applyAdds ps h t = .ok (h', t') →
    ValidOrEmpty h' t' ∧ Sub t' t ∧ UnmergedFrom h h' t ∧ t.length ≤ t'.length := by
  intro ps
  induction ps with
  | nil =>
    intro h t h' t' hv hr
    simp only [applyAdds] at hr
    cases hr
    exact ⟨hv, .refl _, .refl _ _, Nat.le_refl _⟩
  | cons p ps ih =>
    intro h t h' t' hv hr
    cases p with
    | add k =>
      simp only [applyAdds, Res.bind_ok_iff] at hr
      obtain ⟨⟨h1, t1⟩, h2, hr⟩ := hr
      obtain ⟨a1, a2, a3⟩ := treeAdd_effect hv h2
      obtain ⟨e1, e2, e3, e4⟩ := ih _ _ _ _ (.inr (valid_treeAdd hv h2)) hr
      exact ⟨e1, e2.trans a2, a1.trans a2 e3, by omega⟩
    | update | remove | psk | reInit | externalInit | groupContextExtensions => exact ih _ _ _ _ hv hr

/-- Applying proposals keeps the shape of the tree, moves no parent node and makes no new one; unmerged leaves
are added to nodes above them. -/
theorem treeApply_effect {h h' : Heap} {t t' : RTree} {ps : List Proposal} {ss : List UInt32} (hv : ValidOrEmpty h t)
    (hr : treeApply h t ps ss = .ok (h', t')) : ValidOrEmpty h' t' ∧ Sub t' t ∧ UnmergedFrom h h' t := by
  unfold treeApply at hr
  simp only [Res.bind_ok_iff] at hr
  obtain ⟨t1, h1, t2, h2, hr⟩ := hr
  obtain ⟨a1, a2⟩ := applyUpdates_effect (h := h) _ _ _ _ hv h1
  obtain ⟨b1, b2⟩ := applyRemoves_effect _ _ _ a1 h2
  obtain ⟨c1, c2, c3, _⟩ := applyAdds_effect _ _ _ _ _ b1 hr
  have hs := b2.trans a2
  refine ⟨c1, c2.trans hs, fun p u hu => ?_⟩
  rcases c3 p u hu with hu | ⟨x, hx, ho⟩
  · exact .inl hu
  · exact .inr ⟨x, hs x p hx, ho⟩

/-! ### The private keys read off an update path -/

/-- `pub`, `priv` are a key pair of the cipher suite derived from some seed (ciphersuite.go:279-294). -/
def KeyPair (pr : Prims) (cs : UInt16) (pub priv : Bytes) : Prop :=
  ∃ sd seed, suite cs = .ok sd ∧ pr.kemDeriveKeyPair sd.kem seed = (pub, priv)

theorem nodePriv_pair {pr : Prims} {cs : UInt16} {ps pub priv : Bytes}
    (h : nodePrivFromPathSecret pr cs ps pub = .ok priv) : KeyPair pr cs pub priv := by
  unfold nodePrivFromPathSecret at h
  simp only [Res.bind_ok_iff] at h
  obtain ⟨sec, _, ⟨pub', priv'⟩, h2, h⟩ := h
  split at h
  · next he =>
    cases h
    subst he
    unfold deriveEncryptionKeyPair at h2
    simp only [Res.bind_ok_iff] at h2
    obtain ⟨sd, hsd, h2⟩ := h2
    split at h2
    · cases h2
    · exact ⟨sd, sec, hsd, Res.ok.inj h2⟩
  · cases h

theorem nodeKey_ok {t : VTree} {x : Nat} {k : Bytes} (h : nodeKey t x = .ok k) :
    ∃ n, nodeAt t x = some n ∧ n.encryptionKey = k := by
  unfold nodeKey at h
  simp only [Res.bind_ok_iff, Res.idx_ok_iff, Res.deref_ok_iff] at h
  obtain ⟨o, h1, n, rfl, h2⟩ := h
  exact ⟨n, nodeAt_eq h1, Res.ok.inj h2⟩

/-- The private key held for node `x` is that of its public key. -/
def Matches (pr : Prims) (cs : UInt16) (t : VTree) (pt : List (Option Bytes)) (x : Nat) : Prop :=
  ∃ n k, nodeAt t x = some n ∧ pt[x]? = some (some k) ∧ KeyPair pr cs n.encryptionKey k

theorem pathSecretLoop_ok {pr : Prims} {cs : UInt16} {t : VTree} : ∀ (xs : List Nat) (ps : Bytes) (pt : List (Option Bytes))
    (ps' : Bytes) (pt' : List (Option Bytes)), pathSecretLoop pr cs t xs ps pt = .ok (ps', pt') →
    pt'.length = pt.length ∧ (∀ x ∈ xs, Matches pr cs t pt' x) ∧ ∀ x, x ∉ xs → pt'[x]? = pt[x]? := by
  intro xs
  induction xs with
  | nil =>
    intro ps pt ps' pt' h
    simp only [pathSecretLoop] at h
    cases h
    exact ⟨rfl, by simp, fun _ _ => rfl⟩
  | cons x xs ih =>
    intro ps pt ps' pt' h
    simp only [pathSecretLoop, Res.bind_ok_iff] at h
    obtain ⟨ps1, _, pub, h2, priv, h3, pt1, h4, h⟩ := h
    rw [Res.setIdx_ok_iff] at h4
    obtain ⟨hlt, rfl⟩ := h4
    obtain ⟨e1, e2, e3⟩ := ih _ _ _ _ h
    obtain ⟨n, hn, rfl⟩ := nodeKey_ok h2
    refine ⟨by rw [e1, List.length_set], fun y hy => ?_, fun y hy => ?_⟩
    · rcases List.mem_cons.1 hy with rfl | hy
      · by_cases hx : y ∈ xs
        · exact e2 y hx
        · exact ⟨n, priv, hn, by rw [e3 y hx, List.getElem?_set_self hlt], nodePriv_pair h3⟩
      · exact e2 y hy
    · rw [List.mem_cons, not_or] at hy
      rw [e3 y hy.2, List.getElem?_set_ne (Ne.symm hy.1)]

theorem findPriv_ok {pt : List (Option Bytes)} : ∀ (xs : List Nat) (i j : Nat) (k : Bytes),
    findPriv pt i xs = .ok (some (j, k)) → ∃ x ∈ xs, pt[x]? = some (some k) := by
  intro xs
  induction xs with
  | nil => intro i j k h; simp [findPriv] at h
  | cons x xs ih =>
    intro i j k h
    simp only [findPriv, Res.bind_ok_iff, Res.idx_ok_iff] at h
    obtain ⟨o, h1, h⟩ := h
    cases o with
    | none =>
      obtain ⟨y, hy, he⟩ := ih _ _ _ h
      exact ⟨y, List.mem_cons_of_mem _ hy, he⟩
    | some p =>
      cases h
      exact ⟨x, by simp, h1⟩

/-- The filtered direct path goes up. -/
theorem filteredPath_up {k : Nat} {s : Ratchet ParentNode k} {i j : Nat} (hi : i / 2 ^ k = j) :
    (s.filteredPath (j * 2 ^ (k + 1)) (i - j * 2 ^ k)).Pairwise fun x y =>
      ∃ m m', m < m' ∧ x = idx m (i / 2 ^ m) ∧ y = idx m' (i / 2 ^ m') := by
  induction s generalizing j with
  | leaf n => simp [Ratchet.filteredPath]
  | @node k p l r ihl ihr =>
    have htop : ∀ (c : Ratchet ParentNode k) (b : Nat), i / 2 ^ k = b → ∀ x ∈ c.filteredPath (b * 2 ^ (k + 1)) (i - b * 2 ^ k),
        ∃ m m', m < m' ∧ x = idx m (i / 2 ^ m) ∧ j * 2 ^ (k + 2) + 2 ^ (k + 1) - 1 = idx m' (i / 2 ^ m') := by
      intro c b hb x hx
      obtain ⟨m, h1, h2, h3⟩ := mem_path.1 (mem_filteredPath hb hx)
      exact ⟨m, k + 1, by omega, h3, by rw [hi, idx_off]⟩
    rw [Ratchet.filteredPath]
    rcases path_split hi with ⟨h1, h2, h3⟩ | ⟨h1, h2, h3⟩
    · rw [if_pos h2, h3, ← off_succ_left]
      refine List.pairwise_append.2 ⟨ihl h1, by split <;> simp, fun x hx y hy => ?_⟩
      split at hy
      · simp at hy
      · rw [List.mem_singleton] at hy
        rw [hy]
        obtain ⟨m, m', a, b, c⟩ := htop l _ h1 x hx
        exact ⟨m, m', a, b, by rw [← c, off_succ_left]⟩
    · rw [if_neg h2, h3, ← off_succ_right]
      refine List.pairwise_append.2 ⟨ihr h1, by split <;> simp, fun x hx y hy => ?_⟩
      split at hy
      · simp at hy
      · rw [List.mem_singleton] at hy
        rw [hy]
        obtain ⟨m, m', a, b, c⟩ := htop r _ h1 x hx
        exact ⟨m, m', a, b, by rw [← c, off_succ_right]⟩

/-- Two leaves meet at the lowest common ancestor. -/
theorem commonAncestor_leaves {i r : Nat} (hi : i < 2 ^ 31) (hr : r < 2 ^ 31) :
    ∃ m, i / 2 ^ m = r / 2 ^ m ∧ (∀ m', i / 2 ^ m' = r / 2 ^ m' → m ≤ m') ∧
      commonAncestor (idx 0 i) (idx 0 r) = idx m (i / 2 ^ m) := by
  have hdiv : ∀ a m, idx 0 a / 2 ^ (m + 1) = a / 2 ^ m := by
    intro a m
    rw [idx_zero, Nat.pow_succ', ← Nat.div_div_eq_div_mul, Nat.mul_div_cancel_left _ (by decide)]
  obtain ⟨m, _, _, h1, h2, h3⟩ := commonAncestor_idx (k := 0) (i := i) (m := 0) (j := r) (by rw [idx_zero]; omega)
    (by rw [idx_zero]; omega)
  rw [hdiv, hdiv] at h1
  rw [hdiv] at h3
  refine ⟨m, h1, fun m' hm' => h2 m' (Nat.zero_le _) (Nat.zero_le _) (by rw [hdiv, hdiv, hm']), h3⟩

/-- What a successful decryption of path secrets has done. `m` is the level at which the two leaves meet. -/
structure PathRead (pr : Prims) (cs : UInt16) (v : VTree) (F : List Nat) (d i r m : Nat) (pt pt' : List (Option Bytes)) :
    Prop where
  pos : 0 < m
  le : m ≤ d
  meet : i / 2 ^ m = r / 2 ^ m
  apart : i / 2 ^ (m - 1) ≠ r / 2 ^ (m - 1)
  length : pt'.length = pt.length
  new : ∀ m', m ≤ m' → idx m' (i / 2 ^ m') ∈ F → Matches pr cs v pt' (idx m' (i / 2 ^ m'))
  old : ∀ x, (∀ m', m ≤ m' → x = idx m' (i / 2 ^ m') → x ∉ F) → pt'[x]? = pt[x]?
  used : ∃ res k, resolve v (idx (m - 1) (r / 2 ^ (m - 1))) = .ok res ∧ ∃ x ∈ res, pt[x]? = some (some k)

theorem decryptPathSecrets_ok {pr : Prims} {cs : UInt16} {ctx : GroupContext} {d i r : Nat} (hd : d ≤ 31) (hi : i < 2 ^ d)
    (hr : r < 2 ^ 31) {s : Ratchet ParentNode d} {path : UpdatePath} {pt pt' : List (Option Bytes)} {sec : Bytes}
    (hok : decryptPathSecrets pr cs (s.flat .leaf .parent) ctx i r path pt = .ok (sec, pt')) :
    ∃ m, PathRead pr cs (s.flat .leaf .parent) (s.filteredPath 0 i) d i r m pt pt' := by
  have h31 : i < 2 ^ 31 := Nat.lt_of_lt_of_le hi (Nat.pow_le_pow_right (by decide) hd)
  obtain ⟨m, hmeet, hmin, hca⟩ := commonAncestor_leaves h31 hr
  unfold decryptPathSecrets at hok
  simp only [Res.bind_ok_iff] at hok
  obtain ⟨fdp, hf, _, _, hok⟩ := hok
  rw [nodeOfLeaf_idx h31, filteredDirectPath_spec hd hi] at hf
  cases hf
  rw [nodeOfLeaf_idx h31, nodeOfLeaf_idx hr, hca] at hok
  cases hpos : List.idxOf? (idx m (i / 2 ^ m)) (s.filteredPath 0 i) with
  | none => rw [hpos] at hok; cases hok
  | some e =>
    rw [hpos] at hok
    simp only [Res.bind_ok_iff] at hok
    obtain ⟨pn, _, cop, hcop, res, hres, _, _, found, hfound, hok⟩ := hok
    cases found with
    | none => cases hok
    | some a =>
      obtain ⟨j, k⟩ := a
      simp only [Res.bind_ok_iff] at hok
      obtain ⟨ct, _, ps, _, pub, hpub, np, hnp, pt1, hset, ⟨ps', pt2⟩, hloop, sec', _, he⟩ := hok
      cases he
      rw [Res.setIdx_ok_iff] at hset
      obtain ⟨hlt, rfl⟩ := hset
      obtain ⟨l1, l2, l3⟩ := pathSecretLoop_ok _ _ _ _ _ hloop
      obtain ⟨n, hn, rfl⟩ := nodeKey_ok hpub
      -- the position of the common ancestor in the filtered direct path
      have hup := filteredPath_up (s := s) (i := i) (j := 0) (Nat.div_eq_of_lt hi)
      rw [Nat.zero_mul, Nat.zero_mul, Nat.sub_zero] at hup
      rw [List.idxOf?, List.findIdx?_eq_some_iff_getElem] at hpos
      obtain ⟨he, heq, _⟩ := hpos
      simp only [beq_iff_eq] at heq
      have hmem : idx m (i / 2 ^ m) ∈ s.filteredPath 0 i := by rw [← heq]; exact List.getElem_mem he
      obtain ⟨m0, hm0, hmd, hx⟩ := mem_path.1 (mem_filteredPath (s := s) (i := i) (j := 0) (Nat.div_eq_of_lt hi)
        (by rw [Nat.zero_mul, Nat.zero_mul, Nat.sub_zero]; exact hmem))
      obtain ⟨rfl, -⟩ := idx_inj hx
      have hsplit : s.filteredPath 0 i = (s.filteredPath 0 i).take e ++ idx m (i / 2 ^ m) :: (s.filteredPath 0 i).drop (e + 1) := by
        rw [← heq, ← List.drop_eq_getElem_cons he, List.take_append_drop]
      rw [hsplit, List.pairwise_append, List.pairwise_cons] at hup
      obtain ⟨_, ⟨hafter, _⟩, hbefore⟩ := hup
      have hdrop : ∀ m', idx m' (i / 2 ^ m') ∈ (s.filteredPath 0 i).drop (e + 1) → m < m' := by
        intro m' hm'
        obtain ⟨a, b, hab, ha, hb⟩ := hafter _ hm'
        obtain ⟨rfl, -⟩ := idx_inj ha
        obtain ⟨rfl, -⟩ := idx_inj hb
        exact hab
      have htake : ∀ m', idx m' (i / 2 ^ m') ∈ (s.filteredPath 0 i).take e → m' < m := by
        intro m' hm'
        obtain ⟨a, b, hab, ha, hb⟩ := hbefore _ hm' _ List.mem_cons_self
        obtain ⟨rfl, -⟩ := idx_inj ha
        obtain ⟨rfl, -⟩ := idx_inj hb
        exact hab
      have hapart : i / 2 ^ (m - 1) ≠ r / 2 ^ (m - 1) := fun hc => by
        have := hmin _ hc
        omega
      refine ⟨m, hm0, hmd, hmeet, hapart, by rw [l1, List.length_set], fun m' hm' hF => ?_, fun x hx => ?_, res, k, ?_, ?_⟩
      · rw [hsplit, List.mem_append, List.mem_cons] at hF
        rcases hF with hF | hF | hF
        · have := htake _ hF
          omega
        · obtain ⟨rfl, -⟩ := idx_inj hF
          by_cases hc : idx m' (i / 2 ^ m') ∈ (s.filteredPath 0 i).drop (e + 1)
          · exact l2 _ hc
          · exact ⟨n, np, hn, by rw [l3 _ hc, List.getElem?_set_self hlt], nodePriv_pair hnp⟩
        · exact l2 _ hF
      · have h1 : x ∉ (s.filteredPath 0 i).drop (e + 1) := by
          intro hc
          have hF : x ∈ s.filteredPath 0 i := List.mem_of_mem_drop hc
          obtain ⟨m', _, _, rfl⟩ := mem_path.1 (mem_filteredPath (s := s) (i := i) (j := 0) (Nat.div_eq_of_lt hi)
            (by rw [Nat.zero_mul, Nat.zero_mul, Nat.sub_zero]; exact hF))
          exact hx m' (Nat.le_of_lt (hdrop _ hc)) rfl hF
        rw [l3 x h1, List.getElem?_set_ne]
        rintro rfl
        exact hx m (Nat.le_refl _) rfl hmem
      · rw [Res.deref_ok_iff] at hcop
        obtain ⟨e', rfl⟩ : ∃ e', m = e' + 1 := ⟨m - 1, by omega⟩
        rw [Nat.add_sub_cancel] at hapart ⊢
        have hb : idx (e' + 1) (i / 2 ^ (e' + 1)) < 2 ^ (d + 1) - 1 := by
          have : Below d 0 (e' + 1) (i / 2 ^ (e' + 1)) := ⟨hmd, by
            rw [Nat.div_div_eq_div_mul, ← Nat.pow_add, show e' + 1 + (d - (e' + 1)) = d from by omega]
            exact Nat.div_eq_of_lt hi⟩
          exact this.lt
        have hlt32 : idx (e' + 1) (i / 2 ^ (e' + 1)) < 2 ^ 32 := by
          have := pow_tree_lt hd
          omega
        have hi2 : i / 2 ^ (e' + 1) = i / 2 ^ e' / 2 := by rw [Nat.pow_succ, ← Nat.div_div_eq_div_mul]
        have hr2 : r / 2 ^ (e' + 1) = r / 2 ^ e' / 2 := by rw [Nat.pow_succ, ← Nat.div_div_eq_div_mul]
        have hcn : cop = idx e' (r / 2 ^ e') := by
          rw [left_idx hlt32, right_idx (by omega)] at hcop
          by_cases hri : idx 0 r < idx 0 i
          · rw [if_pos hri] at hcop
            rw [idx_zero, idx_zero] at hri
            have : r / 2 ^ e' ≤ i / 2 ^ e' := Nat.div_le_div_right (by omega)
            rw [← Option.some.inj hcop]
            congr 1
            omega
          · rw [if_neg hri] at hcop
            rw [idx_zero, idx_zero] at hri
            have : i / 2 ^ e' ≤ r / 2 ^ e' := Nat.div_le_div_right (by omega)
            rw [← Option.some.inj hcop]
            congr 1
            omega
        rw [← hcn]
        exact hres
      · exact findPriv_ok _ _ _ _ hfound

/-! ### The parts of a commit -/

theorem mergeUpdatePath_mod (pr : Prims) (cs : UInt16) (h : Heap) (t : RTree) (i : Nat) (path : UpdatePath) :
    mergeUpdatePath pr cs h t i path = mergeUpdatePath pr cs h t (i % 2 ^ 31) path := by
  unfold mergeUpdatePath; rw [nodeOfLeaf_mod]

theorem decryptPathSecrets_mod (pr : Prims) (cs : UInt16) (v : VTree) (ctx : GroupContext) (i r : Nat) (path : UpdatePath)
    (pt : List (Option Bytes)) :
    decryptPathSecrets pr cs v ctx i r path pt = decryptPathSecrets pr cs v ctx (i % 2 ^ 31) r path pt := by
  unfold decryptPathSecrets; rw [nodeOfLeaf_mod]

theorem getLeaf_mod (t : VTree) (i : Nat) : getLeaf t i = getLeaf t (i % 2 ^ 31) := by
  unfold getLeaf; rw [nodeOfLeaf_mod]

theorem commitPath_ok {pr : Prims} {ctx newCtx ctx' : GroupContext} {h h' : Heap} {t t' : RTree} {sender my : UInt32}
    {pt pt' : List (Option Bytes)} {path : UpdatePath} {now : GoTime} {sec : Bytes}
    (hok : commitPath pr ctx newCtx h t sender my pt path now = .ok (h', t', ctx', pt', sec)) :
    ∃ leaf th, getLeaf (derefTree h t) sender.toNat = .ok (some leaf) ∧
      mergeUpdatePath pr ctx.cipherSuite h t sender.toNat path = .ok (h', t') ∧
      computeRootTreeHash pr ctx.cipherSuite (derefTree h' t') = .ok th ∧ ctx' = { newCtx with treeHash := th } ∧
      decryptPathSecrets pr ctx.cipherSuite (derefTree h' t') ctx' sender.toNat my.toNat path pt = .ok (sec, pt') := by
  unfold commitPath at hok
  simp only [Res.bind_ok_iff] at hok
  obtain ⟨_, _, o, h1, keys, _, leaf, h2, _, _, _, _, _, _, ⟨h3, t3⟩, h4, th, h5, ⟨sec', pt3⟩, h6, he⟩ := hok
  rw [Res.deref_ok_iff] at h2
  subst h2
  cases he
  exact ⟨leaf, th, h1, h4, h5, rfl, h6⟩

theorem finishCommit_parts {pr : Prims} {g : Group} {h : Heap} {t : RTree} {a : AuthenticatedContent} {c : Commit}
    {ids : List PreSharedKeyID} {psks : List Bytes} {now : GoTime} {st' : GroupState}
    (hf : finishCommit pr g h t a c ids psks now = .ok st') :
    (∃ sd, suite g.groupContext.cipherSuite = .ok sd) ∧ ∃ pt, copyPrivTree g.privTree g.tree.length t.length = .ok pt ∧
      ((c.path = none ∧ st'.heap = h ∧ st'.group.tree = t ∧ st'.group.privTree = pt) ∨
        ∃ path ctx' sec, c.path = some path ∧
          commitPath pr g.groupContext { g.groupContext with epoch := g.groupContext.epoch + 1 } h t
            a.content.sender.leafIndex g.myLeafIndex pt path now =
              .ok (st'.heap, st'.group.tree, ctx', st'.group.privTree, sec)) := by
  unfold finishCommit at hf
  simp only [Res.bind_ok_iff] at hf
  obtain ⟨pt, h1, d, h2, ⟨h3, t3, ctx3, pt3, cs3⟩, hp, cth, _, itm, _, js, _, psk, _, es, _, is, _, he⟩ := hf
  cases he
  refine ⟨⟨d, h2⟩, pt, h1, ?_⟩
  cases hcp : c.path with
  | none =>
    rw [hcp] at hp
    simp only [Res.bind_ok_iff] at hp
    obtain ⟨th, _, he⟩ := hp
    cases he
    exact .inl ⟨rfl, rfl, rfl, rfl⟩
  | some path =>
    rw [hcp] at hp
    exact .inr ⟨path, ctx3, cs3, rfl, hp⟩

theorem copyPrivTree_ok {pt pt' : List (Option Bytes)} {a b : Nat} (h : copyPrivTree pt a b = .ok pt') :
    pt'.length = b ∧ ∀ (x : Nat) k, pt'[x]? = some (some k) → pt[x]? = some (some k) := by
  unfold copyPrivTree at h
  split at h
  · cases h
  · next hl =>
    cases h
    refine ⟨by simp; omega, fun x k hx => ?_⟩
    rcases Nat.lt_or_ge x (min a b) with hlt | hge
    · rw [List.getElem?_append_left (by simp; omega), List.getElem?_take_of_lt hlt] at hx
      exact hx
    · rw [List.getElem?_append_right (by simp; omega), List.getElem?_replicate] at hx
      split at hx <;> simp at hx

theorem applyUpdates_none {ss : List UInt32} : ∀ (ps : List Proposal) (i : Nat) (t : RTree),
    (∀ p ∈ ps, p.needsPath = false) → applyUpdates ss i ps t = .ok t := by
  intro ps
  induction ps with
  | nil => intro i t _; rfl
  | cons p ps ih =>
    intro i t hp
    have hp' := fun q hq => hp q (List.mem_cons_of_mem _ hq)
    cases p with
    | update leaf => exact absurd (hp (.update leaf) (by simp)) (by simp [Proposal.needsPath])
    | add | remove | psk | reInit | externalInit | groupContextExtensions => exact ih _ _ hp'

theorem applyRemoves_none {N : Type} : ∀ (ps : List Proposal) (t : List (Option N)),
    (∀ p ∈ ps, p.needsPath = false) → applyRemoves ps t = .ok t := by
  intro ps
  induction ps with
  | nil => intro t _; rfl
  | cons p ps ih =>
    intro t hp
    have hp' := fun q hq => hp q (List.mem_cons_of_mem _ hq)
    cases p with
    | remove li => exact absurd (hp (.remove li) (by simp)) (by simp [Proposal.needsPath])
    | add | update | psk | reInit | externalInit | groupContextExtensions => exact ih _ hp'

/-- Proposals that go without a path do not shorten the tree. -/
theorem treeApply_noPath {h h' : Heap} {t t' : RTree} {ps : List Proposal} {ss : List UInt32} (hv : ValidOrEmpty h t)
    (hp : ∀ p ∈ ps, p.needsPath = false) (hr : treeApply h t ps ss = .ok (h', t')) : t.length ≤ t'.length := by
  unfold treeApply at hr
  rw [applyUpdates_none _ _ _ hp, Res.ok_bind, applyRemoves_none _ _ hp, Res.ok_bind] at hr
  exact (applyAdds_effect _ _ _ _ _ hv hr).2.2.2

theorem checkProposals_path {pr : Prims} {g : Group} {s : UInt32} {c : Commit} {ps : List Proposal} {ss : List UInt32}
    (h : checkProposals pr g s c = .ok (ps, ss)) (hc : c.path = none) : ∀ p ∈ ps, p.needsPath = false := by
  unfold checkProposals at h
  simp only [Res.bind_ok_iff] at h
  obtain ⟨⟨ps', ss'⟩, _, _, _, _, _, _, h4, h5⟩ := h
  obtain ⟨rfl, rfl⟩ := Prod.mk.inj (Res.ok.inj h5)
  rw [Res.guardErr_ok_iff, hc] at h4
  unfold proposalListNeedsPath at h4
  intro p hp
  by_cases hl : ps'.length = 0
  · rw [if_pos hl] at h4
    cases h4
  · rw [if_neg hl] at h4
    simp only [Option.isNone_none, Bool.and_true, Bool.not_eq_true', List.any_eq_false] at h4
    exact Bool.eq_false_iff.2 (h4 p hp)

/-! ### The invariant -/

/-- What holds of every group in use: its tree is well formed; its cipher suite is known; there is one slot for a
private key per node; the member's own leaf is in the tree; unmerged leaves are below their node; the private
keys held are for the member's own leaf and for nodes above it, and the key held for a parent node that is
not blank belongs to its public key. -/
structure GroupInv (pr : Prims) (st : GroupState) : Prop where
  tree : ValidTree st.heap st.group.tree
  suite : ∃ sd, suite st.group.groupContext.cipherSuite = .ok sd
  length : st.group.privTree.length = st.group.tree.length
  own : 2 * st.group.myLeafIndex.toNat < st.group.tree.length
  unmerged : ∀ x q, nodeAt st.vtree x = some (.parent q) → ∀ u ∈ q.unmergedLeaves, Over (u.toNat % 2 ^ 31) x
  held : ∀ x k, st.group.privTree[x]? = some (some k) → x = 2 * st.group.myLeafIndex.toNat ∨ Over st.group.myLeafIndex.toNat x
  keys : ∀ x q k, nodeAt st.vtree x = some (.parent q) → st.group.privTree[x]? = some (some k) →
    KeyPair pr st.group.groupContext.cipherSuite q.encryptionKey k

theorem nodeAt_parent {h : Heap} {t : RTree} {x : Nat} {q : ParentNode} :
    nodeAt (derefTree h t) x = some (.parent q) ↔ ∃ p, t[x]? = some (some (.parent p)) ∧ q = h.getD p default := by
  rw [nodeAt_some, derefTree_get]
  cases t[x]? with
  | none => simp
  | some o =>
    cases o with
    | none => simp
    | some n =>
      cases n with
      | leaf l => simp [TNode.deref]
      | parent p => simp [TNode.deref, eq_comm]

theorem HeapGrown.getD {h h' : Heap} (hg : HeapGrown h h') (p : Nat) :
    (h'.getD p default).encryptionKey = (h.getD p default).encryptionKey := (hg.nodes p).key

/-- What applying proposals does to the parent nodes of any tree using the heap whose nodes are among those of `t`. -/
theorem applied_nodes {h h' : Heap} {t t0 : RTree} (ho : Owned h t) (hs : Sub t0 t) (hg : HeapGrown h h')
    (hu : UnmergedFrom h h' t) {x : Nat} {q : ParentNode} (hq : nodeAt (derefTree h' t0) x = some (.parent q)) :
    ∃ q0, nodeAt (derefTree h t) x = some (.parent q0) ∧ q.encryptionKey = q0.encryptionKey ∧
      ∀ u ∈ q.unmergedLeaves, u ∈ q0.unmergedLeaves ∨ Over (u.toNat % 2 ^ 31) x := by
  obtain ⟨p, hp, rfl⟩ := nodeAt_parent.1 hq
  refine ⟨h.getD p default, nodeAt_parent.2 ⟨p, hs x p hp, rfl⟩, hg.getD p, fun u hu' => ?_⟩
  rcases hu p u hu' with hu' | ⟨x', hx', hov⟩
  · exact .inl hu'
  · obtain rfl := ho.inj (hs x p hp) hx'
    exact .inr hov

theorem ValidTree.grown {h h' : Heap} {t : RTree} (hv : ValidTree h t) (hl : h.length ≤ h'.length) : ValidTree h' t :=
  ⟨hv.complete, hv.leaves, hv.parents, hv.owned.heap hl⟩

/-- The invariant survives the changes a failed commit, or an invitation, makes to shared nodes. -/
theorem GroupInv.heap {pr : Prims} {st : GroupState} (hi : GroupInv pr st) {h : Heap} (hg : HeapGrown st.heap h)
    (hu : UnmergedFrom st.heap h st.group.tree) : GroupInv pr { st with heap := h } := by
  have hn := fun {x q} => applied_nodes (x := x) (q := q) hi.tree.owned (.refl _) hg hu
  refine ⟨hi.tree.grown (Nat.le_of_eq hg.length.symm), hi.suite, hi.length, hi.own, fun x q hq u hm => ?_, hi.held, fun x q k hq hk => ?_⟩
  · obtain ⟨q0, h1, _, h3⟩ := hn hq
    rcases h3 u hm with hm | hm
    · exact hi.unmerged x q0 h1 u hm
    · exact hm
  · obtain ⟨q0, h1, h2, _⟩ := hn hq
    rw [h2]
    exact hi.keys x q0 k h1 hk

theorem div_pow_congr {a b m n : Nat} (h : a / 2 ^ m = b / 2 ^ m) (hmn : m ≤ n) : a / 2 ^ n = b / 2 ^ n := by
  rw [show n = m + (n - m) from by omega, Nat.pow_add, ← Nat.div_div_eq_div_mul, ← Nat.div_div_eq_div_mul, h]

/-- The tree after the proposals, with the keys kept, as long as the own leaf is still in it. -/
theorem GroupInv.applied {pr : Prims} {st : GroupState} (hi : GroupInv pr st) {ps : List Proposal} {ss : List UInt32}
    {h : Heap} {t : RTree} (ht : treeApply st.heap st.group.tree ps ss = .ok (h, t)) {pt : List (Option Bytes)}
    (hp : copyPrivTree st.group.privTree st.group.tree.length t.length = .ok pt) {st' : GroupState}
    (hh : st'.heap = h) (htr : st'.group.tree = t) (hpt : st'.group.privTree = pt)
    (hcs : st'.group.groupContext.cipherSuite = st.group.groupContext.cipherSuite)
    (hmy : st'.group.myLeafIndex = st.group.myLeafIndex) (hown : 2 * st.group.myLeafIndex.toNat < t.length) :
    GroupInv pr st' := by
  obtain ⟨hv, hs, hu⟩ := treeApply_effect (.inr hi.tree) ht
  have hg := treeApply_grown ht
  obtain ⟨hl, hk⟩ := copyPrivTree_ok hp
  have hn := fun {x q} => applied_nodes (x := x) (q := q) hi.tree.owned hs hg hu
  have hvt : st'.vtree = derefTree h t := by unfold GroupState.vtree; rw [hh, htr]
  refine ⟨?_, ?_, ?_, ?_, fun x q hq u hm => ?_, fun x k hx => ?_, fun x q k hq hx => ?_⟩
  · rw [hh, htr]
    rcases hv with rfl | hv
    · simp at hown
    · exact hv
  · rw [hcs]; exact hi.suite
  · rw [hpt, htr]; exact hl
  · rw [hmy, htr]; exact hown
  · rw [hvt] at hq
    obtain ⟨q0, h1, _, h3⟩ := hn hq
    rcases h3 u hm with hm | hm
    · exact hi.unmerged x q0 h1 u hm
    · exact hm
  · rw [hpt] at hx
    rw [hmy]
    exact hi.held x k (hk x k hx)
  · rw [hvt] at hq
    rw [hpt] at hx
    obtain ⟨q0, h1, h2, _⟩ := hn hq
    rw [hcs, h2]
    exact hi.keys x q0 k h1 (hk x k hx)

theorem GroupInv.own_lt {pr : Prims} {st : GroupState} (hi : GroupInv pr st) : st.group.myLeafIndex.toNat < 2 ^ 31 := by
  obtain ⟨d, hd, hl⟩ := hi.tree.complete
  have := hi.own
  have hp : 2 ^ (d + 1) ≤ 2 ^ 32 := Nat.pow_le_pow_right (by decide) (by omega)
  omega

/-- The facts about a commit with a path that was accepted. -/
structure PathCommitted (pr : Prims) (st st' : GroupState) (h : Heap) (t : RTree) (pt : List (Option Bytes)) (i : Nat)
    (path : UpdatePath) (d : Nat) (s s' : Ratchet ParentNode d) (m : Nat) : Prop where
  depth : d ≤ 31
  before : Holds h t s
  after : Holds st'.heap st'.group.tree s'
  sender : i < 2 ^ d
  newLeaf : nodeAt st'.vtree (2 * i) = some (.leaf path.leafNode)
  onPath : ∀ x, x ∈ s'.filteredPath 0 i → ∃ k ph,
    nodeAt st'.vtree x = some (.parent { encryptionKey := k, parentHash := ph, unmergedLeaves := [] })
  blanked : ∀ x, IsAncestor d i x → x ∉ s'.filteredPath 0 i → nodeAt st'.vtree x = none
  offPath : ∀ x, x ≠ 2 * i → ¬ IsAncestor d i x → nodeAt st'.vtree x = nodeAt (derefTree h t) x
  read : PathRead pr st.group.groupContext.cipherSuite st'.vtree (s'.filteredPath 0 i) d i st.group.myLeafIndex.toNat m pt
    st'.group.privTree

theorem committed_path {pr : Prims} (hc : pr.Correct) {st st' : GroupState} (hi : GroupInv pr st) {ps : List Proposal}
    {ss : List UInt32} {h : Heap} {t : RTree} (ht : treeApply st.heap st.group.tree ps ss = .ok (h, t))
    {pt : List (Option Bytes)} {path : UpdatePath} {newCtx ctx' : GroupContext} {sec : Bytes} {sender : UInt32} {now : GoTime}
    (hp : commitPath pr st.group.groupContext newCtx h t sender st.group.myLeafIndex pt path now =
      .ok (st'.heap, st'.group.tree, ctx', st'.group.privTree, sec)) :
    ∃ d s s' m, PathCommitted pr st st' h t pt (sender.toNat % 2 ^ 31) path d s s' m := by
  obtain ⟨hv, hs, hu⟩ := treeApply_effect (.inr hi.tree) ht
  obtain ⟨leaf, th, g1, g2, _, _, g3⟩ := commitPath_ok hp
  rw [getLeaf_mod] at g1
  rw [mergeUpdatePath_mod] at g2
  rw [decryptPathSecrets_mod] at g3
  have hi31 : sender.toNat % 2 ^ 31 < 2 ^ 31 := Nat.mod_lt _ (by decide)
  have hlt : 2 * (sender.toNat % 2 ^ 31) < t.length := by
    unfold getLeaf at g1
    simp only [Res.bind_ok_iff, Res.idx_ok_iff] at g1
    obtain ⟨o, g1, _⟩ := g1
    rw [nodeOfLeaf_idx hi31, idx_zero] at g1
    have := (List.getElem?_eq_some_iff.1 g1).1
    rwa [derefTree_length] at this
  have hvt : ValidTree h t := by
    rcases hv with rfl | hv
    · simp at hlt
    · exact hv
  obtain ⟨d, s, s', sd, _, e1, e2, e3, e4, e5, e6, e7, e8, _, e9⟩ := C31_merge hc hvt hlt g2 hi.suite
  have hd : d ≤ 31 := by
    obtain ⟨d', hd', hl⟩ := hvt.complete
    rw [← derefTree_length h, e1, flat_length] at hl
    have h1 : 0 < 2 ^ (d + 1) := Nat.two_pow_pos _
    have h2 : 0 < 2 ^ (d' + 1) := Nat.two_pow_pos _
    have : 2 ^ (d + 1) = 2 ^ (d' + 1) := by omega
    have := Nat.pow_right_injective (Nat.le_refl 2) this
    omega
  have hid : sender.toNat % 2 ^ 31 < 2 ^ d := by
    rw [← derefTree_length h, e1, flat_length, Nat.pow_succ] at hlt
    omega
  have hvt' : st'.vtree = s'.flat .leaf .parent := e2
  rw [e2] at g3
  obtain ⟨m, hm⟩ := decryptPathSecrets_ok hd hid hi.own_lt g3
  refine ⟨d, s, s', m, hd, ⟨hvt.owned, e1⟩, ⟨e3.owned, e2⟩, hid, e4, fun x hx => ?_, fun x h1 h2 => e7 x h1 (by rw [← e9]; exact h2),
    e8, by rw [hvt']; exact hm⟩
  rw [e9] at hx
  obtain ⟨e, he, hxe⟩ := List.mem_iff_getElem.1 hx
  obtain ⟨n, hn⟩ : ∃ n, path.nodes[e]? = some n := ⟨path.nodes[e]'(by omega), List.getElem?_eq_getElem (by omega)⟩
  obtain ⟨ph, hnode, _⟩ := e6 e x n (by rw [List.getElem?_eq_getElem he, hxe]) hn
  exact ⟨n.encryptionKey, ph, hnode⟩

/-- The member's own leaf is still in the tree. -/
theorem PathCommitted.own {pr : Prims} {st st' : GroupState} {h : Heap} {t : RTree} {pt : List (Option Bytes)} {i : Nat}
    {path : UpdatePath} {d : Nat} {s s' : Ratchet ParentNode d} {m : Nat}
    (hc : PathCommitted pr st st' h t pt i path d s s' m) : st.group.myLeafIndex.toNat < 2 ^ d := by
  have h1 := div_pow_congr hc.read.meet hc.read.le
  rw [Nat.div_eq_of_lt hc.sender] at h1
  exact (Nat.div_eq_zero_iff_lt (Nat.two_pow_pos d)).1 h1.symm

theorem PathCommitted.inv {pr : Prims} {st st' : GroupState} {h : Heap} {t : RTree} {pt : List (Option Bytes)} {i : Nat}
    {path : UpdatePath} {d : Nat} {s s' : Ratchet ParentNode d} {m : Nat}
    (hc : PathCommitted pr st st' h t pt i path d s s' m) (hi : GroupInv pr st) {ps : List Proposal} {ss : List UInt32}
    (ht : treeApply st.heap st.group.tree ps ss = .ok (h, t))
    (hpt : copyPrivTree st.group.privTree st.group.tree.length t.length = .ok pt)
    (hcs : st'.group.groupContext.cipherSuite = st.group.groupContext.cipherSuite)
    (hmy : st'.group.myLeafIndex = st.group.myLeafIndex) : GroupInv pr st' := by
  obtain ⟨hv, hs, hu⟩ := treeApply_effect (.inr hi.tree) ht
  have hg := treeApply_grown ht
  obtain ⟨hl, hk⟩ := copyPrivTree_ok hpt
  have hn := fun {x q} => applied_nodes (x := x) (q := q) hi.tree.owned hs hg hu
  have hlen := hc.before.length
  have hlen' := hc.after.length
  have hown := hc.own
  have hpar : ∀ x q, nodeAt st'.vtree x = some (.parent q) → x ≠ 2 * i := by
    rintro x q hq rfl
    rw [hc.newLeaf] at hq
    cases hq
  -- the keys held on the sender's path below the meeting point are none
  have hlow : ∀ m', 0 < m' → m' < m → ∀ k, st'.group.privTree[idx m' (i / 2 ^ m')]? ≠ some (some k) := by
    intro m' h0 hlt k hx
    rw [hc.read.old _ fun m'' hm'' he => by
      obtain ⟨rfl, -⟩ := idx_inj he
      omega] at hx
    rcases hi.held _ _ (hk _ _ hx) with he | ⟨m3, h3, he⟩
    · rw [← idx_zero] at he
      obtain ⟨rfl, -⟩ := idx_inj he
      omega
    · obtain ⟨rfl, he⟩ := idx_inj he
      exact hc.read.apart (div_pow_congr he (by omega))
  refine ⟨hc.after.valid hc.depth, by rw [hcs]; exact hi.suite, ?_, ?_, fun x q hq u hm => ?_, fun x k hx => ?_,
    fun x q k hq hx => ?_⟩
  · rw [hc.read.length, hl, hlen, hlen']
  · rw [hmy, hlen', Nat.pow_succ]
    omega
  · by_cases ha : IsAncestor d i x
    · by_cases hF : x ∈ s'.filteredPath 0 i
      · obtain ⟨k, ph, hnode⟩ := hc.onPath x hF
        rw [hnode] at hq
        cases hq
        simp at hm
      · rw [hc.blanked x ha hF] at hq
        cases hq
    · rw [hc.offPath x (hpar x q hq) ha] at hq
      obtain ⟨q0, h1, _, h3⟩ := hn hq
      rcases h3 u hm with hm | hm
      · exact hi.unmerged x q0 h1 u hm
      · exact hm
  · rw [hmy]
    by_cases ho : ∃ m', m ≤ m' ∧ x = idx m' (i / 2 ^ m')
    · obtain ⟨m', h1, rfl⟩ := ho
      right
      have := hc.read.pos
      exact ⟨m', by omega, by rw [div_pow_congr hc.read.meet h1]⟩
    · rw [hc.read.old x fun m' h1 h2 => absurd ⟨m', h1, h2⟩ ho] at hx
      exact hi.held x k (hk x k hx)
  · rw [hcs]
    by_cases ha : IsAncestor d i x
    · obtain ⟨m', h0, hm', rfl⟩ := mem_path.1 ((isAncestor_iff hc.sender).1 ha)
      by_cases hF : idx m' (i / 2 ^ m') ∈ s'.filteredPath 0 i
      · rcases Nat.lt_or_ge m' m with hlt | hge
        · exact absurd hx (hlow m' h0 hlt k)
        · obtain ⟨n, k', hn', hx', hkp⟩ := hc.read.new m' hge hF
          rw [hq] at hn'
          cases hn'
          rw [hx] at hx'
          cases hx'
          exact hkp
      · rw [hc.blanked _ ha hF] at hq
        cases hq
    · rw [hc.offPath x (hpar x q hq) ha] at hq
      rw [hc.read.old x fun m' h1 h2 => by
        intro hF
        apply ha
        have := mem_filteredPath (s := s') (i := i) (j := 0) (Nat.div_eq_of_lt hc.sender)
          (by rw [Nat.zero_mul, Nat.zero_mul, Nat.sub_zero]; exact hF)
        exact (isAncestor_iff hc.sender).2 this] at hx
      obtain ⟨q0, h1, h2, _⟩ := hn hq
      rw [h2]
      exact hi.keys x q0 k h1 (hk x k hx)

/-! ### The steps -/

theorem finishCommit_inv {pr : Prims} (hc : pr.Correct) {st st' : GroupState} (hi : GroupInv pr st) {a : AuthenticatedContent}
    {c : Commit} {ps : List Proposal} {ss : List UInt32} {h : Heap} {t : RTree} {now : GoTime} {ids : List PreSharedKeyID}
    {psks : List Bytes} (hk : checkProposals pr st.group a.content.sender.leafIndex c = .ok (ps, ss))
    (ht : treeApply st.heap st.group.tree ps ss = .ok (h, t))
    (hf : finishCommit pr st.group h t a c ids psks now = .ok st') : GroupInv pr st' := by
  obtain ⟨_, _, g3, _, _, g6, _⟩ := finishCommit_group hf
  obtain ⟨_, pt, hp, ⟨hn, e1, e2, e3⟩ | ⟨path, ctx', sec, _, hpath⟩⟩ := finishCommit_parts hf
  · have := treeApply_noPath (.inr hi.tree) (checkProposals_path hk hn) ht
    have := hi.own
    exact hi.applied ht hp e1 e2 e3 g3 g6 (by omega)
  · obtain ⟨d, s, s', m, hpc⟩ := committed_path hc hi ht hpath
    exact hpc.inv hi ht hp g3 g6

/-- Whatever the message and the outcome. -/
theorem message_inv {pr : Prims} (hc : pr.Correct) {st st' : GroupState} (hi : GroupInv pr st) {raw : Bytes} {now : GoTime}
    {r : Res (Option Bytes)} (hr : unmarshalAndProcessMessage pr st raw now = (r, st')) : GroupInv pr st' := by
  by_cases ho : ∃ d, r = .ok d
  · obtain ⟨d, rfl⟩ := ho
    obtain ⟨a, e, _, ⟨p, hp, _, hpp⟩ | ⟨c, hcm, _, hpc⟩ | ⟨_, _, _, rfl, _⟩⟩ := accepted_cases hr
    · rcases processProposal_cases (pr := pr) st a p hp with ⟨ref, _, he⟩ | ⟨hne, _⟩
      · rw [hpp] at he
        obtain rfl := (Prod.mk.inj he).2
        exact ⟨hi.tree, hi.suite, hi.length, hi.own, hi.unmerged, hi.held, hi.keys⟩
      · rw [hpp] at hne
        exact absurd rfl hne
    · rcases processCommit_cases (pr := pr) st a c hcm [] [] now with ⟨ps, ss, h, t, st1, h1, h2, h3, h4⟩ | ⟨hne, _⟩
      · rw [hpc] at h4
        obtain rfl := (Prod.mk.inj h4).2
        exact finishCommit_inv hc hi h1 h2 h3
      · rw [hpc] at hne
        exact absurd rfl hne
    · exact hi
  · rcases rejected_cases hr (fun d hd => ho ⟨d, hd⟩) with rfl | ⟨a, e, c, ps, ss, h, t, _, _, _, h2, rfl, _⟩
    · exact hi
    · exact hi.heap (treeApply_grown h2) (treeApply_effect (.inr hi.tree) h2).2.2

theorem welcome_inv {pr : Prims} {st st' : GroupState} (hi : GroupInv pr st) {kps : List KeyPackage} {r : WelcomeRand}
    {o : Res (Welcome × Bytes)} (hr : createWelcome pr st kps r = (o, st')) : GroupInv pr st' := by
  unfold createWelcome at hr
  split at hr
  · cases hr; exact hi
  · split at hr
    · next h t ht =>
      cases hr
      exact hi.heap (treeApply_grown ht) (treeApply_effect (.inr hi.tree) ht).2.2
    all_goals cases hr; exact hi

theorem createGroup_inv {pr : Prims} {id : Bytes} {kp : KeyPairPackage} {rand : Nat → UInt8} {st : GroupState}
    (h : createGroup pr id kp rand = .ok st) : GroupInv pr st := by
  unfold createGroup at h
  simp only [Res.bind_ok_iff] at h
  obtain ⟨⟨hp, t⟩, h1, pt, h2, _, _, d, h3, _, _, _, _, _, _, _, _, h⟩ := h
  have e : treeAdd [] [none] kp.pub.leafNode = .ok ([], [some (.leaf kp.pub.leafNode)]) := rfl
  rw [e] at h1
  cases h1
  rw [Res.setIdx_ok_iff] at h2
  obtain ⟨_, rfl⟩ := h2
  cases h
  have hpar : ∀ x q, nodeAt (derefTree [] [some (.leaf kp.pub.leafNode)]) x ≠ some (.parent q) := by
    intro x q hq
    obtain ⟨p, hp, _⟩ := nodeAt_parent.1 hq
    cases x <;> simp at hp
  refine ⟨⟨⟨0, by omega, rfl⟩, ?_, ?_, ⟨?_, ?_⟩⟩, ⟨d, h3⟩, rfl, by simp, fun x q hq => absurd hq (hpar x q), fun x k hx => ?_,
    fun x q k hq => absurd hq (hpar x q)⟩
  · intro x l hx
    cases x with
    | zero => rfl
    | succ x => simp at hx
  · intro x p hx
    cases x <;> simp at hx
  · intro x p hx
    cases x <;> simp at hx
  · intro x y p hx
    cases x <;> simp at hx
  · cases x with
    | zero => exact .inl rfl
    | succ x => simp at hx

/-! ### Joining -/

theorem alloc_owned (t : VTree) : ∀ h : Heap, Owned (allocTree h t).1 (allocTree h t).2 ∧
    ∀ {x p : Nat}, (allocTree h t).2[x]? = some (some (.parent p)) → h.length ≤ p := by
  induction t with
  | nil => exact fun h => ⟨⟨by simp [allocTree], by simp [allocTree]⟩, by simp [allocTree]⟩
  | cons o t ih =>
    intro h
    have lift : ∀ (n : Option TNode) (hh : Heap) (tt : RTree), (∀ p, n ≠ some (.parent p)) → Owned hh tt ∧
        (∀ {x p : Nat}, tt[x]? = some (some (.parent p)) → h.length ≤ p) → Owned hh (n :: tt) ∧
        ∀ {x p : Nat}, (n :: tt)[x]? = some (some (.parent p)) → h.length ≤ p := by
      intro n hh tt hn ⟨ho, hp⟩
      refine ⟨⟨fun {x p} hx => ?_, fun {x y p} hx hy => ?_⟩, fun {x p} hx => ?_⟩
      · cases x with
        | zero => simp at hx; exact absurd hx (hn p)
        | succ x => exact ho.lt hx
      · cases x with
        | zero => simp at hx; exact absurd hx (hn p)
        | succ x =>
          cases y with
          | zero => simp at hy; exact absurd hy (hn p)
          | succ y => rw [ho.inj (x := x) (y := y) hx hy]
      · cases x with
        | zero => simp at hx; exact absurd hx (hn p)
        | succ x => exact hp (x := x) hx
    match o with
    | none => exact lift none _ _ (by simp) (ih h)
    | some (.leaf n) => exact lift (some (.leaf n)) _ _ (by simp) (ih h)
    | some (.parent q) =>
      obtain ⟨ho, hp⟩ := ih (h ++ [q])
      obtain ⟨⟨e, he⟩, _⟩ := deref_alloc t (h ++ [q])
      have hl : h.length < (allocTree (h ++ [q]) t).1.length := by rw [he]; simp
      show Owned (allocTree (h ++ [q]) t).1 (some (.parent h.length) :: (allocTree (h ++ [q]) t).2) ∧
        ∀ {x p : Nat}, (some (TNode.parent h.length) :: (allocTree (h ++ [q]) t).2)[x]? = some (some (.parent p)) → h.length ≤ p
      have hp' : ∀ {x p : Nat}, (allocTree (h ++ [q]) t).2[x]? = some (some (.parent p)) → h.length < p := by
        intro x p hx
        have := hp hx
        simp at this
        omega
      refine ⟨⟨fun {x p} hx => ?_, fun {x y p} hx hy => ?_⟩, fun {x p} hx => ?_⟩
      · cases x with
        | zero => simp at hx; subst hx; exact hl
        | succ x => exact ho.lt (x := x) hx
      · cases x with
        | zero =>
          simp at hx
          subst hx
          cases y with
          | zero => rfl
          | succ y => exact absurd (hp' (x := y) hy) (by omega)
        | succ x =>
          cases y with
          | zero => simp at hy; subst hy; exact absurd (hp' (x := x) hx) (by omega)
          | succ y => rw [ho.inj (x := x) (y := y) hx hy]
      · cases x with
        | zero => simp at hx; omega
        | succ x => exact Nat.le_of_lt (hp' (x := x) hx)

theorem findLeafLoop_lt {t : VTree} {n : LeafNode} : ∀ (k li i : Nat), findLeafLoop t n k li = .ok (some i) → i < li + k := by
  intro k
  induction k with
  | zero => intro li i h; simp [findLeafLoop] at h
  | succ k ih =>
    intro li i h
    simp only [findLeafLoop, Res.bind_ok_iff] at h
    obtain ⟨o, _, h⟩ := h
    split at h
    · have := ih _ _ h
      omega
    · split at h
      · have := ih _ _ h
        omega
      · split at h
        · simp only [Res.pure_eq, Res.ok.injEq] at h
          split at h
          · cases h; omega
          · cases h
        all_goals cases h

theorem processPathSecretLoop_ok {pr : Prims} {cs : UInt16} {v : VTree} {ps : Bytes} {d i : Nat} (hd : d ≤ 31) (hi : i < 2 ^ d)
    (hn : treeNumLeaves v = 2 ^ d) : ∀ (fuel k : Nat) (pt pt' : List (Option Bytes)), k ≤ d →
    processPathSecretLoop pr cs v ps fuel (idx k (i / 2 ^ k)) pt = .ok pt' →
    pt'.length = pt.length ∧ ∀ x, pt'[x]? = pt[x]? ∨ (Over i x ∧ Matches pr cs v pt' x) := by
  intro fuel
  induction fuel with
  | zero => intro k pt pt' _ h; simp [processPathSecretLoop] at h
  | succ fuel ih =>
    intro k pt pt' hk h
    unfold processPathSecretLoop at h
    rw [hn] at h
    rcases Nat.lt_or_ge k d with hkd | hkd
    · have hz : i / 2 ^ k / 2 ^ (d - k) = 0 := by
        rw [Nat.div_div_eq_div_mul, ← Nat.pow_add, show k + (d - k) = d from by omega]
        exact Nat.div_eq_of_lt hi
      have hpar := parent_idx hd hkd hz
      rw [Nat.div_div_eq_div_mul, ← Nat.pow_succ] at hpar
      rw [hpar] at h
      simp only [Res.bind_ok_iff] at h
      obtain ⟨inner, _, pub, h2, priv, h3, pt1, h4, h⟩ := h
      rw [Res.setIdx_ok_iff] at h4
      obtain ⟨hlt, rfl⟩ := h4
      obtain ⟨e1, e2⟩ := ih _ _ _ (by omega) h
      obtain ⟨n, hn, rfl⟩ := nodeKey_ok h2
      refine ⟨by rw [e1, List.length_set], fun x => ?_⟩
      rcases e2 x with he | he
      · by_cases hx : idx (k + 1) (i / 2 ^ (k + 1)) = x
        · subst hx
          rw [List.getElem?_set_self hlt] at he
          exact .inr ⟨⟨k + 1, by omega, rfl⟩, n, priv, hn, he, nodePriv_pair h3⟩
        · rw [List.getElem?_set_ne hx] at he
          exact .inl he
      · exact .inr he
    · obtain rfl : k = d := by omega
      rw [Nat.div_eq_of_lt hi, parent_root hd] at h
      cases h
      exact ⟨rfl, fun _ => .inl rfl⟩

theorem joinerPrivTree_ok {pr : Prims} {cs : UInt16} {v : VTree} {d i : Nat} {signer : UInt32} {ek : Bytes} {ps : Option Bytes}
    {pt : List (Option Bytes)} (hd : d ≤ 31) (hl : v.length = 2 ^ (d + 1) - 1) (hi : i < 2 ^ d)
    (hs : signer.toNat % 2 ^ 31 < 2 ^ d) (h : joinerPrivTree pr cs v i signer ek ps = .ok pt) :
    pt.length = v.length ∧ ∀ x k, pt[x]? = some (some k) → x = 2 * i ∨ (Over i x ∧ Matches pr cs v pt x) := by
  have h31 : i < 2 ^ 31 := Nat.lt_of_lt_of_le hi (Nat.pow_le_pow_right (by decide) hd)
  unfold joinerPrivTree at h
  simp only [Res.bind_ok_iff] at h
  obtain ⟨pt0, h0, h⟩ := h
  rw [Res.setIdx_ok_iff, nodeOfLeaf_idx h31] at h0
  obtain ⟨hlt, rfl⟩ := h0
  have hinit : ∀ (x : Nat) k, ((List.replicate v.length (none : Option Bytes)).set (idx 0 i) (some ek))[x]? = some (some k) →
      x = 2 * i := by
    intro x k hx
    by_contra hne
    rw [← idx_zero] at hne
    rw [List.getElem?_set_ne (Ne.symm hne), List.getElem?_replicate] at hx
    split at hx <;> simp at hx
  cases ps with
  | none =>
    cases h
    exact ⟨by simp, fun x k hx => .inl (hinit x k hx)⟩
  | some ps =>
    have hs31 : signer.toNat % 2 ^ 31 < 2 ^ 31 := Nat.mod_lt _ (by decide)
    obtain ⟨m, hmeet, hmin, hca⟩ := commonAncestor_leaves h31 hs31
    simp only [nodeOfLeaf_mod signer.toNat, nodeOfLeaf_idx h31, nodeOfLeaf_idx hs31, hca] at h
    unfold processPathSecret at h
    simp only [Res.bind_ok_iff] at h
    obtain ⟨pub, h2, priv, h3, pt1, h4, h⟩ := h
    rw [Res.setIdx_ok_iff] at h4
    obtain ⟨hlt', rfl⟩ := h4
    obtain ⟨n, hn, rfl⟩ := nodeKey_ok h2
    have hm : m ≤ d := hmin d (by rw [Nat.div_eq_of_lt hi, Nat.div_eq_of_lt hs])
    obtain ⟨e1, e2⟩ := processPathSecretLoop_ok hd hi (numLeaves_pow hd hl) 64 m _ _ hm h
    refine ⟨by rw [e1]; simp, fun x k hx => ?_⟩
    rcases e2 x with he | he
    · by_cases hx' : idx m (i / 2 ^ m) = x
      · subst hx'
        rcases Nat.eq_zero_or_pos m with rfl | hm0
        · left
          rw [Nat.pow_zero, Nat.div_one, idx_zero]
        · rw [List.getElem?_set_self hlt'] at he
          exact .inr ⟨⟨m, hm0, rfl⟩, n, priv, hn, he, nodePriv_pair h3⟩
      · rw [List.getElem?_set_ne hx'] at he
        rw [he] at hx
        exact .inl (hinit x k hx)
    · exact .inr he

theorem join_inv {pr : Prims} (hc : pr.Correct) {w : Welcome} {kp : KeyPairPackage} {now : GoTime} {st : GroupState}
    (h : groupFromWelcome pr w kp now = .ok st) : GroupInv pr st := by
  unfold groupFromWelcome at h
  simp only [Res.bind_ok_iff] at h
  obtain ⟨ref, _, gs, _, _, _, _, _, h⟩ := h
  obtain ⟨psk, info, raw, v, leaf, li, pt, _, _, _, hdec, hget, _, _, _, hv, hfind, hjoin, hh, ht, hctx, _, _, _, _, hmy, hpt, _⟩ :=
    groupFromSecrets_ok h
  obtain ⟨k, hk, hlen⟩ := C26_decoded_length hdec
  cases k with
  | zero =>
    have : v = [] := List.eq_nil_of_length_eq_zero (by simpa using hlen)
    subst this
    simp [getLeaf, Res.idx] at hget
  | succ d =>
    have hd : d ≤ 31 := by omega
    rw [C29_integrity hc hd hlen] at hv
    obtain ⟨sd, hsd, s, hs⟩ := hv
    have hpow : 2 ^ (d + 1) ≤ 2 ^ 31 := Nat.pow_le_pow_right (by decide) hk
    have hpd : 2 ^ (d + 1) = 2 * 2 ^ d := by rw [Nat.pow_succ]; omega
    have hvt : st.vtree = v := by
      unfold GroupState.vtree
      rw [hh, ht]
      exact (deref_alloc v []).2
    have hown : Holds st.heap st.group.tree s := by
      refine ⟨?_, ?_⟩
      · rw [hh, ht]; exact (alloc_owned v []).1
      · have := hs.array
        rw [← hvt] at this
        exact this
    have hli : li < 2 ^ d := by
      have := findLeafLoop_lt _ _ _ hfind
      rw [numLeaves_pow hd hlen] at this
      omega
    have hsg : info.signer.toNat % 2 ^ 31 < 2 ^ d := by
      rw [getLeaf_mod] at hget
      unfold getLeaf at hget
      simp only [Res.bind_ok_iff, Res.idx_ok_iff] at hget
      obtain ⟨o, hget, _⟩ := hget
      rw [nodeOfLeaf_idx (Nat.mod_lt _ (by decide)), idx_zero] at hget
      have := (List.getElem?_eq_some_iff.1 hget).1
      omega
    obtain ⟨j1, j2⟩ := joinerPrivTree_ok hd hlen hli hsg hjoin
    have hmy' : st.group.myLeafIndex.toNat = li := by
      rw [hmy, UInt32.toNat_ofNat']
      omega
    have hl : st.group.tree.length = v.length := by rw [← hvt]; unfold GroupState.vtree; rw [derefTree_length]
    refine ⟨hown.valid hd, ⟨sd, by rw [hctx]; exact hsd⟩, by rw [hpt, j1, hl], by rw [hmy', hl]; omega, fun x q hq u hu => ?_,
      fun x k hx => ?_, fun x q k hq hx => ?_⟩
    · rw [hvt] at hq
      obtain ⟨below, above, h1, _⟩ := hs.unmerged x q hq u hu
      have hnum : Spec.leafNumber u = 2 * (u.toNat % 2 ^ 31) := by
        unfold Spec.leafNumber
        omega
      rw [hnum] at h1
      have hlt : u.toNat % 2 ^ 31 < 2 ^ d := by
        by_contra hge
        have hnone : (ITree.perfect d 0).ancestors (2 * (u.toNat % 2 ^ 31)) = none := by
          refine ancestors_none ?_
          have := mem_perfect_range d 0 (2 * (u.toNat % 2 ^ 31))
          rw [Nat.zero_mul] at this
          rw [this]
          omega
        rw [hnone] at h1
        cases h1
      exact IsAncestor.over hlt ⟨_, h1, by simp⟩
    · rw [hpt] at hx
      rw [hmy']
      rcases j2 x k hx with hx | hx
      · exact .inl hx
      · exact .inr hx.1
    · rw [hvt] at hq
      rw [hpt] at hx
      rcases j2 x k hx with he | ⟨_, n, k', h1, h2, h3⟩
      · subst he
        rw [← hvt] at hq
        obtain ⟨p, hp, _⟩ := nodeAt_parent.1 hq
        have := (hown.valid hd).parents hp
        omega
      · rw [hq] at h1
        cases h1
        rw [hx] at h2
        cases h2
        rw [hctx]
        exact h3

/-! ### Reachable groups -/

theorem Reachable.inv {pr : Prims} (hc : pr.Correct) {st : GroupState} (h : Reachable pr st) : GroupInv pr st := by
  induction h with
  | create h => exact createGroup_inv h
  | join h => exact join_inv hc h
  | message _ h _ ih => exact message_inv hc ih h
  | invite _ h _ ih => exact welcome_inv ih h

end Mls
