import Verif.Proofs.Invariant
import Verif.Props.GroupEffects
/-
A commit that removes the member processing it: the keys the member holds are of no use, unless an
Add of the same commit takes its place in the tree.
-/
namespace Mls

open Spec (Ratchet ITree nodeAt IsAncestor)

/-- Every node of `t'` is a node of `t` at the same place. -/
def From (t' t : RTree) : Prop := ∀ (x : Nat) n, t'[x]? = some (some n) → t[x]? = some (some n)

theorem From.trans {a b c : RTree} (h : From a b) (h' : From b c) : From a c := fun x n hx => h' x n (h x n hx)

theorem From.set_none (t : RTree) (i : Nat) : From (t.set i none) t := by
  intro x n hx
  rw [List.getElem?_set] at hx
  split at hx
  · split at hx <;> simp at hx
  · exact hx

theorem From.take (t : RTree) (n : Nat) : From (t.take n) t := by
  intro x m hx
  rw [List.getElem?_take] at hx
  split at hx
  · exact hx
  · cases hx

theorem blankPath_from {n : Nat} : ∀ (fuel : Nat) (t : RTree) (x : Nat) (t' : RTree),
    blankPath n fuel t x = .ok t' → From t' t ∧ x < t.length := by
  intro fuel
  induction fuel with
  | zero => intro t x t' h; simp [blankPath] at h
  | succ fuel ih =>
    intro t x t' h
    unfold blankPath at h
    simp only [Res.bind_ok_iff] at h
    obtain ⟨t1, h1, h⟩ := h
    obtain ⟨hlt, rfl⟩ := Res.setIdx_ok_iff.1 h1
    refine ⟨?_, hlt⟩
    split at h
    · cases h; exact From.set_none _ _
    · exact From.trans (ih _ _ _ h).1 (From.set_none _ _)

theorem treeRemove_from {t t' : RTree} {li : Nat} (h : treeRemove t li = .ok t') :
    From t' t ∧ nodeOfLeaf li < t.length := by
  unfold treeRemove at h
  simp only [Res.bind_ok_iff] at h
  obtain ⟨t1, h1, r, h2, h⟩ := h
  obtain ⟨e1, e2⟩ := blankPath_from _ _ _ _ h1
  refine ⟨From.trans ?_ e1, e2⟩
  cases r with
  | none => cases h; intro x p hx; simp at hx
  | some L =>
    simp only at h
    split at h
    · cases h; exact From.take _ _
    · cases h; exact fun _ _ hx => hx

/-- A removed leaf and the nodes above it are blank. -/
theorem treeRemove_blank {h : Heap} {t t' : RTree} {li : Nat} (hv : ValidOrEmpty h t) (hr : treeRemove t li = .ok t')
    {x : Nat} (hx : x = 2 * (li % 2 ^ 31) ∨ Over (li % 2 ^ 31) x) (n : TNode) : t'[x]? ≠ some (some n) := by
  intro hn
  have hlt := (treeRemove_from hr).2
  rw [treeRemove_mod] at hr
  rw [nodeOfLeaf_mod, nodeOfLeaf_idx (Nat.mod_lt _ (by decide)), idx_zero] at hlt
  rcases hv with rfl | hv
  · simp at hlt
  · obtain ⟨t2, d, h1, _, hl, hle, h2, _⟩ := C22_remove hv hlt
    rw [hr] at h1
    cases h1
    have hxl := (List.getElem?_eq_some_iff.1 hn).1
    have := h2 x hxl (hx.imp id fun ho => (ho.inside (d := d) (by omega)).2)
    unfold nodeAt at this
    rw [derefTree_get, hn] at this
    simp at this

theorem applyRemoves_from : ∀ (ps : List Proposal) (t t' : RTree), applyRemoves ps t = .ok t' → From t' t := by
  intro ps
  induction ps with
  | nil => intro t t' hr; simp only [applyRemoves] at hr; cases hr; exact fun _ _ h => h
  | cons p ps ih =>
    intro t t' hr
    cases p with
    | remove li =>
      simp only [applyRemoves, Res.bind_ok_iff] at hr
      obtain ⟨t1, h1, hr⟩ := hr
      exact (ih _ _ hr).trans (treeRemove_from h1).1
    | add | update | psk | reInit | externalInit | groupContextExtensions => exact ih _ _ hr

theorem applyRemoves_blank {h : Heap} {li : UInt32} : ∀ (ps : List Proposal) (t t' : RTree), ValidOrEmpty h t →
    applyRemoves ps t = .ok t' → .remove li ∈ ps →
    ∀ {x : Nat}, x = 2 * (li.toNat % 2 ^ 31) ∨ Over (li.toNat % 2 ^ 31) x → ∀ n, t'[x]? ≠ some (some n) := by
  intro ps
  induction ps with
  | nil => intro t t' _ _ hm; cases hm
  | cons p ps ih =>
    intro t t' hv hr hm x hx n hn
    cases p with
    | remove lj =>
      simp only [applyRemoves, Res.bind_ok_iff] at hr
      obtain ⟨t1, h1, hr⟩ := hr
      rcases List.mem_cons.1 hm with he | hm
      · cases he
        exact treeRemove_blank hv h1 hx n (applyRemoves_from _ _ _ hr x n hn)
      · exact ih _ _ (valid_treeRemove hv h1) hr hm hx n hn
    | add | update | psk | reInit | externalInit | groupContextExtensions =>
      rcases List.mem_cons.1 hm with he | hm
      · cases he
      · exact ih _ _ hv hr hm hx n hn

/-- Every leaf of the tree after adding was there, or is one of those added. -/
theorem applyAdds_leaves : ∀ (ps : List Proposal) (h : Heap) (t : RTree) (h' : Heap) (t' : RTree),
    applyAdds ps h t = .ok (h', t') → ∀ (x : Nat) l, t'[x]? = some (some (.leaf l)) →
    t[x]? = some (some (.leaf l)) ∨ ∃ k, .add k ∈ ps ∧ l = k.leafNode := by
  intro ps
  induction ps with
  | nil =>
    intro h t h' t' hr x l hx
    simp only [applyAdds] at hr
    cases hr
    exact .inl hx
  | cons p ps ih =>
    intro h t h' t' hr x l hx
    cases p with
    | add k =>
      simp only [applyAdds, Res.bind_ok_iff] at hr
      obtain ⟨⟨h1, t1⟩, h2, hr⟩ := hr
      rcases ih _ _ _ _ hr x l hx with hx1 | ⟨k', hk, rfl⟩
      · unfold treeAdd at h2
        simp only [Res.bind_ok_iff] at h2
        obtain ⟨⟨li, found⟩, _, _, _, t2, h3, he⟩ := h2
        rw [Res.setIdx_ok_iff] at h3
        obtain ⟨hlt, rfl⟩ := h3
        cases he
        simp only at hx1 hlt
        rw [List.getElem?_set] at hx1
        split at hx1
        · cases hx1
          exact .inr ⟨k, List.mem_cons_self, rfl⟩
        · left
          split at hx1
          · exact hx1
          · rw [List.getElem?_append] at hx1
            split at hx1
            · exact hx1
            · rw [List.getElem?_replicate] at hx1
              split at hx1 <;> simp at hx1
      · exact .inr ⟨k', List.mem_cons_of_mem _ hk, rfl⟩
    | update | remove | psk | reInit | externalInit | groupContextExtensions =>
      rcases ih _ _ _ _ hr x l hx with hx1 | ⟨k', hk, rfl⟩
      · exact .inl hx1
      · exact .inr ⟨k', List.mem_cons_of_mem _ hk, rfl⟩

/-- After applying proposals that remove leaf `li`: the nodes above it are blank, and so is its place, unless
one of the added leaves is there. -/
theorem treeApply_removed {h h' : Heap} {t t' : RTree} {ps : List Proposal} {ss : List UInt32} (hv : ValidOrEmpty h t)
    (hr : treeApply h t ps ss = .ok (h', t')) {li : UInt32} (hm : .remove li ∈ ps) :
    (∀ x, Over (li.toNat % 2 ^ 31) x → nodeAt (derefTree h' t') x = none) ∧
    (nodeAt (derefTree h' t') (2 * (li.toNat % 2 ^ 31)) = none ∨
      ∃ k, .add k ∈ ps ∧ nodeAt (derefTree h' t') (2 * (li.toNat % 2 ^ 31)) = some (.leaf k.leafNode)) := by
  obtain ⟨hv', _, _⟩ := treeApply_effect hv hr
  unfold treeApply at hr
  simp only [Res.bind_ok_iff] at hr
  obtain ⟨t1, h1, t2, h2, h3⟩ := hr
  obtain ⟨v1, _⟩ := applyUpdates_effect _ _ _ _ hv h1
  obtain ⟨v2, _⟩ := applyRemoves_effect _ _ _ v1 h2
  obtain ⟨_, s3, _, _⟩ := applyAdds_effect _ _ _ _ _ v2 h3
  have hb := fun {x} => applyRemoves_blank (x := x) _ _ _ v1 h2 hm
  have hshape : ∀ (x : Nat) n, t'[x]? = some (some n) → match n with | .leaf _ => x % 2 = 0 | .parent _ => x % 2 = 1 := by
    intro x n hx
    rcases hv' with rfl | hv'
    · simp at hx
    · cases n with
      | leaf l => exact hv'.leaves hx
      | parent p => exact hv'.parents hx
  constructor
  · intro x hx
    cases hn : nodeAt (derefTree h' t') x with
    | none => rfl
    | some n =>
      exfalso
      have hodd := hx.odd
      rw [nodeAt_some, derefTree_get] at hn
      cases ht : t'[x]? with
      | none => rw [ht] at hn; simp at hn
      | some o =>
        cases o with
        | none => rw [ht] at hn; simp at hn
        | some q =>
          have hq := hshape x q ht
          cases q with
          | leaf l => exact absurd hq (by simp only; omega)
          | parent p => exact hb (.inr hx) _ (s3 x p ht)
  · cases hn : nodeAt (derefTree h' t') (2 * (li.toNat % 2 ^ 31)) with
    | none => exact .inl rfl
    | some n =>
      right
      rw [nodeAt_some, derefTree_get] at hn
      cases ht : t'[2 * (li.toNat % 2 ^ 31)]? with
      | none => rw [ht] at hn; simp at hn
      | some o =>
        cases o with
        | none => rw [ht] at hn; simp at hn
        | some q =>
          rw [ht] at hn
          have hq := hshape _ q ht
          cases q with
          | leaf l =>
            simp only [Option.map_some, TNode.deref, Option.some.injEq] at hn
            subst hn
            rcases applyAdds_leaves _ _ _ _ _ h3 _ _ ht with hx | ⟨k, hk, rfl⟩
            · exact absurd hx (hb (.inl rfl) _)
            · exact ⟨k, hk, rfl⟩
          | parent p => exact absurd hq (by simp only; omega)

/-- The nodes of a resolution are nodes of the subtree that are not blank, or unmerged leaves of such nodes. -/
theorem mem_resolution {t : VTree} {k j : Nat} {s : Ratchet ParentNode k} (h : VAt t j s) {x : Nat}
    (hx : x ∈ s.resolution (j * 2 ^ (k + 1))) :
    (∃ m y, Below k j m y ∧ x = idx m y ∧ nodeAt t x ≠ none) ∨
    ∃ m y q u, Below k j m y ∧ nodeAt t (idx m y) = some (.parent q) ∧ u ∈ q.unmergedLeaves ∧ x = Spec.leafNumber u := by
  induction s generalizing j with
  | leaf n =>
    cases n with
    | none => simp [Ratchet.resolution] at hx
    | some l =>
      simp only [Ratchet.resolution, List.mem_singleton] at hx
      subst hx
      refine .inl ⟨0, j, .refl _ _, by simp [idx], ?_⟩
      have h' : t[idx 0 j]? = some (some (Node.leaf l)) := h
      rw [show j * 2 ^ (0 + 1) = idx 0 j from by simp [idx], nodeAt_eq h']
      simp
  | @node k p l r ihl ihr =>
    cases p with
    | none =>
      simp only [Ratchet.resolution, List.mem_append] at hx
      rcases hx with hx | hx
      · rw [← off_succ_left] at hx
        rcases ihl h.2.1 hx with ⟨m, y, hb, e⟩ | ⟨m, y, q, u, hb, e⟩
        · exact .inl ⟨m, y, hb.left, e⟩
        · exact .inr ⟨m, y, q, u, hb.left, e⟩
      · rw [← off_succ_right] at hx
        rcases ihr h.2.2 hx with ⟨m, y, hb, e⟩ | ⟨m, y, q, u, hb, e⟩
        · exact .inl ⟨m, y, hb.right, e⟩
        · exact .inr ⟨m, y, q, u, hb.right, e⟩
    | some p =>
      simp only [Ratchet.resolution, List.mem_cons, List.mem_map] at hx
      have hp : nodeAt t (idx (k + 1) j) = some (.parent p) := nodeAt_eq h.1
      rcases hx with rfl | ⟨u, hu, rfl⟩
      · refine .inl ⟨k + 1, j, .refl _ _, by rw [idx_off], ?_⟩
        rw [← idx_off, hp]
        simp
      · exact .inr ⟨k + 1, j, p, u, .refl _ _, hp, hu, rfl⟩

/-- A member that follows a commit with a path has used a key of a node below the copath node: its own leaf, or a
node above its leaf that is not blank. In both cases the commit itself has not touched that node. -/
theorem PathCommitted.key {pr : Prims} {st st' : GroupState} {h : Heap} {t : RTree} {pt : List (Option Bytes)} {i : Nat}
    {path : UpdatePath} {d : Nat} {s s' : Ratchet ParentNode d} {m : Nat}
    (hc : PathCommitted pr st st' h t pt i path d s s' m) (hi : GroupInv pr st) (hi' : GroupInv pr st')
    (hpt : copyPrivTree st.group.privTree st.group.tree.length t.length = .ok pt) :
    ∃ x, (x = 2 * st.group.myLeafIndex.toNat ∨ Over st.group.myLeafIndex.toNat x) ∧
      nodeAt (derefTree h t) x ≠ none := by
  obtain ⟨res, k, hres, x, hx, hk⟩ := hc.read.used
  have hown := hc.own
  have hpos := hc.read.pos
  have hle := hc.read.le
  have hroot : VAt st'.vtree 0 s' := by
    have := at_flat Node.leaf Node.parent s'
    rw [← hc.after.flat] at this
    exact this
  have hbelow : Below d 0 (m - 1) (st.group.myLeafIndex.toNat / 2 ^ (m - 1)) := by
    refine ⟨by omega, ?_⟩
    rw [Nat.div_div_eq_div_mul, ← Nat.pow_add, show m - 1 + (d - (m - 1)) = d from by omega]
    exact Nat.div_eq_of_lt hown
  obtain ⟨sub, hsub⟩ := at_sub hroot hbelow
  have hlen : st'.vtree.length < 2 ^ 32 := by
    have := hc.after.length
    unfold GroupState.vtree
    rw [derefTree_length, this]
    exact pow_tree_lt hc.depth
  rw [resolve_spec hlen hsub (by have := hc.depth; omega)] at hres
  cases hres
  -- nodes below the copath node are not on the sender's path
  have hoff : ∀ {m' y : Nat}, Below (m - 1) (st.group.myLeafIndex.toNat / 2 ^ (m - 1)) m' y →
      nodeAt st'.vtree (idx m' y) = nodeAt (derefTree h t) (idx m' y) := by
    intro m' y hb
    obtain ⟨o1, o2⟩ := off_path (d := d) (i := i) hc.read.apart hb
    refine hc.offPath _ (by rw [← idx_zero]; exact o2) fun ha => o1 ((isAncestor_iff hc.sender).1 ha)
  have hheld := hi.held _ _ ((copyPrivTree_ok hpt).2 x k hk)
  rcases mem_resolution hsub hx with ⟨m', y, hb, rfl, hn⟩ | ⟨m', y, q, u, hb, hq, hu, rfl⟩
  · exact ⟨_, hheld, by rw [← hoff hb]; exact hn⟩
  · have hnum : Spec.leafNumber u = 2 * (u.toNat % 2 ^ 31) := by
      unfold Spec.leafNumber
      omega
    have ho := hi'.unmerged _ _ hq u hu
    rcases hheld with he | he
    · rw [hnum] at he
      have he : u.toNat % 2 ^ 31 = st.group.myLeafIndex.toNat := by omega
      rw [he] at ho
      exact ⟨_, .inr ho, by rw [← hoff hb, hq]; simp⟩
    · have := he.odd
      rw [hnum] at this
      omega

/-- A member can follow a commit that removes it only if an Add of the same commit takes its place. -/
theorem removed_slot {pr : Prims} (hc : pr.Correct) {st st' : GroupState} (hi : GroupInv pr st) {a : AuthenticatedContent}
    {c : Commit} {ps : List Proposal} {ss : List UInt32} {h : Heap} {t : RTree} {now : GoTime} {ids : List PreSharedKeyID}
    {psks : List Bytes} (hk : checkProposals pr st.group a.content.sender.leafIndex c = .ok (ps, ss))
    (ht : treeApply st.heap st.group.tree ps ss = .ok (h, t))
    (hf : finishCommit pr st.group h t a c ids psks now = .ok st') {li : UInt32} (hm : .remove li ∈ ps)
    (hli : li.toNat % 2 ^ 31 = st.group.myLeafIndex.toNat) :
    ∃ k, .add k ∈ ps ∧ nodeAt st'.vtree (2 * st.group.myLeafIndex.toNat) = some (.leaf k.leafNode) := by
  have hi' := finishCommit_inv hc hi hk ht hf
  obtain ⟨_, pt, hp, ⟨hn, _⟩ | ⟨path, ctx', sec, _, hpath⟩⟩ := finishCommit_parts hf
  · have := checkProposals_path hk hn _ hm
    simp [Proposal.needsPath] at this
  · obtain ⟨d, s, s', m, hpc⟩ := committed_path hc hi ht hpath
    obtain ⟨x, hx, hne⟩ := hpc.key hi hi' hp
    obtain ⟨b1, b2⟩ := treeApply_removed (.inr hi.tree) ht hm
    rw [hli] at b1 b2
    have hown := hpc.offPath (2 * st.group.myLeafIndex.toNat)
      (fun he => hpc.read.apart (by rw [show a.content.sender.leafIndex.toNat % 2 ^ 31 = st.group.myLeafIndex.toNat from by omega]))
      (fun ha => by
        have := (IsAncestor.over hpc.sender ha).odd
        omega)
    rw [hown]
    rcases hx with rfl | hx
    · rcases b2 with b2 | b2
      · exact absurd b2 hne
      · exact b2
    · exact absurd (b1 x hx) hne

/-- What an accepted commit went through. -/
theorem accepted_commit {pr : Prims} {st st' : GroupState} {raw : Bytes} {now : GoTime} {r : Option Bytes}
    {a : AuthenticatedContent} {e : Bool} {c : Commit} (hc : Carries pr st raw a e) (hk : a.content.content = .commit c)
    (h : unmarshalAndProcessMessage pr st raw now = (.ok r, st')) :
    ∃ l h t, Spec.resolve a.content.sender.leafIndex st.group.pendingProposals c.proposals = some l ∧
      checkProposals pr st.group a.content.sender.leafIndex c = .ok (l.map (·.1), l.map (·.2)) ∧
      treeApply st.heap st.group.tree (l.map (·.1)) (l.map (·.2)) = .ok (h, t) ∧
      finishCommit pr st.group h t a c [] [] now = .ok st' := by
  obtain ⟨a', e', hc', h⟩ := accepted_cases h
  obtain ⟨rfl, _⟩ := hc.unique hc'
  rcases h with ⟨_, hk', _⟩ | ⟨c', hk', rfl, hp⟩ | ⟨_, hk', _⟩
  · rw [hk] at hk'; cases hk'
  · rcases processCommit_cases (pr := pr) st a c hk [] [] now with ⟨ps, ss, h, t, st2, h1, h2, hf, hp'⟩ | ⟨hp', _⟩
    · rw [hp'] at hp; cases hp
      have h1' := h1
      unfold checkProposals at h1
      simp only [Res.bind_ok_iff] at h1
      obtain ⟨⟨ps', ss'⟩, h3, _, _, _, _, _, _, h4⟩ := h1
      simp only [Res.pure_eq, Res.ok.injEq, Prod.mk.injEq] at h4
      obtain ⟨rfl, rfl⟩ := h4
      rw [resolveProposals_eq, orErr_ok_iff] at h3
      simp only [Option.map_eq_some_iff, Prod.mk.injEq] at h3
      obtain ⟨l, hl, rfl, rfl⟩ := h3
      exact ⟨l, h, t, hl, h1', h2, hf⟩
    · rw [hp] at hp'; exact absurd rfl hp'
  · rw [hk] at hk'; cases hk'

end Mls
