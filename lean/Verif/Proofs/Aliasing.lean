import Verif.Proofs.Group
/-
What applying proposals to a shallow copy does to the parent nodes shared with the original.
-/
namespace Mls

variable {pr : Prims}

/-- `q` is `p` with leaves appended to its unmerged leaves. -/
structure Grown (p q : ParentNode) : Prop where
  key : q.encryptionKey = p.encryptionKey
  parentHash : q.parentHash = p.parentHash
  unmerged : p.unmergedLeaves <+: q.unmergedLeaves

theorem Grown.refl (p : ParentNode) : Grown p p := ⟨rfl, rfl, List.prefix_refl _⟩

theorem Grown.trans {p q r : ParentNode} (h : Grown p q) (h' : Grown q r) : Grown p r :=
  ⟨h'.key.trans h.key, h'.parentHash.trans h.parentHash, h.unmerged.trans h'.unmerged⟩

/-- Every parent node has at most grown. -/
structure HeapGrown (h h' : Heap) : Prop where
  length : h'.length = h.length
  nodes : ∀ i, Grown (h.getD i default) (h'.getD i default)

theorem HeapGrown.refl (h : Heap) : HeapGrown h h := ⟨rfl, fun _ => .refl _⟩

theorem HeapGrown.trans {a b c : Heap} (h : HeapGrown a b) (h' : HeapGrown b c) : HeapGrown a c :=
  ⟨h'.length.trans h.length, fun i => (h.nodes i).trans (h'.nodes i)⟩

theorem HeapGrown.modify (h : Heap) (ptr : Nat) (li : UInt32) :
    HeapGrown h (h.modify ptr fun q => { q with unmergedLeaves := q.unmergedLeaves ++ [li] }) := by
  refine ⟨by simp, fun i => ?_⟩
  simp only [List.getD_eq_getElem?_getD, List.getElem?_modify]
  rcases h[i]? with _ | q
  · exact .refl _
  · by_cases hp : ptr = i
    · simp only [hp, if_true, Option.map_eq_map, Option.map_some, Option.getD_some]
      exact ⟨rfl, rfl, ⟨[li], rfl⟩⟩
    · simp only [hp, if_false, Option.map_eq_map, Option.map_some, Option.getD_some]
      exact .refl _

theorem addAncestors_grown {t : RTree} {n : Nat} {li : UInt32} :
    ∀ (fuel : Nat) (h : Heap) (x : Nat) (h' : Heap), addAncestors t n li fuel h x = .ok h' → HeapGrown h h' := by
  intro fuel
  induction fuel with
  | zero => intro h x h' hr; simp [addAncestors] at hr
  | succ fuel ih =>
    intro h x h' hr
    unfold addAncestors at hr
    split at hr
    · cases hr; exact .refl _
    · simp only [Res.bind_ok_iff] at hr
      obtain ⟨node, _, hr⟩ := hr
      split at hr
      · exact ih _ _ _ hr
      · simp at hr
      · exact (HeapGrown.modify _ _ _).trans (ih _ _ _ hr)

theorem treeAdd_grown {h h' : Heap} {t t' : RTree} {leaf : LeafNode} (hr : treeAdd h t leaf = .ok (h', t')) :
    HeapGrown h h' := by
  unfold treeAdd at hr
  simp only [Res.bind_ok_iff] at hr
  obtain ⟨⟨li, found⟩, _, h1, h2, t1, _, he⟩ := hr
  cases he
  exact addAncestors_grown _ _ _ _ h2

theorem applyAdds_grown : ∀ (ps : List Proposal) (h : Heap) (t : RTree) (h' : Heap) (t' : RTree),
    applyAdds ps h t = .ok (h', t') → HeapGrown h h' := by
  intro ps
  induction ps with
  | nil => intro h t h' t' hr; simp only [applyAdds] at hr; cases hr; exact .refl _
  | cons p ps ih =>
    intro h t h' t' hr
    cases p with
    | add k =>
      simp only [applyAdds, Res.bind_ok_iff] at hr
      obtain ⟨⟨h1, t1⟩, h2, hr⟩ := hr
      exact (treeAdd_grown h2).trans (ih _ _ _ _ hr)
    | update | remove | psk | reInit | externalInit | groupContextExtensions => exact ih _ _ _ _ hr

theorem treeApply_grown {h h' : Heap} {t t' : RTree} {ps : List Proposal} {ss : List UInt32}
    (hr : treeApply h t ps ss = .ok (h', t')) : HeapGrown h h' := by
  unfold treeApply at hr
  simp only [Res.bind_ok_iff] at hr
  obtain ⟨_, _, _, _, hr⟩ := hr
  exact applyAdds_grown _ _ _ _ _ hr

/-! ### No add proposal -/

/-- The proposal is an add. -/
def Proposal.isAdd : Proposal → Bool
  | .add _ => true
  | _ => false

theorem applyAdds_none : ∀ (ps : List Proposal) (h : Heap) (t : RTree), (∀ p ∈ ps, p.isAdd = false) →
    applyAdds ps h t = .ok (h, t) := by
  intro ps
  induction ps with
  | nil => intro h t _; rfl
  | cons p ps ih =>
    intro h t hp
    cases p with
    | add k => exact absurd (hp (.add k) (by simp)) (by simp [Proposal.isAdd])
    | update | remove | psk | reInit | externalInit | groupContextExtensions =>
      exact ih _ _ fun q hq => hp q (by simp [hq])

theorem treeApply_noAdd {h h' : Heap} {t t' : RTree} {ps : List Proposal} {ss : List UInt32}
    (hp : ∀ p ∈ ps, p.isAdd = false) (hr : treeApply h t ps ss = .ok (h', t')) : h' = h := by
  unfold treeApply at hr
  simp only [Res.bind_ok_iff] at hr
  obtain ⟨_, _, _, _, hr⟩ := hr
  rw [applyAdds_none _ _ _ hp] at hr
  cases hr; rfl

/-! ### No parent node -/

/-- Every parent position is blank. -/
def NoParents (t : RTree) : Prop := ∀ p, some (TNode.parent p) ∉ t

theorem NoParents.set {t : RTree} (h : NoParents t) (i : Nat) (l : LeafNode) :
    NoParents (t.set i (some (.leaf l))) := by
  intro p hm
  rcases List.mem_or_eq_of_mem_set hm with hm | hm
  · exact h p hm
  · cases hm

theorem NoParents.set_none {t : RTree} (h : NoParents t) (i : Nat) : NoParents (t.set i none) := by
  intro p hm
  rcases List.mem_or_eq_of_mem_set hm with hm | hm
  · exact h p hm
  · cases hm

theorem NoParents.grow {t : RTree} (h : NoParents t) (k : Nat) : NoParents (t ++ List.replicate k none) := by
  intro p hm
  simp only [List.mem_append, List.mem_replicate, reduceCtorEq, and_false, or_false] at hm
  exact h p hm

theorem NoParents.take {t : RTree} (h : NoParents t) (k : Nat) : NoParents (t.take k) :=
  fun p hm => h p (List.mem_of_mem_take hm)

theorem addAncestors_noParents {t : RTree} {n : Nat} {li : UInt32} (hn : NoParents t) :
    ∀ (fuel : Nat) (h : Heap) (x : Nat) (h' : Heap), addAncestors t n li fuel h x = .ok h' → h' = h := by
  intro fuel
  induction fuel with
  | zero => intro h x h' hr; simp [addAncestors] at hr
  | succ fuel ih =>
    intro h x h' hr
    unfold addAncestors at hr
    split at hr
    · cases hr; rfl
    · simp only [Res.bind_ok_iff] at hr
      obtain ⟨node, hi, hr⟩ := hr
      split at hr
      · exact ih _ _ _ hr
      · simp at hr
      · exact absurd (List.mem_of_getElem? (Res.idx_ok_iff.1 hi)) (hn _)

theorem treeAdd_noParents {h h' : Heap} {t t' : RTree} {leaf : LeafNode} (hn : NoParents t)
    (hr : treeAdd h t leaf = .ok (h', t')) : h' = h ∧ NoParents t' := by
  unfold treeAdd at hr
  simp only [Res.bind_ok_iff] at hr
  obtain ⟨⟨li, found⟩, _, h1, h2, t1, h3, he⟩ := hr
  cases he
  have hn' : NoParents (if found = true then t else t ++ List.replicate (t.length + 1) none) := by
    split
    · exact hn
    · exact hn.grow _
  obtain ⟨_, rfl⟩ := Res.setIdx_ok_iff.1 h3
  exact ⟨addAncestors_noParents hn' _ _ _ _ h2, hn'.set _ _⟩

theorem applyAdds_noParents : ∀ (ps : List Proposal) (h : Heap) (t : RTree) (h' : Heap) (t' : RTree),
    NoParents t → applyAdds ps h t = .ok (h', t') → h' = h ∧ NoParents t' := by
  intro ps
  induction ps with
  | nil => intro h t h' t' hn hr; simp only [applyAdds] at hr; cases hr; exact ⟨rfl, hn⟩
  | cons p ps ih =>
    intro h t h' t' hn hr
    cases p with
    | add k =>
      simp only [applyAdds, Res.bind_ok_iff] at hr
      obtain ⟨⟨h1, t1⟩, h2, hr⟩ := hr
      obtain ⟨rfl, hn1⟩ := treeAdd_noParents hn h2
      exact ih _ _ _ _ hn1 hr
    | update | remove | psk | reInit | externalInit | groupContextExtensions => exact ih _ _ _ _ hn hr

theorem blankAncestors_noParents {n : Nat} : ∀ (fuel : Nat) (t : RTree) (x : Nat) (t' : RTree),
    NoParents t → blankAncestors n fuel t x = .ok t' → NoParents t' := by
  intro fuel
  induction fuel with
  | zero => intro t x t' _ hr; simp [blankAncestors] at hr
  | succ fuel ih =>
    intro t x t' hn hr
    unfold blankAncestors at hr
    split at hr
    · cases hr; exact hn
    · simp only [Res.bind_ok_iff] at hr
      obtain ⟨t1, h1, hr⟩ := hr
      obtain ⟨_, rfl⟩ := Res.setIdx_ok_iff.1 h1
      exact ih _ _ _ (hn.set_none _) hr

theorem blankPath_noParents {n : Nat} : ∀ (fuel : Nat) (t : RTree) (x : Nat) (t' : RTree),
    NoParents t → blankPath n fuel t x = .ok t' → NoParents t' := by
  intro fuel
  induction fuel with
  | zero => intro t x t' _ hr; simp [blankPath] at hr
  | succ fuel ih =>
    intro t x t' hn hr
    unfold blankPath at hr
    simp only [Res.bind_ok_iff] at hr
    obtain ⟨t1, h1, hr⟩ := hr
    obtain ⟨_, rfl⟩ := Res.setIdx_ok_iff.1 h1
    split at hr
    · cases hr; exact hn.set_none _
    · exact ih _ _ _ (hn.set_none _) hr

theorem treeUpdate_noParents {t t' : RTree} {li : Nat} {leaf : LeafNode} (hn : NoParents t)
    (hr : treeUpdate t li leaf = .ok t') : NoParents t' := by
  unfold treeUpdate at hr
  simp only [Res.bind_ok_iff] at hr
  obtain ⟨t1, h1, hr⟩ := hr
  obtain ⟨_, rfl⟩ := Res.setIdx_ok_iff.1 h1
  exact blankAncestors_noParents _ _ _ _ (hn.set _ _) hr

theorem treeRemove_noParents {t t' : RTree} {li : Nat} (hn : NoParents t)
    (hr : treeRemove t li = .ok t') : NoParents t' := by
  unfold treeRemove at hr
  simp only [Res.bind_ok_iff] at hr
  obtain ⟨t1, h1, last, h2, hr⟩ := hr
  have hn1 := blankPath_noParents _ _ _ _ hn h1
  split at hr
  · cases hr; intro p; simp
  · split at hr
    · cases hr; exact hn1.take _
    · cases hr; exact hn1

theorem applyUpdates_noParents {ss : List UInt32} : ∀ (ps : List Proposal) (i : Nat) (t t' : RTree),
    NoParents t → applyUpdates ss i ps t = .ok t' → NoParents t' := by
  intro ps
  induction ps with
  | nil => intro i t t' hn hr; simp only [applyUpdates] at hr; cases hr; exact hn
  | cons p ps ih =>
    intro i t t' hn hr
    cases p with
    | update l =>
      simp only [applyUpdates, Res.bind_ok_iff] at hr
      obtain ⟨s, _, t1, h1, hr⟩ := hr
      exact ih _ _ _ (treeUpdate_noParents hn h1) hr
    | add | remove | psk | reInit | externalInit | groupContextExtensions => exact ih _ _ _ hn hr

theorem applyRemoves_noParents : ∀ (ps : List Proposal) (t t' : RTree),
    NoParents t → applyRemoves ps t = .ok t' → NoParents t' := by
  intro ps
  induction ps with
  | nil => intro t t' hn hr; simp only [applyRemoves] at hr; cases hr; exact hn
  | cons p ps ih =>
    intro t t' hn hr
    cases p with
    | remove l =>
      simp only [applyRemoves, Res.bind_ok_iff] at hr
      obtain ⟨t1, h1, hr⟩ := hr
      exact ih _ _ (treeRemove_noParents hn h1) hr
    | add | update | psk | reInit | externalInit | groupContextExtensions => exact ih _ _ hn hr

theorem treeApply_noParents {h h' : Heap} {t t' : RTree} {ps : List Proposal} {ss : List UInt32}
    (hn : NoParents t) (hr : treeApply h t ps ss = .ok (h', t')) : h' = h ∧ NoParents t' := by
  unfold treeApply at hr
  simp only [Res.bind_ok_iff] at hr
  obtain ⟨_, h1, _, h2, hr⟩ := hr
  exact applyAdds_noParents _ _ _ _ _ (applyRemoves_noParents _ _ _ (applyUpdates_noParents _ _ _ _ hn h1) h2) hr

end Mls
