import Verif.Proofs.TreePoint
/-
ratchetTree.apply against the structural specification.
-/
namespace Mls

open Spec (Ratchet)
open Spec.Ratchet (updateOpt removeOpt addOpt updatesOf removesOf addsOf applyAll)

/-- The tree can be indexed by uint32. -/
def Small : Option (Ratchet.Any ParentNode) → Prop
  | none => True
  | some a => a.1 ≤ 31

theorem addOpt_depth (t : Option (Ratchet.Any ParentNode)) (n : LeafNode) :
    ∀ a, t = some a → a.1 ≤ (addOpt t n).1 := by
  rintro ⟨d, s⟩ rfl
  show d ≤ (s.add n).1
  rcases add_eq_alongPath s n with ⟨_, h⟩ | ⟨i, _, h⟩
  · rw [h]; exact Nat.le_succ d
  · rw [h]

theorem adds_depth (ns : List LeafNode) : ∀ (a : Ratchet.Any ParentNode), ∃ b,
    ns.foldl (fun t n => some (addOpt t n)) (some a) = some b ∧ a.1 ≤ b.1 := by
  induction ns with
  | nil => intro a; exact ⟨a, rfl, Nat.le_refl _⟩
  | cons n ns ih =>
    intro a
    obtain ⟨b, h1, h2⟩ := ih (addOpt (some a) n)
    exact ⟨b, h1, Nat.le_trans (addOpt_depth (some a) n a rfl) h2⟩

theorem treeAdd_opt {h : Heap} {t : RTree} {s : Option (Ratchet.Any ParentNode)} (hs : Small s) (hh : HoldsOpt h t s)
    (leaf : LeafNode) :
    (∃ h' t', treeAdd h t leaf = .ok (h', t') ∧ (addOpt s leaf).1 ≤ 31 ∧ HoldsOpt h' t' (some (addOpt s leaf))) ∨
    (treeAdd h t leaf = .hang ∧ 31 < (addOpt s leaf).1) := by
  match s, hs, hh with
  | none, _, hh =>
    cases hh
    refine .inl ⟨h, _, treeAdd_empty h leaf, by simp [addOpt], ?_⟩
    refine ⟨⟨fun {x p} hx => ?_, fun {x y p} hx _ => ?_⟩, rfl⟩ <;>
    · cases x <;> simp at hx
  | some ⟨d, s⟩, hs, hh =>
    replace hs : d ≤ 31 := hs
    replace hh : Holds h t s := hh
    by_cases hroom : d ≤ 30 ∨ s.firstBlank.isSome = true
    · obtain ⟨h', t', h1, _, h3⟩ := treeAdd_spec hs hh hroom leaf
      refine .inl ⟨h', t', h1, ?_, h3⟩
      show (s.add leaf).1 ≤ 31
      rcases add_eq_alongPath s leaf with ⟨he, h⟩ | ⟨i, _, h⟩ <;> rw [h]
      · rw [he] at hroom
        simp at hroom
        show d + 1 ≤ 31
        omega
      · exact hs
    · have hd : d = 31 := by omega
      subst hd
      have hf : s.firstBlank = none := by
        cases hc : s.firstBlank with
        | none => rfl
        | some i => exact absurd (.inr (by rw [hc]; rfl)) hroom
      refine .inr ⟨treeAdd_hang hh hf leaf, ?_⟩
      show 31 < (s.add leaf).1
      rcases add_eq_alongPath s leaf with ⟨_, h⟩ | ⟨i, he, _⟩
      · rw [h]; exact Nat.lt_succ_self 31
      · rw [hf] at he; cases he

theorem applyAdds_spec : ∀ (ps : List Proposal) (h : Heap) (t : RTree) (s : Option (Ratchet.Any ParentNode)),
    Small s → HoldsOpt h t s →
    (∃ h' t', applyAdds ps h t = .ok (h', t') ∧ Small ((addsOf ps).foldl (fun t n => some (addOpt t n)) s) ∧
      HoldsOpt h' t' ((addsOf ps).foldl (fun t n => some (addOpt t n)) s)) ∨
    (applyAdds ps h t = .hang ∧ ¬ Small ((addsOf ps).foldl (fun t n => some (addOpt t n)) s)) := by
  intro ps
  induction ps with
  | nil => intro h t s hs hh; exact .inl ⟨h, t, rfl, hs, hh⟩
  | cons p ps ih =>
    intro h t s hs hh
    cases p with
    | add k =>
      simp only [applyAdds, addsOf, List.filterMap_cons, List.foldl_cons]
      rcases treeAdd_opt hs hh k.leafNode with ⟨h', t', h1, h2, h3⟩ | ⟨h1, h2⟩
      · rw [h1]
        exact ih h' t' _ h2 h3
      · rw [h1]
        refine .inr ⟨rfl, ?_⟩
        obtain ⟨b, hb1, hb2⟩ := adds_depth (addsOf ps) (addOpt s k.leafNode)
        unfold addsOf at hb1
        rw [hb1]
        show ¬ b.1 ≤ 31
        omega
    | update | remove | psk | reInit | externalInit | groupContextExtensions => exact ih h t s hs hh

theorem treeRemove_opt {h : Heap} {t : RTree} {s : Option (Ratchet.Any ParentNode)} (hs : Small s) (hh : HoldsOpt h t s)
    {li : Nat} (hli : li < 2 ^ 31) :
    (∃ t' s', treeRemove t li = .ok t' ∧ removeOpt s li = some s' ∧ Small s' ∧ HoldsOpt h t' s') ∨
    (treeRemove t li = .panic ∧ removeOpt s li = none) := by
  match s, hs, hh with
  | none, _, hh =>
    cases hh
    exact .inr ⟨rfl, rfl⟩
  | some ⟨d, s⟩, hs, hh =>
    replace hs : d ≤ 31 := hs
    replace hh : Holds h t s := hh
    by_cases hd : li < 2 ^ d
    · obtain ⟨t', h1, h2⟩ := treeRemove_holds hs hh hd
      refine .inl ⟨t', s.remove li, h1, by simp [removeOpt, hd], ?_, h2⟩
      cases hr : s.remove li with
      | none => trivial
      | some a => exact Nat.le_trans (shrink_depth _ hr) hs
    · exact .inr ⟨treeRemove_panic hh.length (by omega) hli, by simp [removeOpt, hd]⟩

theorem applyRemoves_spec {h : Heap} : ∀ (ps : List Proposal) (t : RTree) (s : Option (Ratchet.Any ParentNode)),
    (∀ li ∈ removesOf ps, li.toNat < 2 ^ 31) → Small s → HoldsOpt h t s →
    (∃ t' s', applyRemoves ps t = .ok t' ∧ (removesOf ps).foldlM (fun t i => removeOpt t i.toNat) s = some s' ∧
      Small s' ∧ HoldsOpt h t' s') ∨
    (applyRemoves ps t = .panic ∧ (removesOf ps).foldlM (fun t i => removeOpt t i.toNat) s = none) := by
  intro ps
  induction ps with
  | nil => intro t s _ hs hh; exact .inl ⟨t, s, rfl, rfl, hs, hh⟩
  | cons p ps ih =>
    intro t s hidx hs hh
    cases p with
    | remove li =>
      simp only [applyRemoves, removesOf, List.filterMap_cons, List.foldlM_cons]
      rcases treeRemove_opt hs hh (hidx li (by simp [removesOf])) with ⟨t', s', h1, h2, h3, h4⟩ | ⟨h1, h2⟩
      · rw [h1, h2]
        exact ih t' s' (fun x hx => hidx x (by simp only [removesOf, List.filterMap_cons, List.mem_cons]; exact .inr hx)) h3 h4
      · rw [h1, h2]
        exact .inr ⟨rfl, rfl⟩
    | add | update | psk | reInit | externalInit | groupContextExtensions => exact ih t s hidx hs hh

theorem treeUpdate_opt {h : Heap} {t : RTree} {s : Option (Ratchet.Any ParentNode)} (hs : Small s) (hh : HoldsOpt h t s)
    {li : Nat} (hli : li < 2 ^ 31) (leaf : LeafNode) :
    (∃ t' s', treeUpdate t li leaf = .ok t' ∧ updateOpt s li leaf = some s' ∧ Small s' ∧ HoldsOpt h t' s') ∨
    (treeUpdate t li leaf = .panic ∧ updateOpt s li leaf = none) := by
  match s, hs, hh with
  | none, _, hh =>
    cases hh
    exact .inr ⟨rfl, rfl⟩
  | some ⟨d, s⟩, hs, hh =>
    replace hs : d ≤ 31 := hs
    replace hh : Holds h t s := hh
    by_cases hd : li < 2 ^ d
    · obtain ⟨t', h1, h2⟩ := treeUpdate_holds hs hh hd leaf
      exact .inl ⟨t', some ⟨d, s.update li leaf⟩, h1, by simp [updateOpt, hd], hs, h2⟩
    · exact .inr ⟨treeUpdate_panic hh.length (by omega) hli leaf, by simp [updateOpt, hd]⟩

theorem applyUpdates_spec {h : Heap} {senders : List UInt32} :
    ∀ (ps : List Proposal) (k : Nat) (t : RTree) (s : Option (Ratchet.Any ParentNode)),
    k + ps.length = senders.length →
    (∀ u ∈ updatesOf (ps.zip (senders.drop k)), u.1.toNat < 2 ^ 31) → Small s → HoldsOpt h t s →
    (∃ t' s', applyUpdates senders k ps t = .ok t' ∧
      (updatesOf (ps.zip (senders.drop k))).foldlM (fun t u => updateOpt t u.1.toNat u.2) s = some s' ∧
      Small s' ∧ HoldsOpt h t' s') ∨
    (applyUpdates senders k ps t = .panic ∧
      (updatesOf (ps.zip (senders.drop k))).foldlM (fun t u => updateOpt t u.1.toNat u.2) s = none) := by
  intro ps
  induction ps with
  | nil => intro k t s _ _ hs hh; exact .inl ⟨t, s, by simp [applyUpdates], rfl, hs, hh⟩
  | cons p ps ih =>
    intro k t s hlen hidx hs hh
    have hk : k < senders.length := by simp at hlen; omega
    rw [List.drop_eq_getElem_cons hk, List.zip_cons_cons] at hidx ⊢
    have hlen' : k + 1 + ps.length = senders.length := by simp at hlen; omega
    cases p with
    | update leaf =>
      simp only [applyUpdates, updatesOf, List.filterMap_cons, List.foldlM_cons]
      rw [Res.idx_ok_iff.2 (List.getElem?_eq_getElem hk)]
      simp only [Res.ok_bind]
      rcases treeUpdate_opt hs hh (hidx (senders[k], leaf) (by simp [updatesOf])) leaf with
        ⟨t', s', h1, h2, h3, h4⟩ | ⟨h1, h2⟩
      · rw [h1, h2]
        exact ih (k + 1) t' s' hlen' (fun x hx => hidx x (by
          simp only [updatesOf, List.filterMap_cons, List.mem_cons]; exact .inr hx)) h3 h4
      · rw [h1, h2]
        exact .inr ⟨rfl, rfl⟩
    | add | remove | psk | reInit | externalInit | groupContextExtensions =>
      simp only [applyUpdates]
      exact ih (k + 1) t s hlen' hidx hs hh

/-- Applying a commit's proposals: the structural operation when it is defined and small enough,
a panic when an index is outside the tree, and an endless loop when the tree gets too large. -/
theorem treeApply_spec {h : Heap} {t : RTree} {s : Option (Ratchet.Any ParentNode)} {ps : List Proposal}
    {senders : List UInt32} (hlen : ps.length = senders.length)
    (hu : ∀ u ∈ updatesOf (ps.zip senders), u.1.toNat < 2 ^ 31) (hr : ∀ li ∈ removesOf ps, li.toNat < 2 ^ 31)
    (hs : Small s) (hh : HoldsOpt h t s) :
    match applyAll s (updatesOf (ps.zip senders)) (removesOf ps) (addsOf ps) with
    | none => treeApply h t ps senders = .panic
    | some r => (Small r ∧ ∃ h' t', treeApply h t ps senders = .ok (h', t') ∧ HoldsOpt h' t' r) ∨
        (¬ Small r ∧ treeApply h t ps senders = .hang) := by
  unfold applyAll treeApply
  rcases applyUpdates_spec (h := h) (senders := senders) ps 0 t s (by omega) (by simpa using hu) hs hh with ⟨t1, s1, h1, h2, h3, h4⟩ | ⟨h1, h2⟩
  · rw [List.drop_zero] at h2
    rw [h2, h1]
    simp only [Option.bind_some, Res.ok_bind]
    rcases applyRemoves_spec ps t1 s1 hr h3 h4 with ⟨t2, s2, k1, k2, k3, k4⟩ | ⟨k1, k2⟩
    · rw [k2, k1]
      simp only [Option.map_some, Res.ok_bind]
      rcases applyAdds_spec ps h t2 s2 k3 k4 with ⟨h', t', e1, e2, e3⟩ | ⟨e1, e2⟩
      · exact .inl ⟨e2, h', t', e1, e3⟩
      · exact .inr ⟨e2, e1⟩
    · rw [k2, k1]
      rfl
  · rw [List.drop_zero] at h2
    rw [h2, h1]
    rfl

end Mls
