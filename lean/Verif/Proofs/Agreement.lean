import Verif.Proofs.Commit
/-
The tree after a commit depends on the tree before and on the commit only.
-/
namespace Mls

open Spec (Ratchet nodeAt IsAncestor)
open Spec.Ratchet (updateOpt removeOpt addOpt updatesOf removesOf addsOf applyAll)

variable {pr : Prims}

/-- The leaf index the code works with: doubling it drops the top bit. -/
def lowIndex (li : UInt32) : UInt32 := UInt32.ofNat (li.toNat % 2 ^ 31)

theorem lowIndex_toNat (li : UInt32) : (lowIndex li).toNat = li.toNat % 2 ^ 31 := by
  unfold lowIndex
  rw [UInt32.toNat_ofNat']
  have := li.toNat_lt
  omega

theorem lowIndex_of_lt {li : UInt32} (h : li.toNat < 2 ^ 31) : lowIndex li = li := by
  apply UInt32.toNat_inj.1
  rw [lowIndex_toNat, Nat.mod_eq_of_lt h]

/-- A proposal with the leaf index the code works with. -/
def Proposal.low : Proposal → Proposal
  | .remove li => .remove (lowIndex li)
  | p => p

theorem applyUpdates_low (ss : List UInt32) : ∀ (ps : List Proposal) (i : Nat) (t : RTree),
    applyUpdates ss i ps t = applyUpdates (ss.map lowIndex) i (ps.map Proposal.low) t := by
  intro ps
  induction ps with
  | nil => intro i t; rfl
  | cons p ps ih =>
    intro i t
    cases p with
    | update leaf =>
      simp only [List.map_cons, Proposal.low, applyUpdates]
      unfold Res.idx
      rw [List.getElem?_map]
      cases ss[i]? with
      | none => rfl
      | some s =>
        simp only [Option.map_some, Res.ok_bind, lowIndex_toNat]
        rw [treeUpdate_mod]
        congr 1
        funext t'
        exact ih _ _
    | add | remove | psk | reInit | externalInit | groupContextExtensions => exact ih _ _

theorem applyRemoves_low : ∀ (ps : List Proposal) (t : RTree),
    applyRemoves ps t = applyRemoves (ps.map Proposal.low) t := by
  intro ps
  induction ps with
  | nil => intro t; rfl
  | cons p ps ih =>
    intro t
    cases p with
    | remove li =>
      simp only [List.map_cons, Proposal.low, applyRemoves, lowIndex_toNat]
      rw [treeRemove_mod]
      congr 1
      funext t'
      exact ih _
    | add | update | psk | reInit | externalInit | groupContextExtensions => exact ih _

theorem applyAdds_low : ∀ (ps : List Proposal) (h : Heap) (t : RTree),
    applyAdds ps h t = applyAdds (ps.map Proposal.low) h t := by
  intro ps
  induction ps with
  | nil => intro h t; rfl
  | cons p ps ih =>
    intro h t
    cases p with
    | add k =>
      simp only [List.map_cons, Proposal.low, applyAdds]
      congr 1
      funext x
      exact ih _ _
    | remove | update | psk | reInit | externalInit | groupContextExtensions => exact ih _ _

theorem treeApply_low (h : Heap) (t : RTree) (ps : List Proposal) (ss : List UInt32) :
    treeApply h t ps ss = treeApply h t (ps.map Proposal.low) (ss.map lowIndex) := by
  unfold treeApply
  rw [applyUpdates_low]
  congr 1
  funext t1
  rw [applyRemoves_low]
  congr 1
  funext t2
  exact applyAdds_low _ _ _

/-- The tree after the proposals `l`, each with its sender. -/
def Spec.applyProposals (s : Option (Ratchet.Any ParentNode)) (l : List (Proposal × UInt32)) :
    Option (Option (Ratchet.Any ParentNode)) :=
  applyAll s (updatesOf (l.map fun p => (p.1.low, lowIndex p.2))) (removesOf (l.map fun p => p.1.low))
    (addsOf (l.map fun p => p.1.low))

theorem treeApply_outcome {h : Heap} {t : RTree} {s : Option (Ratchet.Any ParentNode)} (hs : Small s)
    (hh : HoldsOpt h t s) (l : List (Proposal × UInt32)) :
    match Spec.applyProposals s l with
    | none => treeApply h t (l.map (·.1)) (l.map (·.2)) = .panic
    | some r => (Small r ∧ ∃ h' t', treeApply h t (l.map (·.1)) (l.map (·.2)) = .ok (h', t') ∧ HoldsOpt h' t' r) ∨
        (¬ Small r ∧ treeApply h t (l.map (·.1)) (l.map (·.2)) = .hang) := by
  rw [treeApply_low]
  have key := treeApply_spec (h := h) (t := t) (s := s) (ps := (l.map (·.1)).map Proposal.low)
    (senders := (l.map (·.2)).map lowIndex) (by simp) ?_ ?_ hs hh
  · have e : ((l.map (·.1)).map Proposal.low).zip ((l.map (·.2)).map lowIndex) = l.map fun p => (p.1.low, lowIndex p.2) := by
      clear key
      induction l with
      | nil => rfl
      | cons p l ih => simp only [List.map_cons, List.zip_cons_cons, ih]
    rw [e, List.map_map] at key
    unfold Spec.applyProposals
    rw [List.map_map]
    exact key
  · intro u hu
    unfold updatesOf at hu
    rw [List.mem_filterMap] at hu
    obtain ⟨⟨p, s⟩, hm, he⟩ := hu
    have hm := (List.of_mem_zip hm).2
    rw [List.mem_map] at hm
    obtain ⟨li, _, rfl⟩ := hm
    have hlt : (lowIndex li).toNat < 2 ^ 31 := by rw [lowIndex_toNat]; exact Nat.mod_lt _ (by decide)
    cases p <;> simp at he
    rw [← he]
    exact hlt
  · intro li hl
    unfold removesOf at hl
    rw [List.mem_filterMap] at hl
    obtain ⟨p, hm, he⟩ := hl
    rw [List.mem_map] at hm
    obtain ⟨q, _, rfl⟩ := hm
    cases q with
    | remove li' =>
      simp only [Proposal.low, Option.some.injEq] at he
      rw [← he, lowIndex_toNat]
      exact Nat.mod_lt _ (by decide)
    | add | update | psk | reInit | externalInit | groupContextExtensions => simp [Proposal.low] at he

theorem treeApply_proposals {h h' : Heap} {t t' : RTree} {s : Option (Ratchet.Any ParentNode)} (hs : Small s)
    (hh : HoldsOpt h t s) {l : List (Proposal × UInt32)}
    (hr : treeApply h t (l.map (·.1)) (l.map (·.2)) = .ok (h', t')) :
    ∃ r, Spec.applyProposals s l = some r ∧ Small r ∧ HoldsOpt h' t' r := by
  have key := treeApply_outcome hs hh l
  rw [hr] at key
  cases ha : Spec.applyProposals s l with
  | none => rw [ha] at key; cases key
  | some r =>
    rw [ha] at key
    rcases key with ⟨k1, h2, t2, k2, k3⟩ | ⟨_, k2⟩
    · obtain ⟨rfl, rfl⟩ := Prod.mk.inj (Res.ok.inj k2)
      exact ⟨r, rfl, k1, k3⟩
    · cases k2

/-- The tree an array stands for. -/
theorem HoldsOpt.unique_view {h h2 : Heap} {t t2 : RTree} {s s' : Option (Ratchet.Any ParentNode)}
    (h1 : HoldsOpt h t s) (h2' : HoldsOpt h2 t2 s') (hd : derefTree h t = derefTree h2 t2) : s = s' := by
  have hl : t.length = t2.length := by rw [← derefTree_length h, hd, derefTree_length]
  match s, s', h1, h2' with
  | none, none, _, _ => rfl
  | none, some ⟨d, b⟩, h1, h2' =>
    cases h1
    have := Holds.length (s := b) h2'
    have hp : 2 ≤ 2 ^ (d + 1) := Nat.le_self_pow (by omega) 2
    simp at hl
    omega
  | some ⟨d, b⟩, none, h1, h2' =>
    cases h2'
    have := Holds.length (s := b) h1
    have hp : 2 ≤ 2 ^ (d + 1) := Nat.le_self_pow (by omega) 2
    simp at hl
    simp [hl] at this
    omega
  | some ⟨d, a⟩, some ⟨e, b⟩, h1, h2' =>
    replace h1 : Holds h t a := h1
    replace h2' : Holds h2 t2 b := h2'
    have hde : d = e := by
      have e1 := h1.length
      have e2 := h2'.length
      have p1 : 0 < 2 ^ (d + 1) := Nat.two_pow_pos _
      have p2 : 0 < 2 ^ (e + 1) := Nat.two_pow_pos _
      have : 2 ^ (d + 1) = 2 ^ (e + 1) := by omega
      have := Nat.pow_right_injective (Nat.le_refl 2) this
      omega
    subst hde
    have hf := h1.flat.symm.trans (hd.trans h2'.flat)
    rw [flat_inj a b hf]

theorem HoldsOpt.view {h : Heap} {t : RTree} {d : Nat} {s : Ratchet ParentNode d} (hh : HoldsOpt h t (some ⟨d, s⟩)) :
    derefTree h t = s.flat .leaf .parent := Holds.flat (s := s) hh

/-- The tree after an accepted commit: the proposals applied to the tree before, and the path of the commit merged. -/
structure CommitTree (pr : Prims) (sd : SuiteDesc) (v v' : VTree) (l : List (Proposal × UInt32)) (sender : UInt32)
    (path : Option UpdatePath) (d0 d : Nat) (s0 : Ratchet ParentNode d0) (s s' : Ratchet ParentNode d) : Prop where
  depth : d ≤ 31
  before : v = s0.flat .leaf .parent
  applied : Spec.applyProposals (some ⟨d0, s0⟩) l = some (some ⟨d, s⟩)
  merged : match path with
    | none => s' = s
    | some p => (sender.toNat % 2 ^ 31 < 2 ^ d) ∧ s.mergePath (pr.hash sd.hash) (sender.toNat % 2 ^ 31) p = some s'
  after : v' = s'.flat .leaf .parent

theorem commit_tree (hc : pr.Correct) {st st' : GroupState} (hi : GroupInv pr st) {sd : SuiteDesc}
    (hsd : suite st.group.groupContext.cipherSuite = .ok sd) {a : AuthenticatedContent} {c : Commit}
    {l : List (Proposal × UInt32)} {h : Heap} {t : RTree} {ids : List PreSharedKeyID} {psks : List Bytes} {now : GoTime}
    (hk : checkProposals pr st.group a.content.sender.leafIndex c = .ok (l.map (·.1), l.map (·.2)))
    (ht : treeApply st.heap st.group.tree (l.map (·.1)) (l.map (·.2)) = .ok (h, t))
    (hf : finishCommit pr st.group h t a c ids psks now = .ok st') :
    ∃ d0 d s0 s s', CommitTree pr sd st.vtree st'.vtree l a.content.sender.leafIndex c.path d0 d s0 s s' := by
  have hinv := finishCommit_inv hc hi hk ht hf
  obtain ⟨d0, hd0, s0, hs0⟩ := hi.tree.holds
  obtain ⟨r, hr1, hr2, hr3⟩ := treeApply_proposals (s := some ⟨d0, s0⟩) hd0 hs0 ht
  obtain ⟨_, pt, hp, hcase⟩ := finishCommit_parts hf
  have hne : t ≠ [] := by
    rcases hcase with ⟨_, _, e2, _⟩ | ⟨path, ctx', sec, _, hpath⟩
    · intro hn
      have := hinv.own
      rw [e2, hn] at this
      simp at this
    · obtain ⟨leaf, th, g1, _⟩ := commitPath_ok hpath
      intro hn
      rw [hn] at g1
      unfold getLeaf at g1
      simp [derefTree, Res.idx] at g1
  match r, hr1, hr2, hr3 with
  | none, _, _, hr3 => exact absurd hr3 hne
  | some ⟨d, s⟩, hr1, hr2, hr3 =>
    replace hr2 : d ≤ 31 := hr2
    replace hr3 : Holds h t s := hr3
    rcases hcase with ⟨hn, e1, e2, _⟩ | ⟨path, ctx', sec, hpa, hpath⟩
    · refine ⟨d0, d, s0, s, s, hr2, hs0.flat, hr1, by rw [hn], ?_⟩
      unfold GroupState.vtree
      rw [e1, e2]
      exact hr3.flat
    · obtain ⟨leaf, th, g1, g2, _⟩ := commitPath_ok hpath
      rw [getLeaf_mod] at g1
      rw [mergeUpdatePath_mod] at g2
      have hi31 : a.content.sender.leafIndex.toNat % 2 ^ 31 < 2 ^ 31 := Nat.mod_lt _ (by decide)
      have hlt : 2 * (a.content.sender.leafIndex.toNat % 2 ^ 31) < t.length := by
        unfold getLeaf at g1
        simp only [Res.bind_ok_iff, Res.idx_ok_iff] at g1
        obtain ⟨o, g1, _⟩ := g1
        rw [nodeOfLeaf_idx hi31, idx_zero] at g1
        have := (List.getElem?_eq_some_iff.1 g1).1
        rwa [derefTree_length] at this
      have hid : a.content.sender.leafIndex.toNat % 2 ^ 31 < 2 ^ d := by
        rw [hr3.length, Nat.pow_succ] at hlt
        omega
      obtain ⟨m1, m2⟩ := mergeUpdatePath_spec hc hsd hr2 hid hr3 path
      cases hm : s.mergePath (pr.hash sd.hash) (a.content.sender.leafIndex.toNat % 2 ^ 31) path with
      | none => exact absurd g2 (m2 hm _)
      | some s' =>
        obtain ⟨h2, t2, k1, k2, _⟩ := m1 s' hm
        rw [g2] at k1
        obtain ⟨e1, e2⟩ := Prod.mk.inj (Res.ok.inj k1)
        refine ⟨d0, d, s0, s, s', hr2, hs0.flat, hr1, by rw [hpa]; exact ⟨hid, hm⟩, ?_⟩
        unfold GroupState.vtree
        rw [e1, e2]
        exact k2.flat

/-- The tree after a commit is determined by the tree before and the commit. -/
theorem CommitTree.unique {sd : SuiteDesc} {v v1 v2 : VTree} {l : List (Proposal × UInt32)} {sender : UInt32}
    {path : Option UpdatePath} {d0 d e0 e : Nat} {s0 : Ratchet ParentNode d0} {s s' : Ratchet ParentNode d}
    {r0 : Ratchet ParentNode e0} {r r' : Ratchet ParentNode e}
    (h1 : CommitTree pr sd v v1 l sender path d0 d s0 s s') (h2 : CommitTree pr sd v v2 l sender path e0 e r0 r r') :
    v1 = v2 := by
  have hd : d0 = e0 := by
    have := h1.before.symm.trans h2.before
    have hl := congrArg List.length this
    rw [flat_length, flat_length] at hl
    have p1 : 0 < 2 ^ (d0 + 1) := Nat.two_pow_pos _
    have p2 : 0 < 2 ^ (e0 + 1) := Nat.two_pow_pos _
    have : 2 ^ (d0 + 1) = 2 ^ (e0 + 1) := by omega
    have := Nat.pow_right_injective (Nat.le_refl 2) this
    omega
  subst hd
  obtain rfl := flat_inj _ _ (h1.before.symm.trans h2.before)
  have ha := h1.applied.symm.trans h2.applied
  simp only [Option.some.injEq] at ha
  cases ha
  rw [h1.after, h2.after]
  have m1 := h1.merged
  have m2 := h2.merged
  cases path with
  | none => rw [m1, m2]
  | some p =>
    have := m1.2.symm.trans m2.2
    simp only [Option.some.injEq] at this
    rw [this]

end Mls
