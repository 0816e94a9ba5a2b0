import Verif.Spec.Intact
import Verif.Props.Commit
/-
What the operations on ratchet trees do to parent hashes and unmerged leaves, by recursion on the tree.
-/
namespace Mls

open Spec (Ratchet nodeAt IsAncestor parentHashOf parentHashInput HashIn)
open Spec.Ratchet (addUnmerged)

/-! ### Definitions by recursion -/

/-- The `i`-th leaf. -/
def Spec.Ratchet.leafAt {P : Type} : {d : Nat} → Nat → Ratchet P d → Option LeafNode
  | _, _, .leaf n => n
  | d + 1, i, .node _ l r => if i < 2 ^ d then l.leafAt i else r.leafAt (i - 2 ^ d)

/-- The `j`-th leaf is not blank, and `u` is an unmerged leaf of all nodes above it. -/
def Spec.Ratchet.Noted (u : UInt32) : {d : Nat} → Nat → Ratchet ParentNode d → Prop
  | _, _, .leaf n => n ≠ none
  | d + 1, j, .node p l r =>
    (∀ q, p = some q → u ∈ q.unmergedLeaves) ∧ if j < 2 ^ d then l.Noted u j else r.Noted u (j - 2 ^ d)

/-- Unmerged leaves are in place. -/
def Spec.Ratchet.Recorded : {d : Nat} → Nat → Ratchet ParentNode d → Prop
  | _, _, .leaf _ => True
  | d + 1, i0, .node p l r =>
    (∀ q, p = some q → ∀ u ∈ q.unmergedLeaves, i0 ≤ u.toNat ∧ u.toNat < i0 + 2 ^ (d + 1) ∧
      (Ratchet.node none l r).Noted u (u.toNat - i0)) ∧ l.Recorded i0 ∧ r.Recorded (i0 + 2 ^ d)

/-- A node of the resolution carries this parent hash. -/
def Spec.Ratchet.Shows (ph : Bytes) : {d : Nat} → Nat → Ratchet ParentNode d → Prop
  | _, _, .leaf n => ∃ l, n = some l ∧ parentHashOf (.leaf l) = ph
  | _, i0, .node (some p) l r => p.parentHash = ph ∨
    ∃ u ∈ p.unmergedLeaves, ∃ n, (Ratchet.node (some p) l r).leafAt (u.toNat - i0) = some n ∧ parentHashOf (.leaf n) = ph
  | d + 1, i0, .node none l r => l.Shows ph i0 ∨ r.Shows ph (i0 + 2 ^ d)

/-- Exactly one of the children shows the parent hash. -/
def Link (H : Bytes → Bytes) {d : Nat} (i0 : Nat) (p : ParentNode) (l r : Ratchet ParentNode d) : Prop :=
  ∃ lh rh li ri, (l.without p.unmergedLeaves i0).treeHash H i0 = some lh ∧
    (r.without p.unmergedLeaves (i0 + 2 ^ d)).treeHash H (i0 + 2 ^ d) = some rh ∧
    parentHashInput p rh = some li ∧ parentHashInput p lh = some ri ∧
    ((l.Shows (H li) i0 ∧ ¬ r.Shows (H ri) (i0 + 2 ^ d)) ∨ (¬ l.Shows (H li) i0 ∧ r.Shows (H ri) (i0 + 2 ^ d)))

/-- All parent nodes are linked to their children. -/
def Spec.Ratchet.Linked (H : Bytes → Bytes) : {d : Nat} → Nat → Ratchet ParentNode d → Prop
  | _, _, .leaf _ => True
  | d + 1, i0, .node p l r => (∀ q, p = some q → Link H i0 q l r) ∧ l.Linked H i0 ∧ r.Linked H (i0 + 2 ^ d)

/-! ### Blanking a path -/

theorem recorded_blankPath {d : Nat} (s : Ratchet ParentNode d) (f : Option LeafNode → Option LeafNode) {i0 i : Nat} (h : s.Recorded i0) :
    (s.alongPath f (fun _ => none) i).Recorded i0 := by
  induction s generalizing i0 i with
  | leaf n => trivial
  | node p l r ihl ihr =>
    obtain ⟨_, h1, h2⟩ := h
    unfold Ratchet.alongPath
    split
    · exact ⟨fun q hq => by (cases hq), ihl h1, h2⟩
    · exact ⟨fun q hq => by (cases hq), h1, ihr h2⟩

theorem linked_blankPath {H : Bytes → Bytes} {d : Nat} (s : Ratchet ParentNode d) (f : Option LeafNode → Option LeafNode) {i0 i : Nat}
    (h : s.Linked H i0) : (s.alongPath f (fun _ => none) i).Linked H i0 := by
  induction s generalizing i0 i with
  | leaf n => trivial
  | node p l r ihl ihr =>
    obtain ⟨_, h1, h2⟩ := h
    unfold Ratchet.alongPath
    split
    · exact ⟨fun q hq => by (cases hq), ihl h1, h2⟩
    · exact ⟨fun q hq => by (cases hq), h1, ihr h2⟩

theorem blank_recorded (d i0 : Nat) : (Ratchet.blank d : Ratchet ParentNode d).Recorded i0 := by
  induction d generalizing i0 with
  | zero => trivial
  | succ d ih => exact ⟨fun q hq => by (cases hq), ih _, ih _⟩

theorem blank_linked (H : Bytes → Bytes) (d i0 : Nat) : (Ratchet.blank d : Ratchet ParentNode d).Linked H i0 := by
  induction d generalizing i0 with
  | zero => trivial
  | succ d ih => exact ⟨fun q hq => by (cases hq), ih _, ih _⟩

theorem shrink_keeps {Q : {d : Nat} → Ratchet ParentNode d → Prop}
    (hq : ∀ {d} (p : Option ParentNode) (l r : Ratchet ParentNode d), Q (.node p l r) → Q l) {d : Nat} (s : Ratchet ParentNode d) (h : Q s)
    {a : Ratchet.Any ParentNode} (ha : s.shrink = some a) : Q a.2 := by
  induction s with
  | leaf n =>
    cases n with
    | none => cases ha
    | some n => cases ha; exact h
  | node p l r ihl _ =>
    unfold Ratchet.shrink at ha
    split at ha
    · cases ha; exact h
    · exact ihl (hq _ _ _ h) ha

/-! ### Adding a leaf -/

theorem noted_leaf {u : UInt32} {d : Nat} {s : Ratchet ParentNode d} {j : Nat} (h : s.Noted u j) : s.leafAt j ≠ none := by
  induction s generalizing j with
  | leaf n => exact h
  | node p l r ihl ihr =>
    obtain ⟨_, h⟩ := h
    unfold Ratchet.leafAt
    split at h
    · rw [if_pos ‹_›]; exact ihl h
    · rw [if_neg ‹_›]; exact ihr h

theorem leafAt_node {P : Type} {d : Nat} (p p' : Option P) (l r : Ratchet P d) (j : Nat) :
    (Ratchet.node p l r).leafAt j = (Ratchet.node p' l r).leafAt j := rfl

theorem leafAt_alongPath {P : Type} {d : Nat} (s : Ratchet P d) (f : Option LeafNode → Option LeafNode) (g : Option P → Option P) {i j : Nat}
    (hi : i < 2 ^ d) (hj : j < 2 ^ d) : (s.alongPath f g i).leafAt j = if j = i then f (s.leafAt i) else s.leafAt j := by
  induction s generalizing i j with
  | leaf n =>
    have : j = i := by simp at hi hj; omega
    rw [if_pos this]; rfl
  | @node d p l r ihl ihr =>
    rw [Nat.pow_succ] at hi hj
    unfold Ratchet.alongPath
    by_cases h1 : i < 2 ^ d <;> by_cases h2 : j < 2 ^ d
    · simp only [if_pos h1, Ratchet.leafAt, if_pos h2]
      exact ihl h1 h2
    · simp only [if_pos h1, Ratchet.leafAt, if_neg h2]
      rw [if_neg (by omega)]
    · simp only [if_neg h1, Ratchet.leafAt, if_pos h2]
      rw [if_neg (by omega)]
    · simp only [if_neg h1, Ratchet.leafAt, if_neg h2]
      rw [ihr (by omega) (by omega)]
      by_cases h : j = i
      · rw [if_pos h, if_pos (by omega)]
      · rw [if_neg h, if_neg (by omega)]

/-- The tree with the leaf `n` at `j`, which has the index `u`. -/
abbrev withLeaf {d : Nat} (n : LeafNode) (u : UInt32) (j : Nat) (s : Ratchet ParentNode d) : Ratchet ParentNode d :=
  s.alongPath (fun _ => some n) (Option.map (addUnmerged u.toNat)) j

theorem noted_along {n : LeafNode} {u u' : UInt32} {d : Nat} {s : Ratchet ParentNode d} {j j' : Nat} (h : s.Noted u' j') :
    (withLeaf n u j s).Noted u' j' := by
  induction s generalizing j j' with
  | leaf m => simp [withLeaf, Ratchet.alongPath, Ratchet.Noted]
  | @node d p l r ihl ihr =>
    obtain ⟨h0, h⟩ := h
    have hp : ∀ q, p.map (addUnmerged u.toNat) = some q → u' ∈ q.unmergedLeaves := by
      intro q hq
      rw [Option.map_eq_some_iff] at hq
      obtain ⟨q0, e, rfl⟩ := hq
      exact List.mem_append_left _ (h0 q0 e)
    unfold withLeaf Ratchet.alongPath
    split
    · refine ⟨hp, ?_⟩
      split at h
      · rw [if_pos ‹_›]; exact ihl h
      · rw [if_neg ‹_›]; exact h
    · refine ⟨hp, ?_⟩
      split at h
      · rw [if_pos ‹_›]; exact h
      · rw [if_neg ‹_›]; exact ihr h

theorem noted_new {n : LeafNode} {u : UInt32} {d : Nat} {s : Ratchet ParentNode d} {j : Nat} : (withLeaf n u j s).Noted u j := by
  induction s generalizing j with
  | leaf m => simp [withLeaf, Ratchet.alongPath, Ratchet.Noted]
  | @node d p l r ihl ihr =>
    have hp : ∀ q, p.map (addUnmerged u.toNat) = some q → u ∈ q.unmergedLeaves := by
      intro q hq
      rw [Option.map_eq_some_iff] at hq
      obtain ⟨q0, e, rfl⟩ := hq
      exact List.mem_append_right _ (by simp)
    unfold withLeaf Ratchet.alongPath
    split
    · exact ⟨hp, by rw [if_pos ‹_›]; exact ihl⟩
    · exact ⟨hp, by rw [if_neg ‹_›]; exact ihr⟩

theorem recorded_add {n : LeafNode} {u : UInt32} {d : Nat} {s : Ratchet ParentNode d} {i0 j : Nat} (h : s.Recorded i0) (hj : j < 2 ^ d)
    (hu : u.toNat = i0 + j) : (withLeaf n u j s).Recorded i0 := by
  induction s generalizing i0 j with
  | leaf m => trivial
  | @node d p l r ihl ihr =>
    obtain ⟨h0, h1, h2⟩ := h
    rw [Nat.pow_succ] at hj
    have hp : ∀ q, p.map (addUnmerged u.toNat) = some q → ∀ u' ∈ q.unmergedLeaves, i0 ≤ u'.toNat ∧ u'.toNat < i0 + 2 ^ (d + 1) ∧
        (withLeaf n u j (Ratchet.node none l r)).Noted u' (u'.toNat - i0) := by
      intro q hq u' hu'
      rw [Option.map_eq_some_iff] at hq
      obtain ⟨q0, e, rfl⟩ := hq
      rcases List.mem_append.1 hu' with hu' | hu'
      · obtain ⟨a, b, c⟩ := h0 q0 e u' hu'
        exact ⟨a, b, noted_along c⟩
      · rw [List.mem_singleton] at hu'
        have : u' = u := by rw [hu']; simp
        subst this
        refine ⟨by omega, by rw [Nat.pow_succ]; omega, ?_⟩
        rw [show u'.toNat - i0 = j from by omega]
        exact noted_new
    unfold withLeaf Ratchet.alongPath at hp ⊢
    by_cases hjd : j < 2 ^ d
    · simp only [if_pos hjd] at hp ⊢
      exact ⟨hp, ihl h1 hjd hu, h2⟩
    · simp only [if_neg hjd] at hp ⊢
      exact ⟨hp, h1, ihr h2 (by omega) (by omega)⟩

theorem without_off {u : UInt32} {ex : List UInt32} {d : Nat} {s : Ratchet ParentNode d} {i0 : Nat} (h : s.Recorded i0)
    (hb : i0 + 2 ^ d ≤ 2 ^ 32) (hu : u.toNat < i0 ∨ i0 + 2 ^ d ≤ u.toNat) : s.without (ex ++ [u]) i0 = s.without ex i0 := by
  induction s generalizing i0 with
  | leaf m =>
    have hne : UInt32.ofNat i0 ≠ u := by
      rintro rfl
      rw [UInt32.toNat_ofNat', Nat.mod_eq_of_lt (by omega)] at hu
      omega
    simp [Ratchet.without, hne]
  | @node d p l r ihl ihr =>
    obtain ⟨h0, h1, h2⟩ := h
    rw [Nat.pow_succ] at hu hb
    unfold Ratchet.without
    rw [ihl h1 (by omega) (by omega), ihr h2 (by omega) (by omega)]
    congr 1
    cases p with
    | none => rfl
    | some q =>
      simp only [Option.map_some]
      congr 2
      refine List.filter_congr fun u' hu' => ?_
      obtain ⟨a, b, _⟩ := h0 q rfl u' hu'
      have hne : u' ≠ u := by
        rintro rfl
        rw [Nat.pow_succ] at b
        omega
      simp [hne]

theorem without_add {n : LeafNode} {u : UInt32} {ex : List UInt32} {d : Nat} {s : Ratchet ParentNode d} {i0 j : Nat} (h : s.Recorded i0)
    (hb : i0 + 2 ^ d ≤ 2 ^ 32) (hj : j < 2 ^ d) (hu : u.toNat = i0 + j) (hn : s.leafAt j = none) :
    (withLeaf n u j s).without (ex ++ [u]) i0 = s.without ex i0 := by
  induction s generalizing i0 j with
  | leaf m =>
    have : UInt32.ofNat i0 = u := by
      apply UInt32.toNat.inj
      rw [UInt32.toNat_ofNat', Nat.mod_eq_of_lt (by omega)]
      simp at hj
      omega
    have hm : m = none := hn
    simp [withLeaf, Ratchet.alongPath, Ratchet.without, this, hm]
  | @node d p l r ihl ihr =>
    obtain ⟨h0, h1, h2⟩ := h
    have hp : (p.map (addUnmerged u.toNat)).map (fun p => { p with unmergedLeaves := p.unmergedLeaves.filter fun u' => u' ∉ ex ++ [u] }) =
        p.map fun p => { p with unmergedLeaves := p.unmergedLeaves.filter fun u' => u' ∉ ex } := by
      cases p with
      | none => rfl
      | some q =>
        have hx : u ∉ q.unmergedLeaves := by
          intro hx
          obtain ⟨_, _, c⟩ := h0 q rfl u hx
          have := noted_leaf c
          rw [show u.toNat - i0 = j from by omega] at this
          exact this hn
        simp only [Option.map_some, addUnmerged, List.filter_append]
        congr 2
        have e1 : List.filter (fun u' => decide (u' ∉ ex ++ [u])) q.unmergedLeaves = List.filter (fun u' => decide (u' ∉ ex)) q.unmergedLeaves := by
          refine List.filter_congr fun u' hu' => ?_
          have hne : u' ≠ u := by rintro rfl; exact hx hu'
          simp [hne]
        rw [e1]
        simp
    rw [Nat.pow_succ] at hb hj
    unfold withLeaf Ratchet.alongPath
    by_cases hjd : j < 2 ^ d
    · simp only [if_pos hjd]
      unfold Ratchet.leafAt at hn
      rw [if_pos hjd] at hn
      unfold Ratchet.without
      rw [hp, ihl h1 (by omega) hjd hu hn, without_off h2 (by omega) (by omega)]
    · simp only [if_neg hjd]
      unfold Ratchet.leafAt at hn
      rw [if_neg hjd] at hn
      unfold Ratchet.without
      rw [hp, without_off h1 (by omega) (by omega), ihr h2 (by omega) (by omega) (by omega) hn]

theorem shows_add {n : LeafNode} {u : UInt32} {ph : Bytes} (hph : parentHashOf (.leaf n) ≠ ph) {d : Nat} {s : Ratchet ParentNode d} {i0 j : Nat}
    (h : s.Recorded i0) (hj : j < 2 ^ d) (hu : u.toNat = i0 + j) (hn : s.leafAt j = none) :
    (withLeaf n u j s).Shows ph i0 ↔ s.Shows ph i0 := by
  induction s generalizing i0 j with
  | leaf m =>
    have hm : m = none := hn
    subst hm
    simp [withLeaf, Ratchet.alongPath, Ratchet.Shows, hph]
  | @node d p l r ihl ihr =>
    cases p with
    | none =>
      obtain ⟨_, h1, h2⟩ := h
      rw [Nat.pow_succ] at hj
      unfold Ratchet.leafAt at hn
      unfold withLeaf Ratchet.alongPath
      by_cases hjd : j < 2 ^ d
      · simp only [if_pos hjd, Option.map_none, Ratchet.Shows] at hn ⊢
        rw [ihl h1 hjd hu hn]
      · simp only [if_neg hjd, Option.map_none, Ratchet.Shows] at hn ⊢
        rw [ihr h2 (by omega) (by omega) hn]
    | some q =>
      obtain ⟨h0, _, _⟩ := h
      have key : ∀ u' : UInt32, (∃ m, u' ∈ q.unmergedLeaves ++ [UInt32.ofNat u.toNat] ∧
          (withLeaf n u j (Ratchet.node (some q) l r)).leafAt (u'.toNat - i0) = some m ∧ parentHashOf (.leaf m) = ph) ↔
          ∃ m, u' ∈ q.unmergedLeaves ∧ (Ratchet.node (some q) l r).leafAt (u'.toNat - i0) = some m ∧ parentHashOf (.leaf m) = ph := by
        intro u'
        have hold : ∀ hu' : u' ∈ q.unmergedLeaves, (withLeaf n u j (Ratchet.node (some q) l r)).leafAt (u'.toNat - i0) =
            (Ratchet.node (some q) l r).leafAt (u'.toNat - i0) := by
          intro hu'
          obtain ⟨a, b, c⟩ := h0 q rfl u' hu'
          have hne : u'.toNat - i0 ≠ j := by
            intro e
            have := noted_leaf c
            rw [e] at this
            exact this hn
          rw [leafAt_alongPath _ _ _ hj (by omega), if_neg hne]
        constructor
        · rintro ⟨m, hm, e1, e2⟩
          rcases List.mem_append.1 hm with hm | hm
          · exact ⟨m, hm, by rw [← hold hm]; exact e1, e2⟩
          · rw [List.mem_singleton] at hm
            have : u' = u := by rw [hm]; simp
            subst this
            rw [show u'.toNat - i0 = j from by omega, leafAt_alongPath _ _ _ hj hj, if_pos rfl] at e1
            cases e1
            exact absurd e2 hph
        · rintro ⟨m, hm, e1, e2⟩
          exact ⟨m, List.mem_append_left _ hm, by rw [hold hm]; exact e1, e2⟩
      have e : ∀ (q' : ParentNode) (l' r' : Ratchet ParentNode d), (Ratchet.node (some q') l' r').Shows ph i0 ↔ (q'.parentHash = ph ∨
          ∃ u' m, u' ∈ q'.unmergedLeaves ∧ (Ratchet.node (some q') l' r').leafAt (u'.toNat - i0) = some m ∧ parentHashOf (.leaf m) = ph) := by
        intro q' l' r'
        constructor
        · rintro (h | ⟨u', h1, m, h2, h3⟩)
          · exact .inl h
          · exact .inr ⟨u', m, h1, h2, h3⟩
        · rintro (h | ⟨u', m, h1, h2, h3⟩)
          · exact .inl h
          · exact .inr ⟨u', h1, m, h2, h3⟩
      unfold withLeaf Ratchet.alongPath at key ⊢
      by_cases hjd : j < 2 ^ d
      · simp only [if_pos hjd, Option.map_some] at key ⊢
        rw [e, e]
        exact or_congr Iff.rfl (exists_congr key)
      · simp only [if_neg hjd, Option.map_some] at key ⊢
        rw [e, e]
        exact or_congr Iff.rfl (exists_congr key)

theorem linked_add {H : Bytes → Bytes} {n : LeafNode} (hn0 : ∀ x, parentHashOf (.leaf n) ≠ H x) {u : UInt32} {d : Nat} {s : Ratchet ParentNode d}
    {i0 j : Nat} (h : s.Recorded i0) (hl : s.Linked H i0) (hb : i0 + 2 ^ d ≤ 2 ^ 32) (hj : j < 2 ^ d) (hu : u.toNat = i0 + j)
    (hn : s.leafAt j = none) : (withLeaf n u j s).Linked H i0 := by
  induction s generalizing i0 j with
  | leaf m => trivial
  | @node d p l r ihl ihr =>
    obtain ⟨_, h1, h2⟩ := h
    obtain ⟨k0, k1, k2⟩ := hl
    rw [Nat.pow_succ] at hb hj
    unfold Ratchet.leafAt at hn
    unfold withLeaf Ratchet.alongPath
    by_cases hjd : j < 2 ^ d
    · simp only [if_pos hjd] at hn ⊢
      refine ⟨fun q hq => ?_, ihl h1 k1 (by omega) hjd hu hn, k2⟩
      rw [Option.map_eq_some_iff] at hq
      obtain ⟨q0, rfl, rfl⟩ := hq
      obtain ⟨lh, rh, li, ri, e1, e2, e3, e4, e5⟩ := k0 q0 rfl
      refine ⟨lh, rh, li, ri, ?_, ?_, e3, e4, ?_⟩
      · simp only [addUnmerged, UInt32.ofNat_toNat]
        rw [without_add h1 (by omega) hjd hu hn]
        exact e1
      · simp only [addUnmerged, UInt32.ofNat_toNat]
        rw [without_off h2 (by omega) (by omega)]
        exact e2
      · rw [shows_add (hn0 _) h1 hjd hu hn]
        exact e5
    · simp only [if_neg hjd] at hn ⊢
      refine ⟨fun q hq => ?_, k1, ihr h2 k2 (by omega) (by omega) (by omega) hn⟩
      rw [Option.map_eq_some_iff] at hq
      obtain ⟨q0, rfl, rfl⟩ := hq
      obtain ⟨lh, rh, li, ri, e1, e2, e3, e4, e5⟩ := k0 q0 rfl
      refine ⟨lh, rh, li, ri, ?_, ?_, e3, e4, ?_⟩
      · simp only [addUnmerged, UInt32.ofNat_toNat]
        rw [without_off h1 (by omega) (by omega)]
        exact e1
      · simp only [addUnmerged, UInt32.ofNat_toNat]
        rw [without_add h2 (by omega) (by omega) (by omega) hn]
        exact e2
      · rw [shows_add (hn0 _) h2 (by omega) (by omega) hn]
        exact e5

/-! ### Merging an update path -/

/-- Spec.Ratchet.Foreseen by recursion alone. -/
def Spec.Ratchet.Early (H : Bytes → Bytes) : {d : Nat} → Nat → Nat → Ratchet ParentNode d → Prop
  | _, _, _, .leaf _ => False
  | d + 1, i0, i, .node p l r =>
    if i < 2 ^ d then
      (∃ q h x, p = some q ∧ l.treeHash H i0 = some h ∧ parentHashInput q h = some x ∧ r.Shows (H x) (i0 + 2 ^ d)) ∨
        l.Early H i0 i
    else
      (∃ q h x, p = some q ∧ r.treeHash H (i0 + 2 ^ d) = some h ∧ parentHashInput q h = some x ∧ l.Shows (H x) i0) ∨
        r.Early H (i0 + 2 ^ d) (i - 2 ^ d)

theorem treeHash_node {H : Bytes → Bytes} {d : Nat} {p : Option ParentNode} {l r : Ratchet ParentNode d} {i0 : Nat} {h : Bytes}
    (e : (Ratchet.node p l r).treeHash H i0 = some h) :
    ∃ lh rh, l.treeHash H i0 = some lh ∧ r.treeHash H (i0 + 2 ^ d) = some rh := by
  simp only [Ratchet.treeHash, Option.bind_eq_bind, Option.bind_eq_some_iff] at e
  obtain ⟨lh, h1, rh, h2, _⟩ := e
  exact ⟨lh, rh, h1, h2⟩

theorem treeHash_hashed {H : Bytes → Bytes} {d : Nat} {s : Ratchet ParentNode d} {i0 : Nat} {h : Bytes}
    (e : s.treeHash H i0 = some h) : ∃ x, h = H x := by
  cases s with
  | leaf n =>
    simp only [Ratchet.treeHash, Option.map_eq_some_iff] at e
    obtain ⟨x, _, rfl⟩ := e
    exact ⟨x, rfl⟩
  | node p l r =>
    simp only [Ratchet.treeHash, Option.bind_eq_bind, Option.bind_eq_some_iff, Option.pure_def, Option.some.injEq] at e
    obtain ⟨_, _, _, _, x, _, rfl⟩ := e
    exact ⟨x, rfl⟩

/-- A node that has a parent hash input with one hash has one with another that is as short. -/
theorem parentHashInput_other {q : ParentNode} {a x b : Bytes} (h : parentHashInput q a = some x) {c : Bytes} (hb : Spec.opaqueVec b = some c) :
    ∃ y, parentHashInput q b = some y := by
  unfold parentHashInput at h ⊢
  simp only [Option.bind_eq_bind, Option.bind_eq_some_iff] at h
  obtain ⟨u, h1, v, h2, _⟩ := h
  simp [h1, h2, hb]

theorem pathStep_link {H : Bytes → Bytes} {keys : List Bytes} {prev : Bytes} {sib : Option Bytes} {q : ParentNode × List Bytes × Bytes}
    (h : Spec.pathStep H keys prev sib = some q) :
    ∃ k sh x, q.1 = { encryptionKey := k, parentHash := prev, unmergedLeaves := [] } ∧ sib = some sh ∧ parentHashInput q.1 sh = some x ∧
      q.2.2 = H x := by
  unfold Spec.pathStep at h
  cases keys with
  | nil => cases h
  | cons k ks =>
    simp only [Option.bind_eq_bind, Option.bind_eq_some_iff, Option.pure_def, Option.some.injEq] at h
    obtain ⟨sh, h1, x, h2, rfl⟩ := h
    exact ⟨k, sh, x, rfl, h1, h2, rfl⟩

/-- The cases of a merge at an inner node. -/
theorem merge_split {H : Bytes → Bytes} {new : LeafNode} {d : Nat} {p : Option ParentNode} {l r : Ratchet ParentNode d} {i0 i : Nat}
    {keys : List Bytes} {prev ph : Bytes} {s' : Ratchet ParentNode (d + 1)}
    (h : (Ratchet.node p l r).merge H new i0 i keys prev = some (s', ph)) :
    ∃ (p' : Option ParentNode) (l' r' : Ratchet ParentNode d) (keys' : List Bytes) (prev' : Bytes), s' = .node p' l' r' ∧
      ((i < 2 ^ d ∧ r' = r ∧ l.merge H new i0 i keys' prev' = some (l', ph)) ∨
        (¬ i < 2 ^ d ∧ l' = l ∧ r.merge H new (i0 + 2 ^ d) (i - 2 ^ d) keys' prev' = some (r', ph))) ∧
      ((p' = none ∧ prev' = prev) ∨ ∃ q sh x, p' = some q ∧ q.parentHash = prev ∧ q.unmergedLeaves = [] ∧
        (if i < 2 ^ d then r.treeHash H (i0 + 2 ^ d) else l.treeHash H i0) = some sh ∧ parentHashInput q sh = some x ∧ prev' = H x) := by
  unfold Ratchet.merge at h
  by_cases hi : i < 2 ^ d
  · simp only [if_pos hi] at h ⊢
    split at h
    · rw [Option.map_eq_some_iff] at h
      obtain ⟨⟨l', ph'⟩, h, e⟩ := h
      cases e
      exact ⟨none, l', r, keys, prev, rfl, .inl ⟨hi, rfl, h⟩, .inl ⟨rfl, rfl⟩⟩
    · rw [Option.bind_eq_some_iff] at h
      obtain ⟨q, hq, h⟩ := h
      rw [Option.map_eq_some_iff] at h
      obtain ⟨⟨l', ph'⟩, h, e⟩ := h
      cases e
      obtain ⟨k, sh, x, e1, e2, e3, e4⟩ := pathStep_link hq
      exact ⟨some q.1, l', r, _, _, rfl, .inl ⟨hi, rfl, h⟩, .inr ⟨q.1, sh, x, rfl, by rw [e1], by rw [e1], e2, e3, e4⟩⟩
  · simp only [if_neg hi] at h ⊢
    split at h
    · rw [Option.map_eq_some_iff] at h
      obtain ⟨⟨l', ph'⟩, h, e⟩ := h
      cases e
      exact ⟨none, l, l', keys, prev, rfl, .inr ⟨hi, rfl, h⟩, .inl ⟨rfl, rfl⟩⟩
    · rw [Option.bind_eq_some_iff] at h
      obtain ⟨q, hq, h⟩ := h
      rw [Option.map_eq_some_iff] at h
      obtain ⟨⟨l', ph'⟩, h, e⟩ := h
      cases e
      obtain ⟨k, sh, x, e1, e2, e3, e4⟩ := pathStep_link hq
      exact ⟨some q.1, l, l', _, _, rfl, .inr ⟨hi, rfl, h⟩, .inr ⟨q.1, sh, x, rfl, by rw [e1], by rw [e1], e2, e3, e4⟩⟩

theorem merge_leaf {H : Bytes → Bytes} {new : LeafNode} {n : Option LeafNode} {i0 i : Nat} {keys : List Bytes} {prev ph : Bytes}
    {s' : Ratchet ParentNode 0} (h : (Ratchet.leaf n).merge H new i0 i keys prev = some (s', ph)) : s' = .leaf (some new) ∧ ph = prev := by
  unfold Ratchet.merge at h
  split at h
  · cases h; exact ⟨rfl, rfl⟩
  · cases h

theorem shows_merge {H : Bytes → Bytes} {new : LeafNode} {d : Nat} {s s' : Ratchet ParentNode d} {i0 i : Nat}
    {keys : List Bytes} {prev ph : Bytes} (h : s.merge H new i0 i keys prev = some (s', ph)) (hn : parentHashOf (.leaf new) = ph) :
    s'.Shows prev i0 := by
  induction s generalizing i0 i keys prev with
  | leaf n =>
    obtain ⟨rfl, rfl⟩ := merge_leaf h
    exact ⟨new, rfl, hn⟩
  | @node d p l r ihl ihr =>
    obtain ⟨p', l', r', keys', prev', rfl, h1, h2⟩ := merge_split h
    rcases h2 with ⟨rfl, rfl⟩ | ⟨q, _, _, rfl, e, _⟩
    · rcases h1 with ⟨_, _, h1⟩ | ⟨_, _, h1⟩
      · exact .inl (ihl h1)
      · exact .inr (ihr h1)
    · exact .inl e

theorem recorded_merge {H : Bytes → Bytes} {new : LeafNode} {d : Nat} {s s' : Ratchet ParentNode d} {i0 i : Nat}
    {keys : List Bytes} {prev ph : Bytes} (h : s.merge H new i0 i keys prev = some (s', ph)) (hs : s.Recorded i0) : s'.Recorded i0 := by
  induction s generalizing i0 i keys prev with
  | leaf n =>
    obtain ⟨rfl, rfl⟩ := merge_leaf h
    trivial
  | @node d p l r ihl ihr =>
    obtain ⟨p', l', r', keys', prev', rfl, h1, h2⟩ := merge_split h
    have hp : ∀ q, p' = some q → q.unmergedLeaves = [] := by
      intro q hq
      rcases h2 with ⟨rfl, _⟩ | ⟨q', _, _, rfl, _, e, _⟩
      · cases hq
      · cases hq; exact e
    obtain ⟨_, k1, k2⟩ := hs
    refine ⟨fun q hq u hu => (by rw [hp q hq] at hu; cases hu), ?_, ?_⟩
    · rcases h1 with ⟨_, _, h1⟩ | ⟨_, rfl, _⟩
      · exact ihl h1 k1
      · exact k1
    · rcases h1 with ⟨_, rfl, _⟩ | ⟨_, _, h1⟩
      · exact k2
      · exact ihr h1 k2

theorem linked_merge {H : Bytes → Bytes} (hH : ∀ x, ∃ y, Spec.opaqueVec (H x) = some y) {new : LeafNode} {d : Nat} {s s' : Ratchet ParentNode d}
    {i0 i : Nat} {keys : List Bytes} {prev ph th : Bytes} (h : s.merge H new i0 i keys prev = some (s', ph))
    (hn : parentHashOf (.leaf new) = ph) (ht : s'.treeHash H i0 = some th) (hs : s.Linked H i0) :
    s'.Linked H i0 ∨ s'.Early H i0 i := by
  induction s generalizing i0 i keys prev th with
  | leaf n =>
    obtain ⟨rfl, rfl⟩ := merge_leaf h
    exact .inl trivial
  | @node d p l r ihl ihr =>
    obtain ⟨p', l', r', keys', prev', rfl, h1, h2⟩ := merge_split h
    obtain ⟨lh, rh, t1, t2⟩ := treeHash_node ht
    obtain ⟨k0, k1, k2⟩ := hs
    obtain ⟨_, hlh⟩ := treeHash_hashed t1
    obtain ⟨_, hrh⟩ := treeHash_hashed t2
    obtain ⟨_, hlo⟩ := hH _
    obtain ⟨_, hro⟩ := hH _
    rw [← hlh] at hlo
    rw [← hrh] at hro
    rcases h1 with ⟨hi, rfl, h1⟩ | ⟨hi, rfl, h1⟩
    · unfold Ratchet.Early
      simp only [if_pos hi] at h2 ⊢
      rcases ihl h1 t1 k1 with h3 | h3
      · by_cases he : ∃ q h x, p' = some q ∧ l'.treeHash H i0 = some h ∧ parentHashInput q h = some x ∧ r'.Shows (H x) (i0 + 2 ^ d)
        · exact .inr (.inl he)
        · refine .inl ⟨fun q hq => ?_, h3, k2⟩
          subst hq
          rcases h2 with ⟨h2, _⟩ | ⟨q', sh, x, e1, _, e2, e3, e4, rfl⟩
          · cases h2
          · cases e1
            rw [t2, Option.some.injEq] at e3
            subst e3
            obtain ⟨y, hy⟩ := parentHashInput_other e4 hlo
            refine ⟨lh, rh, x, y, by rw [e2, without_nil]; exact t1, by rw [e2, without_nil]; exact t2, e4, hy, .inl ⟨shows_merge h1 hn, fun hr => ?_⟩⟩
            exact he ⟨q, lh, y, rfl, t1, hy, hr⟩
      · exact .inr (.inr h3)
    · unfold Ratchet.Early
      simp only [if_neg hi] at h2 ⊢
      rcases ihr h1 t2 k2 with h3 | h3
      · by_cases he : ∃ q h x, p' = some q ∧ r'.treeHash H (i0 + 2 ^ d) = some h ∧ parentHashInput q h = some x ∧ l'.Shows (H x) i0
        · exact .inr (.inl he)
        · refine .inl ⟨fun q hq => ?_, k1, h3⟩
          subst hq
          rcases h2 with ⟨h2, _⟩ | ⟨q', sh, x, e1, _, e2, e3, e4, rfl⟩
          · cases h2
          · cases e1
            rw [t1, Option.some.injEq] at e3
            subst e3
            obtain ⟨y, hy⟩ := parentHashInput_other e4 hro
            refine ⟨lh, rh, y, x, by rw [e2, without_nil]; exact t1, by rw [e2, without_nil]; exact t2, hy, e4, .inr ⟨fun hr => ?_, shows_merge h1 hn⟩⟩
            exact he ⟨q, rh, y, rfl, t2, hy, hr⟩
      · exact .inr (.inr h3)

/-! ### The array -/

theorem at_leafAt {t : VTree} {k j : Nat} {s : Ratchet ParentNode k} (h : VAt t j s) {i : Nat} (hi : i < 2 ^ k) :
    nodeAt t (2 * (j * 2 ^ k + i)) = (s.leafAt i).map .leaf := by
  induction s generalizing j i with
  | leaf n =>
    obtain rfl : i = 0 := by simpa using hi
    have : t[idx 0 j]? = some (n.map .leaf) := h
    rw [idx_zero] at this
    simpa [Ratchet.leafAt] using nodeAt_eq this
  | @node k p l r ihl ihr =>
    have e1 : 2 * j * 2 ^ k = j * 2 ^ (k + 1) := by rw [Nat.pow_succ]; ring
    have e2 : (2 * j + 1) * 2 ^ k = j * 2 ^ (k + 1) + 2 ^ k := by rw [Nat.pow_succ]; ring
    rw [Nat.pow_succ] at hi
    unfold Ratchet.leafAt
    by_cases hik : i < 2 ^ k
    · rw [if_pos hik, ← ihl h.2.1 hik, e1]
    · rw [if_neg hik, ← ihr h.2.2 (by omega), e2]
      congr 2
      omega

theorem leafNumber_small {u : UInt32} (h : u.toNat < 2 ^ 31) : Spec.leafNumber u = 2 * u.toNat := by
  unfold Spec.leafNumber
  omega

theorem shows_iff {t : VTree} {k j : Nat} {s : Ratchet ParentNode k} (h : VAt t j s) (hr : s.Recorded (j * 2 ^ k)) (hb : (j + 1) * 2 ^ k ≤ 2 ^ 31)
    (ph : Bytes) : HashIn t (s.resolution (j * 2 ^ (k + 1))) ph ↔ s.Shows ph (j * 2 ^ k) := by
  induction s generalizing j with
  | leaf n =>
    have h' : t[idx 0 j]? = some (n.map .leaf) := h
    rw [idx_zero] at h'
    have h' := nodeAt_eq h'
    cases n with
    | none => simp [Ratchet.resolution, HashIn, Ratchet.Shows]
    | some n =>
      simp only [Ratchet.resolution, HashIn, Ratchet.Shows, List.mem_singleton, exists_eq_left, Nat.zero_add, Nat.pow_one,
        Nat.mul_comm j 2, h', Option.map_some, Option.some.injEq, exists_eq_left']
  | @node k p l r ihl ihr =>
    have e1 : 2 * j * 2 ^ k = j * 2 ^ (k + 1) := by rw [Nat.pow_succ]; ring
    have e2 : (2 * j + 1) * 2 ^ k = j * 2 ^ (k + 1) + 2 ^ k := by rw [Nat.pow_succ]; ring
    have e3 : (j + 1) * 2 ^ (k + 1) = j * 2 ^ (k + 1) + 2 * 2 ^ k := by rw [Nat.pow_succ]; ring
    have e4 : (2 * j + 1 + 1) * 2 ^ k = j * 2 ^ (k + 1) + 2 * 2 ^ k := by rw [Nat.pow_succ]; ring
    cases p with
    | none =>
      obtain ⟨_, r1, r2⟩ := hr
      have a1 := ihl h.2.1 (by rw [e1]; exact r1) (by rw [e2]; omega)
      have a2 := ihr h.2.2 (by rw [e2]; exact r2) (by omega)
      rw [off_succ_left, e1] at a1
      rw [off_succ_right, e2] at a2
      unfold Ratchet.Shows
      rw [← a1, ← a2]
      simp only [Ratchet.resolution, HashIn, List.mem_append, or_and_right, exists_or]
    | some q =>
      have hn := nodeAt_eq h.1
      have hn : nodeAt t (j * 2 ^ (k + 1 + 1) + 2 ^ (k + 1) - 1) = some (.parent q) := by rw [← idx_off]; exact hn
      have hl : ∀ u ∈ q.unmergedLeaves, nodeAt t (Spec.leafNumber u) =
          ((Ratchet.node (some q) l r).leafAt (u.toNat - j * 2 ^ (k + 1))).map .leaf := by
        intro u hu
        obtain ⟨b1, b2, _⟩ := hr.1 q rfl u hu
        have e5 : 2 ^ (k + 1) = 2 * 2 ^ k := by rw [Nat.pow_succ]; omega
        rw [leafNumber_small (by omega), ← at_leafAt h (by omega)]
        congr 2
        omega
      simp only [Ratchet.resolution, HashIn, Ratchet.Shows, List.mem_cons, List.mem_map]
      constructor
      · rintro ⟨y, rfl | ⟨u, hu, rfl⟩, n, h1, h2⟩
        · rw [hn] at h1
          cases h1
          exact .inl h2
        · rw [hl u hu, Option.map_eq_some_iff] at h1
          obtain ⟨m, h1, rfl⟩ := h1
          exact .inr ⟨u, hu, m, h1, h2⟩
      · rintro (h1 | ⟨u, hu, m, h1, h2⟩)
        · exact ⟨_, .inl rfl, _, hn, h1⟩
        · exact ⟨_, .inr ⟨u, hu, rfl⟩, .leaf m, by rw [hl u hu, h1]; rfl, h2⟩

theorem link_iff {t : VTree} {k j : Nat} {p : Option ParentNode} {l r : Ratchet ParentNode k} (h : VAt t j (.node p l r))
    (hr : (Ratchet.node p l r).Recorded (j * 2 ^ (k + 1))) (hb : (j + 1) * 2 ^ (k + 1) ≤ 2 ^ 31) (ph : Bytes) :
    (HashIn t (l.resolution (j * 2 ^ (k + 2))) ph ↔ l.Shows ph (j * 2 ^ (k + 1))) ∧
      (HashIn t (r.resolution (j * 2 ^ (k + 2) + 2 ^ (k + 1))) ph ↔ r.Shows ph (j * 2 ^ (k + 1) + 2 ^ k)) := by
  have e1 : 2 * j * 2 ^ k = j * 2 ^ (k + 1) := by rw [Nat.pow_succ]; ring
  have e2 : (2 * j + 1) * 2 ^ k = j * 2 ^ (k + 1) + 2 ^ k := by rw [Nat.pow_succ]; ring
  have e3 : (j + 1) * 2 ^ (k + 1) = j * 2 ^ (k + 1) + 2 * 2 ^ k := by rw [Nat.pow_succ]; ring
  have e4 : (2 * j + 1 + 1) * 2 ^ k = j * 2 ^ (k + 1) + 2 * 2 ^ k := by rw [Nat.pow_succ]; ring
  obtain ⟨_, r1, r2⟩ := hr
  have a1 := shows_iff h.2.1 (by rw [e1]; exact r1) (by rw [e2]; omega) ph
  have a2 := shows_iff h.2.2 (by rw [e2]; exact r2) (by omega) ph
  rw [off_succ_left, e1] at a1
  rw [off_succ_right, e2] at a2
  exact ⟨a1, a2⟩

theorem linked_iff {H : Bytes → Bytes} {t : VTree} {k j : Nat} {s : Ratchet ParentNode k} (h : VAt t j s) (hr : s.Recorded (j * 2 ^ k))
    (hb : (j + 1) * 2 ^ k ≤ 2 ^ 31) :
    s.ParentHashValid H t (j * 2 ^ (k + 1)) (j * 2 ^ k) ↔ s.Linked H (j * 2 ^ k) := by
  induction s generalizing j with
  | leaf n => exact Iff.rfl
  | @node k p l r ihl ihr =>
    have e1 : 2 * j * 2 ^ k = j * 2 ^ (k + 1) := by rw [Nat.pow_succ]; ring
    have e2 : (2 * j + 1) * 2 ^ k = j * 2 ^ (k + 1) + 2 ^ k := by rw [Nat.pow_succ]; ring
    have e3 : (j + 1) * 2 ^ (k + 1) = j * 2 ^ (k + 1) + 2 * 2 ^ k := by rw [Nat.pow_succ]; ring
    have e4 : (2 * j + 1 + 1) * 2 ^ k = j * 2 ^ (k + 1) + 2 * 2 ^ k := by rw [Nat.pow_succ]; ring
    have key := fun ph => link_iff h hr hb ph
    obtain ⟨_, r1, r2⟩ := hr
    have a1 := ihl h.2.1 (by rw [e1]; exact r1) (by rw [e2]; omega)
    have a2 := ihr h.2.2 (by rw [e2]; exact r2) (by omega)
    rw [off_succ_left, e1] at a1
    rw [off_succ_right, e2] at a2
    unfold Ratchet.ParentHashValid Ratchet.Linked Spec.ParentLink Link
    rw [a1, a2]
    simp only [fun ph => (key ph).1, fun ph => (key ph).2]

theorem early_iff {H : Bytes → Bytes} {t : VTree} {k j : Nat} {s : Ratchet ParentNode k} (h : VAt t j s) (hr : s.Recorded (j * 2 ^ k))
    (hb : (j + 1) * 2 ^ k ≤ 2 ^ 31) (i : Nat) :
    s.Foreseen H t (j * 2 ^ (k + 1)) (j * 2 ^ k) i ↔ s.Early H (j * 2 ^ k) i := by
  induction s generalizing j i with
  | leaf n => exact Iff.rfl
  | @node k p l r ihl ihr =>
    have e1 : 2 * j * 2 ^ k = j * 2 ^ (k + 1) := by rw [Nat.pow_succ]; ring
    have e2 : (2 * j + 1) * 2 ^ k = j * 2 ^ (k + 1) + 2 ^ k := by rw [Nat.pow_succ]; ring
    have e3 : (j + 1) * 2 ^ (k + 1) = j * 2 ^ (k + 1) + 2 * 2 ^ k := by rw [Nat.pow_succ]; ring
    have e4 : (2 * j + 1 + 1) * 2 ^ k = j * 2 ^ (k + 1) + 2 * 2 ^ k := by rw [Nat.pow_succ]; ring
    have key := fun ph => link_iff h hr hb ph
    obtain ⟨_, r1, r2⟩ := hr
    have a1 := ihl h.2.1 (by rw [e1]; exact r1) (by rw [e2]; omega)
    have a2 := ihr h.2.2 (by rw [e2]; exact r2) (by omega)
    rw [off_succ_left, e1] at a1
    rw [off_succ_right, e2] at a2
    unfold Ratchet.Foreseen Ratchet.Early
    simp only [a1, a2, fun ph => (key ph).1, fun ph => (key ph).2]

/-! ### Unmerged leaves in the array -/

/-- The leaf `u` is not blank, and an unmerged leaf of its first `m` ancestors. -/
def Placed (t : VTree) (m : Nat) (u : UInt32) : Prop :=
  (∃ n, nodeAt t (2 * u.toNat) = some n) ∧
    ∀ m', 0 < m' → m' ≤ m → ∀ q, nodeAt t (idx m' (u.toNat / 2 ^ m')) = some (.parent q) → u ∈ q.unmergedLeaves

theorem noted_iff {t : VTree} {k j : Nat} {s : Ratchet ParentNode k} (h : VAt t j s) {u : UInt32} (hu : u.toNat / 2 ^ k = j) :
    s.Noted u (u.toNat - j * 2 ^ k) ↔ Placed t k u := by
  induction s generalizing j with
  | leaf n =>
    have h' : t[idx 0 j]? = some (n.map .leaf) := h
    rw [idx_zero] at h'
    have h' := nodeAt_eq h'
    have : u.toNat = j := by simpa using hu
    subst this
    simp only [Ratchet.Noted, Placed, h']
    cases n with
    | none => simp
    | some n => simp only [ne_eq, reduceCtorEq, not_false_eq_true, Option.map_some, Option.some.injEq, exists_eq', true_and, true_iff]; omega
  | @node k p l r ihl ihr =>
    have e1 : 2 * j * 2 ^ k = j * 2 ^ (k + 1) := by rw [Nat.pow_succ]; ring
    have e2 : (2 * j + 1) * 2 ^ k = j * 2 ^ (k + 1) + 2 ^ k := by rw [Nat.pow_succ]; ring
    have hd : u.toNat / 2 ^ (k + 1) = u.toNat / 2 ^ k / 2 := by rw [Nat.pow_succ, Nat.div_div_eq_div_mul]
    have hp : (∀ q, p = some q → u ∈ q.unmergedLeaves) ↔
        ∀ q, nodeAt t (idx (k + 1) (u.toNat / 2 ^ (k + 1))) = some (.parent q) → u ∈ q.unmergedLeaves := by
      rw [hu, nodeAt_eq h.1]
      cases p <;> simp
    have hsplit : Placed t (k + 1) u ↔ (∀ q, p = some q → u ∈ q.unmergedLeaves) ∧ Placed t k u := by
      rw [hp]
      constructor
      · rintro ⟨a, b⟩
        exact ⟨b _ (by omega) (by omega), a, fun m' h1 h2 => b m' h1 (by omega)⟩
      · rintro ⟨a, b, c⟩
        refine ⟨b, fun m' h1 h2 => ?_⟩
        by_cases hm : m' = k + 1
        · subst hm; exact a
        · exact c m' h1 (by omega)
    rw [hsplit]
    unfold Ratchet.Noted
    refine and_congr Iff.rfl ?_
    have hpos := Nat.two_pow_pos k
    have hdm := Nat.div_add_mod u.toNat (2 ^ k)
    have hml := Nat.mod_lt u.toNat hpos
    by_cases hs : u.toNat / 2 ^ k = 2 * j
    · rw [hs] at hdm
      have e : 2 ^ k * (2 * j) = 2 * j * 2 ^ k := Nat.mul_comm _ _
      rw [if_pos (by omega), ← e1]
      exact ihl h.2.1 hs
    · have hs : u.toNat / 2 ^ k = 2 * j + 1 := by omega
      rw [hs] at hdm
      have e : 2 ^ k * (2 * j + 1) = (2 * j + 1) * 2 ^ k := Nat.mul_comm _ _
      rw [if_neg (by omega), show u.toNat - j * 2 ^ (k + 1) - 2 ^ k = u.toNat - (2 * j + 1) * 2 ^ k from by omega]
      exact ihr h.2.2 hs

theorem recorded_iff {t : VTree} {k j : Nat} {s : Ratchet ParentNode k} (h : VAt t j s) :
    s.Recorded (j * 2 ^ k) ↔ ∀ m y, Below k j (m + 1) y → ∀ q, nodeAt t (idx (m + 1) y) = some (.parent q) → ∀ u ∈ q.unmergedLeaves,
      u.toNat / 2 ^ (m + 1) = y ∧ Placed t m u := by
  induction s generalizing j with
  | leaf n =>
    refine ⟨fun _ m y hb => ?_, fun _ => trivial⟩
    have := hb.1
    omega
  | @node k p l r ihl ihr =>
    have e1 : 2 * j * 2 ^ k = j * 2 ^ (k + 1) := by rw [Nat.pow_succ]; ring
    have e2 : (2 * j + 1) * 2 ^ k = j * 2 ^ (k + 1) + 2 ^ k := by rw [Nat.pow_succ]; ring
    have a1 := ihl h.2.1
    have a2 := ihr h.2.2
    rw [e1] at a1
    rw [e2] at a2
    have hpos := Nat.two_pow_pos k
    have hpos' := Nat.two_pow_pos (k + 1)
    have key : (∀ q, p = some q → ∀ u ∈ q.unmergedLeaves, j * 2 ^ (k + 1) ≤ u.toNat ∧ u.toNat < j * 2 ^ (k + 1) + 2 ^ (k + 1) ∧
        (Ratchet.node none l r).Noted u (u.toNat - j * 2 ^ (k + 1))) ↔
        ∀ q, nodeAt t (idx (k + 1) j) = some (.parent q) → ∀ u ∈ q.unmergedLeaves, u.toNat / 2 ^ (k + 1) = j ∧ Placed t k u := by
      rw [nodeAt_eq h.1]
      cases p with
      | none => simp
      | some q =>
        simp only [Option.some.injEq, forall_eq', Option.map_some, Node.parent.injEq]
        refine forall₂_congr fun u hu => ?_
        rw [← and_assoc]
        have hrange : (j * 2 ^ (k + 1) ≤ u.toNat ∧ u.toNat < j * 2 ^ (k + 1) + 2 ^ (k + 1)) ↔ u.toNat / 2 ^ (k + 1) = j := by
          rw [Nat.div_eq_iff hpos']
          omega
        rw [hrange]
        refine and_congr_right fun hj => ?_
        have hd : u.toNat / 2 ^ (k + 1) = u.toNat / 2 ^ k / 2 := by rw [Nat.pow_succ, Nat.div_div_eq_div_mul]
        have hdm := Nat.div_add_mod u.toNat (2 ^ k)
        have hml := Nat.mod_lt u.toNat hpos
        simp only [Ratchet.Noted, reduceCtorEq, false_implies, implies_true, true_and]
        by_cases hs : u.toNat / 2 ^ k = 2 * j
        · rw [hs] at hdm
          have e : 2 ^ k * (2 * j) = 2 * j * 2 ^ k := Nat.mul_comm _ _
          rw [if_pos (by omega), ← e1]
          exact noted_iff h.2.1 hs
        · have hs : u.toNat / 2 ^ k = 2 * j + 1 := by omega
          rw [hs] at hdm
          have e : 2 ^ k * (2 * j + 1) = (2 * j + 1) * 2 ^ k := Nat.mul_comm _ _
          rw [if_neg (by omega), show u.toNat - j * 2 ^ (k + 1) - 2 ^ k = u.toNat - (2 * j + 1) * 2 ^ k from by omega]
          exact noted_iff h.2.2 hs
    unfold Ratchet.Recorded
    rw [key, a1, a2]
    constructor
    · rintro ⟨b0, b1, b2⟩ m y hb
      rcases hb.cases with ⟨e, rfl⟩ | hb | hb
      · obtain rfl : m = k := by omega
        exact b0
      · exact b1 m y hb
      · exact b2 m y hb
    · intro b
      exact ⟨b k j (Below.refl _ _), fun m y hb => b m y hb.left, fun m y hb => b m y hb.right⟩

theorem upPath_take {a k j n : Nat} (h : n < a) : ∃ above, upPath a k j = upPath n k j ++ idx (k + n + 1) (j / 2 ^ (n + 1)) :: above := by
  induction n generalizing a k j with
  | zero =>
    obtain ⟨a, rfl⟩ : ∃ b, a = b + 1 := ⟨a - 1, by omega⟩
    exact ⟨upPath a (k + 1) (j / 2), by simp [upPath]⟩
  | succ n ih =>
    obtain ⟨a, rfl⟩ : ∃ b, a = b + 1 := ⟨a - 1, by omega⟩
    obtain ⟨above, e⟩ := ih (a := a) (k := k + 1) (j := j / 2) (by omega)
    refine ⟨above, ?_⟩
    rw [upPath, e, upPath, List.cons_append, Nat.div_div_eq_div_mul, ← Nat.pow_succ',
      show k + 1 + n + 1 = k + (n + 1) + 1 from by omega]

theorem upPath_split {a k j m y : Nat} {below above : List Nat} (h : upPath a k j = below ++ idx (k + m + 1) y :: above) :
    m < a ∧ y = j / 2 ^ (m + 1) ∧ below = upPath m k j := by
  have hl := congrArg List.length h
  rw [upPath_length] at hl
  simp at hl
  have hn : below.length < a := by omega
  obtain ⟨above', e⟩ := upPath_take (k := k) (j := j) hn
  rw [h] at e
  have e := List.append_inj e (by rw [upPath_length])
  obtain ⟨e1, e2⟩ := e
  rw [List.cons.injEq] at e2
  obtain ⟨f1, f2⟩ := idx_inj e2.1
  have : m = below.length := by omega
  subst this
  exact ⟨hn, f2, e1⟩

theorem ancestors_leaf {d i : Nat} (hi : i < 2 ^ d) : (Spec.ITree.perfect d 0).ancestors (2 * i) = some (upPath d 0 i) := by
  have := ancestors_perfect (d := d) (i := 0) (k := 0) (j := i) (Nat.zero_le _)
    (by rw [Nat.sub_zero]; exact Nat.div_eq_of_lt hi)
  rwa [Nat.zero_mul, idx_zero, Nat.sub_zero] at this

theorem unmerged_iff {t : VTree} {d m y : Nat} (hd : d ≤ 31) (hb : Below d 0 (m + 1) y) {u : UInt32} :
    ((∃ below above, (Spec.ITree.perfect d 0).ancestors (Spec.leafNumber u) = some (below ++ idx (m + 1) y :: above) ∧
      ∀ z ∈ below, ∀ q, nodeAt t z = some (.parent q) → u ∈ q.unmergedLeaves) ∧
      u.toNat < 2 ^ 31 ∧ ∃ n, nodeAt t (2 * u.toNat) = some n) ↔ u.toNat / 2 ^ (m + 1) = y ∧ Placed t m u := by
  have hp : 2 ^ d ≤ 2 ^ 31 := Nat.pow_le_pow_right (by decide) hd
  constructor
  · rintro ⟨⟨below, above, h1, h2⟩, h3, h4⟩
    rw [leafNumber_small h3] at h1
    have hin : u.toNat < 2 ^ d := by
      by_contra hge
      rw [ancestors_none] at h1
      · cases h1
      · intro hm
        have := ((mem_perfect_range d 0 (2 * u.toNat)).1 (by rw [Nat.zero_mul]; exact hm)).2
        rw [Nat.pow_succ] at this
        omega
    rw [ancestors_leaf hin, Option.some.injEq, show m + 1 = 0 + m + 1 from by omega] at h1
    obtain ⟨e1, rfl, rfl⟩ := upPath_split h1
    refine ⟨rfl, h4, fun m' h5 h6 => h2 _ (mem_path.2 ⟨m', h5, h6, rfl⟩)⟩
  · rintro ⟨rfl, h1, h2⟩
    have hmd : m + 1 ≤ d := hb.1
    have hin : u.toNat < 2 ^ d := by
      have := hb.2
      rw [Nat.div_div_eq_div_mul, ← Nat.pow_add, show m + 1 + (d - (m + 1)) = d from by omega] at this
      exact (Nat.div_eq_zero_iff_lt (Nat.two_pow_pos d)).1 this
    have h3 : u.toNat < 2 ^ 31 := by omega
    obtain ⟨above, e⟩ := upPath_take (a := d) (k := 0) (j := u.toNat) (n := m) (by omega)
    refine ⟨⟨upPath m 0 u.toNat, above, ?_, ?_⟩, h3, h1⟩
    · rw [leafNumber_small h3, ancestors_leaf hin, e, Nat.zero_add]
    · intro z hz
      obtain ⟨m', h5, h6, rfl⟩ := mem_path.1 hz
      exact h2 m' h5 h6

/-- The specification, by recursion on the tree. -/
theorem intact_iff {H : Bytes → Bytes} {t : VTree} {d : Nat} (hd : d ≤ 31) {s : Ratchet ParentNode d} (ht : t = s.flat .leaf .parent) :
    Spec.Intact H t s ↔ s.Recorded 0 ∧ s.Linked H 0 := by
  have hp : 2 ^ d ≤ 2 ^ 31 := Nat.pow_le_pow_right (by decide) hd
  have hat : VAt t 0 s := by rw [ht]; exact at_flat _ _ s
  have hlen : t.length = 2 ^ (d + 1) - 1 := by rw [ht]; exact flat_length _ _ _
  have hrec := recorded_iff hat
  rw [Nat.zero_mul] at hrec
  have hlink := fun hr => linked_iff (H := H) hat (by rw [Nat.zero_mul]; exact hr) (by omega)
  rw [Nat.zero_mul, Nat.zero_mul] at hlink
  constructor
  · intro h
    have hr : s.Recorded 0 := by
      rw [hrec]
      intro m y hb q hq u hu
      exact (unmerged_iff hd hb).1 ⟨h.unmerged _ q hq u hu, h.occupied _ q hq u hu⟩
    exact ⟨hr, (hlink hr).1 h.parentHashes⟩
  · rintro ⟨h1, h2⟩
    have key : ∀ x q, nodeAt t x = some (.parent q) → ∀ u ∈ q.unmergedLeaves, ∃ m y, x = idx (m + 1) y ∧ Below d 0 (m + 1) y ∧
        u.toNat / 2 ^ (m + 1) = y ∧ Placed t m u := by
      intro x q hq u hu
      have hx : x < 2 ^ (d + 1) - 1 := by rw [← hlen]; exact (List.getElem?_eq_some_iff.1 (nodeAt_some.1 hq)).1
      obtain ⟨m, y, hb, rfl⟩ := exists_below hx
      cases m with
      | zero =>
        obtain ⟨n, hn⟩ := at_sub hat hb
        cases n with
        | leaf n =>
          have hn : t[idx 0 y]? = some (n.map .leaf) := hn
          rw [nodeAt_eq hn] at hq
          cases n <;> cases hq
      | succ m => exact ⟨m, y, rfl, hb, hrec.1 h1 m y hb q hq u hu⟩
    refine ⟨ht, (hlink h1).2 h2, fun x q hq u hu => ?_, fun x q hq u hu => ?_⟩
    · obtain ⟨m, y, rfl, hb, hk⟩ := key x q hq u hu
      exact ((unmerged_iff hd hb).2 hk).1
    · obtain ⟨m, y, rfl, hb, hk⟩ := key x q hq u hu
      exact ((unmerged_iff hd hb).2 hk).2

/-! ### The proposals of a commit -/

/-- Unmerged leaves and parent hashes are right, if there is a tree. -/
def Good (H : Bytes → Bytes) (t : Option (Ratchet.Any ParentNode)) : Prop := ∀ a, t = some a → a.2.Recorded 0 ∧ a.2.Linked H 0

theorem good_update {H : Bytes → Bytes} {t t' : Option (Ratchet.Any ParentNode)} {i : Nat} {n : LeafNode} (h : Good H t)
    (he : Ratchet.updateOpt t i n = some t') : Good H t' := by
  cases t with
  | none => cases he
  | some a =>
    obtain ⟨d, s⟩ := a
    unfold Ratchet.updateOpt at he
    dsimp only at he
    split at he
    · cases he
      rintro a ha
      cases ha
      exact ⟨recorded_blankPath s _ (h _ rfl).1, linked_blankPath s _ (h _ rfl).2⟩
    · cases he

theorem good_remove {H : Bytes → Bytes} {t t' : Option (Ratchet.Any ParentNode)} {i : Nat} (h : Good H t)
    (he : Ratchet.removeOpt t i = some t') : Good H t' := by
  cases t with
  | none => cases he
  | some a =>
    obtain ⟨d, s⟩ := a
    unfold Ratchet.removeOpt at he
    dsimp only at he
    split at he
    · cases he
      rintro a ha
      unfold Ratchet.remove at ha
      exact ⟨shrink_keeps (Q := fun s => s.Recorded 0) (fun p l r hq => hq.2.1) _ (recorded_blankPath s _ (h _ rfl).1) ha,
        shrink_keeps (Q := fun s => s.Linked H 0) (fun p l r hq => hq.2.1) _ (linked_blankPath s _ (h _ rfl).2) ha⟩
    · cases he

theorem leafAt_leaves {P : Type} {d : Nat} (s : Ratchet P d) {i : Nat} (hi : i < 2 ^ d) : s.leaves[i]? = some (s.leafAt i) := by
  induction s generalizing i with
  | leaf n =>
    obtain rfl : i = 0 := by simpa using hi
    rfl
  | @node d p l r ihl ihr =>
    rw [Nat.pow_succ] at hi
    unfold Ratchet.leaves Ratchet.leafAt
    by_cases h : i < 2 ^ d
    · rw [if_pos h, List.getElem?_append_left (by rw [leaves_length]; exact h), ihl h]
    · rw [if_neg h, List.getElem?_append_right (by rw [leaves_length]; omega), leaves_length, ihr (by omega)]

theorem firstBlank_leafAt {P : Type} {d : Nat} {s : Ratchet P d} {i : Nat} (h : s.firstBlank = some i) : i < 2 ^ d ∧ s.leafAt i = none := by
  rw [firstBlank_eq, List.findIdx?_eq_some_iff_getElem] at h
  obtain ⟨hi, h1, _⟩ := h
  have hid : i < 2 ^ d := by rwa [leaves_length] at hi
  refine ⟨hid, ?_⟩
  have := leafAt_leaves s hid
  rw [List.getElem?_eq_getElem hi, Option.some.injEq] at this
  rw [this] at h1
  simpa using h1

theorem leafAt_blank {P : Type} (d i : Nat) : (Ratchet.blank d : Ratchet P d).leafAt i = none := by
  induction d generalizing i with
  | zero => rfl
  | succ d ih =>
    unfold Ratchet.blank Ratchet.leafAt
    split <;> exact ih _

theorem good_add {H : Bytes → Bytes} {n : LeafNode} (hn : ∀ x, parentHashOf (.leaf n) ≠ H x) {t : Option (Ratchet.Any ParentNode)} (h : Good H t)
    (hd : (Ratchet.addOpt t n).1 ≤ 31) : Good H (some (Ratchet.addOpt t n)) := by
  rintro a ha
  cases ha
  cases t with
  | none => exact ⟨trivial, trivial⟩
  | some a =>
    obtain ⟨d, s⟩ := a
    obtain ⟨h1, h2⟩ := h _ rfl
    dsimp only at h1 h2
    have eq : Ratchet.addOpt (some ⟨d, s⟩) n = s.add n := rfl
    rw [eq] at hd ⊢
    rcases add_eq_alongPath s n with ⟨_, e⟩ | ⟨i, hf, e⟩
    · rw [e] at hd ⊢
      dsimp only at hd ⊢
      have hp : 2 ^ (d + 1) ≤ 2 ^ 31 := Nat.pow_le_pow_right (by decide) hd
      have hlt : 2 ^ d < 2 ^ (d + 1) := Nat.pow_lt_pow_right (by decide) (by omega)
      have hu : (UInt32.ofNat (2 ^ d)).toNat = 2 ^ d := by
        rw [UInt32.toNat_ofNat', Nat.mod_eq_of_lt (by omega)]
      have g1 : (Ratchet.node none s (.blank d)).Recorded 0 := ⟨fun q hq => by (cases hq), h1, blank_recorded _ _⟩
      have g2 : (Ratchet.node none s (.blank d)).Linked H 0 := ⟨fun q hq => by (cases hq), h2, blank_linked _ _ _⟩
      have g3 : (Ratchet.node none s (.blank d)).leafAt (2 ^ d) = none := by
        unfold Ratchet.leafAt
        rw [if_neg (by omega)]
        exact leafAt_blank _ _
      have k1 := recorded_add (n := n) (u := UInt32.ofNat (2 ^ d)) g1 hlt (by rw [hu]; omega)
      have k2 := linked_add hn (u := UInt32.ofNat (2 ^ d)) g1 g2 (by omega) hlt (by rw [hu]; omega) g3
      unfold withLeaf at k1 k2
      rw [hu] at k1 k2
      exact ⟨k1, k2⟩
    · rw [e] at hd ⊢
      dsimp only at hd ⊢
      have hp : 2 ^ d ≤ 2 ^ 31 := Nat.pow_le_pow_right (by decide) hd
      obtain ⟨hlt, g3⟩ := firstBlank_leafAt hf
      have hu : (UInt32.ofNat i).toNat = i := by
        rw [UInt32.toNat_ofNat', Nat.mod_eq_of_lt (by omega)]
      have k1 := recorded_add (n := n) (u := UInt32.ofNat i) h1 hlt (by rw [hu]; omega)
      have k2 := linked_add hn (u := UInt32.ofNat i) h1 h2 (by omega) hlt (by rw [hu]; omega) g3
      unfold withLeaf at k1 k2
      rw [hu] at k1 k2
      exact ⟨k1, k2⟩

theorem good_adds {H : Bytes → Bytes} (ns : List LeafNode) (hn : ∀ n ∈ ns, ∀ x, parentHashOf (.leaf n) ≠ H x)
    {t : Option (Ratchet.Any ParentNode)} (hg : Good H t)
    (hd : ∀ b, ns.foldl (fun t n => some (Ratchet.addOpt t n)) t = some b → b.1 ≤ 31) :
    Good H (ns.foldl (fun t n => some (Ratchet.addOpt t n)) t) := by
  induction ns generalizing t with
  | nil => exact hg
  | cons n ns ih =>
    rw [List.foldl_cons] at hd ⊢
    refine ih (fun m hm => hn m (List.mem_cons_of_mem _ hm)) (good_add (hn n (List.mem_cons_self ..)) hg ?_) hd
    obtain ⟨b, h1, h2⟩ := adds_depth ns (Ratchet.addOpt t n)
    exact Nat.le_trans h2 (hd b h1)

theorem foldlM_keeps {α β : Type} {f : α → β → Option α} {Q : α → Prop} (hf : ∀ a b a', Q a → f a b = some a' → Q a') (l : List β) {a a' : α}
    (h : Q a) (he : l.foldlM f a = some a') : Q a' := by
  induction l generalizing a with
  | nil =>
    simp only [List.foldlM_nil, Option.pure_def, Option.some.injEq] at he
    subst he
    exact h
  | cons b l ih =>
    simp only [List.foldlM_cons, Option.bind_eq_bind, Option.bind_eq_some_iff] at he
    obtain ⟨a1, h1, he⟩ := he
    exact ih (hf a b a1 h h1) he

theorem good_all {H : Bytes → Bytes} {t : Option (Ratchet.Any ParentNode)} {us : List (UInt32 × LeafNode)} {rs : List UInt32} {ns : List LeafNode}
    (hn : ∀ n ∈ ns, ∀ x, parentHashOf (.leaf n) ≠ H x) (hg : Good H t) {d : Nat} {s : Ratchet ParentNode d} (hd : d ≤ 31)
    (h : Ratchet.applyAll t us rs ns = some (some ⟨d, s⟩)) : s.Recorded 0 ∧ s.Linked H 0 := by
  unfold Ratchet.applyAll at h
  rw [Option.map_eq_some_iff] at h
  obtain ⟨t2, h2, h3⟩ := h
  rw [Option.bind_eq_some_iff] at h2
  obtain ⟨t1, h1, h2⟩ := h2
  have g1 : Good H t1 := foldlM_keeps (fun a b a' q e => good_update q e) us hg h1
  have g2 : Good H t2 := foldlM_keeps (fun a b a' q e => good_remove q e) rs g1 h2
  have g3 := good_adds ns hn g2 (fun b hb => by rw [h3] at hb; cases hb; exact hd)
  exact g3 _ h3

end Mls
