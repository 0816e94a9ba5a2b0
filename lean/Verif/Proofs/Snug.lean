import Verif.Spec.Snug
import Verif.Proofs.Intact
/-
The operations on ratchet trees keep them no larger than needed.
-/
namespace Mls

open Spec (Ratchet nodeAt)

theorem occupied_leafAt {P : Type} {d : Nat} (s : Ratchet P d) : s.occupied = true ↔ ∃ i, i < 2 ^ d ∧ ∃ l, s.leafAt i = some l := by
  induction s with
  | leaf n =>
    constructor
    · intro h
      exact ⟨0, by simp, Option.isSome_iff_exists.1 h⟩
    · rintro ⟨i, hi, l, hl⟩
      exact Option.isSome_iff_exists.2 ⟨l, hl⟩
  | @node d p l r ihl ihr =>
    unfold Ratchet.occupied
    rw [Bool.or_eq_true, ihl, ihr]
    constructor
    · rintro (⟨i, hi, m, hm⟩ | ⟨i, hi, m, hm⟩)
      · refine ⟨i, by rw [Nat.pow_succ]; omega, m, ?_⟩
        unfold Ratchet.leafAt
        rwa [if_pos hi]
      · refine ⟨2 ^ d + i, by rw [Nat.pow_succ]; omega, m, ?_⟩
        unfold Ratchet.leafAt
        rwa [if_neg (by omega), Nat.add_sub_cancel_left]
    · rintro ⟨i, hi, m, hm⟩
      rw [Nat.pow_succ] at hi
      unfold Ratchet.leafAt at hm
      split at hm
      · next h => exact .inl ⟨i, h, m, hm⟩
      · exact .inr ⟨i - 2 ^ d, by omega, m, hm⟩

/-- A tree is no larger than needed if a member is in its right half. -/
theorem snug_iff {P : Type} {d : Nat} (s : Ratchet P d) : s.snug = true ↔ ∃ i, 2 ^ d ≤ 2 * i + 1 ∧ i < 2 ^ d ∧ ∃ l, s.leafAt i = some l := by
  cases s with
  | leaf n =>
    have := occupied_leafAt (.leaf n : Ratchet P 0)
    constructor
    · intro h
      obtain ⟨i, hi, l, hl⟩ := this.1 h
      exact ⟨i, by simp, hi, l, hl⟩
    · rintro ⟨i, _, hi, l, hl⟩
      exact this.2 ⟨i, hi, l, hl⟩
  | @node d p l r =>
    show r.occupied = true ↔ _
    rw [occupied_leafAt]
    have hp := Nat.two_pow_pos d
    constructor
    · rintro ⟨i, hi, m, hm⟩
      refine ⟨2 ^ d + i, by rw [Nat.pow_succ]; omega, by rw [Nat.pow_succ]; omega, m, ?_⟩
      unfold Ratchet.leafAt
      rwa [if_neg (by omega), Nat.add_sub_cancel_left]
    · rintro ⟨i, h1, h2, m, hm⟩
      rw [Nat.pow_succ] at h1 h2
      unfold Ratchet.leafAt at hm
      split at hm
      · omega
      · exact ⟨i - 2 ^ d, by omega, m, hm⟩

theorem snug_shrink {P : Type} {d : Nat} {s : Ratchet P d} {a : Ratchet.Any P} (h : s.shrink = some a) : a.2.snug = true := by
  induction s with
  | leaf n =>
    cases n with
    | none => cases h
    | some n => cases h; rfl
  | node p l r ihl ihr =>
    unfold Ratchet.shrink at h
    split at h
    · next ho => cases h; exact ho
    · exact ihl h

/-- Members stay where they are when others are set. -/
theorem snug_set {d : Nat} {s : Ratchet ParentNode d} (h : s.snug = true) {i : Nat} (hi : i < 2 ^ d) (n : LeafNode)
    (g : Option ParentNode → Option ParentNode) : (s.alongPath (fun _ => some n) g i).snug = true := by
  rw [snug_iff] at h ⊢
  obtain ⟨j, h1, h2, l, hl⟩ := h
  refine ⟨j, h1, h2, ?_⟩
  rw [leafAt_alongPath _ _ _ hi h2]
  split
  · exact ⟨n, rfl⟩
  · exact ⟨l, hl⟩

theorem snug_add {d : Nat} {s : Ratchet ParentNode d} (h : s.snug = true) (n : LeafNode) : (s.add n).2.snug = true := by
  rcases add_eq_alongPath s n with ⟨_, e⟩ | ⟨j, hf, e⟩
  · rw [e]
    have hlt : 2 ^ d < 2 ^ (d + 1) := Nat.pow_lt_pow_right (by decide) (by omega)
    rw [snug_iff]
    refine ⟨2 ^ d, ?_, hlt, n, ?_⟩
    · show 2 ^ (d + 1) ≤ _
      rw [Nat.pow_succ]; omega
    · rw [leafAt_alongPath _ _ _ hlt hlt, if_pos rfl]
  · obtain ⟨hj, _⟩ := firstBlank_leafAt hf
    rw [e]
    exact snug_set h hj n _

/-- If there is a tree, it is no larger than needed. -/
def SnugOpt (t : Option (Ratchet.Any ParentNode)) : Prop := ∀ a, t = some a → a.2.snug = true

theorem snug_updateOpt {t t' : Option (Ratchet.Any ParentNode)} {i : Nat} {n : LeafNode} (h : SnugOpt t)
    (he : Ratchet.updateOpt t i n = some t') : SnugOpt t' := by
  cases t with
  | none => cases he
  | some a =>
    obtain ⟨d, s⟩ := a
    unfold Ratchet.updateOpt at he
    dsimp only at he
    split at he
    · next hi =>
      cases he
      rintro a ha
      cases ha
      exact snug_set (h _ rfl) hi n _
    · cases he

theorem snug_removeOpt {t t' : Option (Ratchet.Any ParentNode)} {i : Nat} (he : Ratchet.removeOpt t i = some t') : SnugOpt t' := by
  cases t with
  | none => cases he
  | some a =>
    obtain ⟨d, s⟩ := a
    unfold Ratchet.removeOpt at he
    dsimp only at he
    split at he
    · cases he
      rintro a ha
      exact snug_shrink ha
    · cases he

theorem snug_addOpt {t : Option (Ratchet.Any ParentNode)} (h : SnugOpt t) (n : LeafNode) : (Ratchet.addOpt t n).2.snug = true := by
  cases t with
  | none => rfl
  | some a => exact snug_add (h a rfl) n

theorem snug_adds (ns : List LeafNode) {t : Option (Ratchet.Any ParentNode)} (h : SnugOpt t) :
    SnugOpt (ns.foldl (fun t n => some (Ratchet.addOpt t n)) t) := by
  induction ns generalizing t with
  | nil => exact h
  | cons n ns ih =>
    rw [List.foldl_cons]
    refine ih ?_
    rintro a ha
    cases ha
    exact snug_addOpt h n

theorem snug_all {t t' : Option (Ratchet.Any ParentNode)} {us : List (UInt32 × LeafNode)} {rs : List UInt32} {ns : List LeafNode}
    (hg : SnugOpt t) (h : Ratchet.applyAll t us rs ns = some t') : SnugOpt t' := by
  unfold Ratchet.applyAll at h
  rw [Option.map_eq_some_iff] at h
  obtain ⟨t2, h2, h3⟩ := h
  rw [Option.bind_eq_some_iff] at h2
  obtain ⟨t1, h1, h2⟩ := h2
  have g1 := foldlM_keeps (Q := SnugOpt) (fun a b a' ha he => snug_updateOpt ha he) us hg h1
  have g2 := foldlM_keeps (Q := SnugOpt) (fun a b a' _ he => snug_removeOpt he) rs g1 h2
  rw [← h3]
  exact snug_adds ns g2

theorem occupied_merge {H : Bytes → Bytes} {new : LeafNode} {d : Nat} {s s' : Ratchet ParentNode d} {i0 i : Nat} {keys : List Bytes} {prev ph : Bytes}
    (h : s.merge H new i0 i keys prev = some (s', ph)) : s'.occupied = true := by
  induction s generalizing i0 i keys prev with
  | leaf n =>
    obtain ⟨rfl, _⟩ := merge_leaf h
    rfl
  | node p l r ihl ihr =>
    obtain ⟨p', l', r', keys', prev', rfl, ⟨_, rfl, h2⟩ | ⟨_, rfl, h2⟩, _⟩ := merge_split h
    · unfold Ratchet.occupied; rw [ihl h2, Bool.true_or]
    · unfold Ratchet.occupied; rw [ihr h2, Bool.or_true]

theorem snug_merge {H : Bytes → Bytes} {new : LeafNode} {d : Nat} {s s' : Ratchet ParentNode d} {i0 i : Nat} {keys : List Bytes} {prev ph : Bytes}
    (h : s.merge H new i0 i keys prev = some (s', ph)) (hs : s.snug = true) : s'.snug = true := by
  cases s with
  | leaf n =>
    obtain ⟨rfl, _⟩ := merge_leaf h
    rfl
  | node p l r =>
    obtain ⟨p', l', r', keys', prev', rfl, ⟨_, rfl, h2⟩ | ⟨_, rfl, h2⟩, _⟩ := merge_split h
    · exact hs
    · exact occupied_merge h2

end Mls
