import Verif.Proofs.TreeOps
/-
Trees whose parent nodes live in the heap: what a reader of the tree sees after each operation.
-/
namespace Mls

open Spec (Ratchet)

/-- Every parent node of the tree is in the heap and belongs to one position only. -/
structure Owned (h : Heap) (t : RTree) : Prop where
  lt : ∀ {x p : Nat}, t[x]? = some (some (.parent p)) → p < h.length
  inj : ∀ {x y p : Nat}, t[x]? = some (some (.parent p)) → t[y]? = some (some (.parent p)) → x = y

/-- The array holds the complete tree `s`. -/
structure Holds (h : Heap) (t : RTree) {d : Nat} (s : Ratchet ParentNode d) : Prop where
  owned : Owned h t
  flat : derefTree h t = s.flat .leaf .parent

theorem derefTree_get (h : Heap) (t : RTree) (x : Nat) :
    (derefTree h t)[x]? = (t[x]?).map (Option.map (TNode.deref h)) := by
  unfold derefTree; rw [List.getElem?_map]

@[simp] theorem derefTree_length (h : Heap) (t : RTree) : (derefTree h t).length = t.length := by
  simp [derefTree]

theorem Holds.length {h : Heap} {t : RTree} {d : Nat} {s : Ratchet ParentNode d} (hh : Holds h t s) :
    t.length = 2 ^ (d + 1) - 1 := by
  have := congrArg List.length hh.flat
  rwa [derefTree_length, flat_length] at this

/-- A tree all of whose references are references of another one at the same place. -/
def Sub (t' t : RTree) : Prop :=
  ∀ x p : Nat, t'[x]? = some (some (TNode.parent p)) → t[x]? = some (some (.parent p))

theorem Sub.refl (t : RTree) : Sub t t := fun _ _ h => h

theorem Sub.trans {a b c : RTree} (h : Sub a b) (h' : Sub b c) : Sub a c := fun x p hx => h' x p (h x p hx)

theorem Owned.sub {h : Heap} {t t' : RTree} (ho : Owned h t) (hs : Sub t' t) : Owned h t' :=
  ⟨fun hx => ho.lt (hs _ _ hx), fun hx hy => ho.inj (hs _ _ hx) (hs _ _ hy)⟩

theorem Owned.heap {h h' : Heap} {t : RTree} (ho : Owned h t) (hl : h.length ≤ h'.length) : Owned h' t :=
  ⟨fun hx => Nat.lt_of_lt_of_le (ho.lt hx) hl, fun hx hy => ho.inj hx hy⟩

theorem Sub.set_leaf (t : RTree) (i : Nat) (l : LeafNode) : Sub (t.set i (some (.leaf l))) t := by
  intro x p hx
  rw [List.getElem?_set] at hx
  split at hx
  · split at hx <;> simp at hx
  · exact hx

theorem Sub.set_none (t : RTree) (i : Nat) : Sub (t.set i none) t := by
  intro x p hx
  rw [List.getElem?_set] at hx
  split at hx
  · split at hx <;> simp at hx
  · exact hx

theorem Sub.take (t : RTree) (n : Nat) : Sub (t.take n) t := by
  intro x p hx
  rw [List.getElem?_take] at hx
  split at hx
  · exact hx
  · cases hx

theorem Sub.grow (t : RTree) (n : Nat) : Sub (t ++ List.replicate n none) t := by
  intro x p hx
  rw [List.getElem?_append] at hx
  split at hx
  · exact hx
  · rw [List.getElem?_replicate] at hx
    split at hx <;> simp at hx

/-! ### Adding -/

/-- The loop of add: when it succeeds, references on the path have the leaf recorded. -/
theorem addAncestors_spec {t : RTree} {d : Nat} (hd : d ≤ 31) (hl : t.length = 2 ^ (d + 1) - 1) (li : UInt32)
    (hpar : ∀ k j l, t[idx (k + 1) j]? ≠ some (some (.leaf l))) :
    ∀ (m k j fuel : Nat) (h : Heap), k + m = d → j / 2 ^ m = 0 → m < fuel → Owned h t →
    ∃ h', addAncestors t (2 ^ d) li fuel h (idx k j) = .ok h' ∧ h'.length = h.length ∧
      (∀ x p, x ∈ upPath m k j → t[x]? = some (some (.parent p)) →
        h'.getD p default = { h.getD p default with unmergedLeaves := (h.getD p default).unmergedLeaves ++ [li] }) ∧
      (∀ p, (∀ x ∈ upPath m k j, t[x]? ≠ some (some (.parent p))) → h'.getD p default = h.getD p default) := by
  intro m
  induction m with
  | zero =>
    intro k j fuel h hk hj hf ho
    obtain ⟨fuel, rfl⟩ : ∃ f, fuel = f + 1 := ⟨fuel - 1, by omega⟩
    simp at hk hj
    subst hk hj
    refine ⟨h, ?_, rfl, by simp [upPath], by simp⟩
    unfold addAncestors
    rw [parent_root hd]
  | succ m ih =>
    intro k j fuel h hk hj hf ho
    obtain ⟨fuel, rfl⟩ : ∃ f, fuel = f + 1 := ⟨fuel - 1, by omega⟩
    have hb : Below d 0 (k + 1) (j / 2) := ⟨by omega, by
      rw [show d - (k + 1) = m from by omega, ← div_half]; exact hj⟩
    have hlt := hb.lt
    have hpos : idx (k + 1) (j / 2) < t.length := by omega
    have hnot : idx (k + 1) (j / 2) ∉ upPath m (k + 1) (j / 2) := by
      intro hm
      obtain ⟨e, he, heq⟩ := mem_upPath.1 hm
      have := (idx_inj heq).1
      omega
    have hj' : j / 2 / 2 ^ m = 0 := by rw [← div_half]; exact hj
    unfold addAncestors
    rw [parent_idx hd (by omega) (by rw [show d - k = m + 1 from by omega]; exact hj)]
    simp only
    have hget : t[idx (k + 1) (j / 2)]? = some t[idx (k + 1) (j / 2)] := List.getElem?_eq_getElem hpos
    rw [Res.idx_ok_iff.2 hget]
    simp only [Res.ok_bind]
    generalize ho' : t[idx (k + 1) (j / 2)] = o at hget
    match o, hget with
    | none, hget =>
      obtain ⟨h', h1, h2, h3, h4⟩ := ih (k + 1) (j / 2) fuel h (by omega) hj' (by omega) ho
      refine ⟨h', h1, h2, fun x p hx hp => ?_, fun p hp => h4 p fun x hx => hp x ?_⟩
      · simp only [upPath, List.mem_cons] at hx
        rcases hx with rfl | hx
        · rw [hget] at hp; cases hp
        · exact h3 x p hx hp
      · simp only [upPath, List.mem_cons]; exact .inr hx
    | some (.leaf l), hget => exact absurd hget (hpar k (j / 2) l)
    | some (.parent ptr), hget =>
      have hptr := ho.lt hget
      simp only
      obtain ⟨h', h1, h2, h3, h4⟩ := ih (k + 1) (j / 2) fuel
        (h.modify ptr fun q => { q with unmergedLeaves := q.unmergedLeaves ++ [li] }) (by omega) hj' (by omega)
        (ho.heap (by simp))
      refine ⟨h', h1, by simpa using h2, fun x p hx hp => ?_, fun p hp => ?_⟩
      · simp only [upPath, List.mem_cons] at hx
        rcases hx with rfl | hx
        · rw [hget] at hp
          cases hp
          rw [h4 ptr fun x hx hc => hnot (by rw [ho.inj hget hc]; exact hx)]
          simp only [List.getD_eq_getElem?_getD, List.getElem?_modify, if_true]
          rw [List.getElem?_eq_getElem hptr]
          rfl
        · rw [h3 x p hx hp]
          have hne : ptr ≠ p := by
            rintro rfl
            exact hnot (by rw [ho.inj hget hp]; exact hx)
          simp only [List.getD_eq_getElem?_getD, List.getElem?_modify, hne, if_false]
          rcases h[p]? with _ | q <;> rfl
      · rw [h4 p fun x hx => hp x (by simp only [upPath, List.mem_cons]; exact .inr hx)]
        have hne : ptr ≠ p := by
          rintro rfl
          exact hp _ (by simp [upPath]) hget
        simp only [List.getD_eq_getElem?_getD, List.getElem?_modify, hne, if_false]
        rcases h[p]? with _ | q <;> rfl

/-- The positions of parents hold no leaf. -/
theorem at_parent {P N : Type} {ml : LeafNode → N} {mp : P → N} {t : List (Option N)} {d j : Nat} {s : Ratchet P d}
    (h : At ml mp t j s) {m y : Nat} (hb : Below d j (m + 1) y) : ∃ o : Option P, t[idx (m + 1) y]? = some (o.map mp) := by
  induction s generalizing j with
  | leaf n => have := hb.1; omega
  | @node d p l r ihl ihr =>
    rcases hb.cases with ⟨e1, e2⟩ | hb | hb
    · cases e1
      subst e2
      exact ⟨p, h.1⟩
    · exact ihl h.2.1 hb
    · exact ihr h.2.2 hb

theorem Holds.parent_pos {h : Heap} {t : RTree} {d : Nat} {s : Ratchet ParentNode d} (hh : Holds h t s)
    (k j : Nat) (l : LeafNode) : t[idx (k + 1) j]? ≠ some (some (.leaf l)) := by
  intro hc
  have hlt : idx (k + 1) j < t.length := (List.getElem?_eq_some_iff.1 hc).1
  rw [hh.length] at hlt
  obtain ⟨m, y, hb, he⟩ := exists_below hlt
  obtain ⟨e1, e2⟩ := idx_inj he
  subst e1 e2
  obtain ⟨o, ho⟩ := at_parent (at_flat Node.leaf Node.parent s) hb
  rw [← hh.flat, derefTree_get, hc] at ho
  cases o <;> simp [TNode.deref] at ho

theorem Holds.leaf_pos {h : Heap} {t : RTree} {d : Nat} {s : Ratchet ParentNode d} (hh : Holds h t s)
    (i : Nat) (p : Nat) : t[idx 0 i]? ≠ some (some (.parent p)) := by
  intro hc
  have hlt : idx 0 i < t.length := (List.getElem?_eq_some_iff.1 hc).1
  rw [hh.length] at hlt
  have hi : i < 2 ^ d := by
    unfold idx at hlt
    rw [Nat.pow_succ] at hlt
    omega
  obtain ⟨o, _, ho⟩ := at_leaf (at_flat Node.leaf Node.parent s) hi
  rw [Nat.zero_mul, Nat.zero_add, ← hh.flat, derefTree_get, hc] at ho
  cases o <;> simp [TNode.deref] at ho

theorem Holds.leaf_get {h : Heap} {t : RTree} {d : Nat} {s : Ratchet ParentNode d} (hh : Holds h t s) {i : Nat}
    (hi : i < 2 ^ d) : ∃ o, s.leaves[i]? = some o ∧ t[idx 0 i]? = some (o.map .leaf) := by
  obtain ⟨o, h1, h2⟩ := at_leaf (at_flat Node.leaf Node.parent s) hi
  refine ⟨o, h1, ?_⟩
  rw [Nat.zero_mul, Nat.zero_add, ← hh.flat, derefTree_get] at h2
  generalize ht : t[idx 0 i]? = q at h2
  match q, ht, o with
  | none, _, _ => cases h2
  | some none, _, none => rfl
  | some none, _, some _ => simp at h2
  | some (some (.parent p)), ht, _ => exact absurd ht (hh.leaf_pos i p)
  | some (some (.leaf l)), _, none => simp at h2
  | some (some (.leaf l)), _, some l' => simpa [TNode.deref] using h2

theorem firstBlank_eq {P : Type} {d : Nat} (s : Ratchet P d) : s.firstBlank = s.leaves.findIdx? (·.isNone) := by
  induction s with
  | leaf n => cases n <;> simp [Ratchet.firstBlank, Ratchet.leaves, List.findIdx?_cons]
  | @node d p l r ihl ihr =>
    simp only [Ratchet.firstBlank, Ratchet.leaves, List.findIdx?_append, ← ihl, ← ihr, leaves_length]
    cases l.firstBlank with
    | some i => rfl
    | none =>
      cases r.firstBlank with
      | none => rfl
      | some i => simp [Nat.add_comm]

theorem findFree_found {h : Heap} {t : RTree} {d : Nat} (hd : d ≤ 31) {s : Ratchet ParentNode d} (hh : Holds h t s)
    {i : Nat} (hi : s.leaves[i]? = some none) (hlow : ∀ j, j < i → ∃ n, s.leaves[j]? = some (some n)) :
    ∀ (fuel li : Nat), li ≤ i → i - li < fuel → findFree t fuel li = .ok (i, true) := by
  have hid : i < 2 ^ d := by
    have := (List.getElem?_eq_some_iff.1 hi).1
    rwa [leaves_length] at this
  have hlen := hh.length
  intro fuel
  induction fuel with
  | zero => intro li _ h; omega
  | succ fuel ih =>
    intro li h1 h2
    have hlt := (below_leaf (d := d) (li := li) (by omega)).lt
    obtain ⟨o, ho1, ho2⟩ := hh.leaf_get (i := li) (by omega)
    unfold findFree
    rw [nodeOfLeaf_idx (leaf_lt hd (by omega))]
    simp only
    rw [if_neg (by omega), Res.idx_ok_iff.2 ho2]
    simp only [Res.ok_bind]
    rcases Nat.lt_or_ge li i with hl | hl
    · obtain ⟨n, hn⟩ := hlow li hl
      rw [hn] at ho1
      cases ho1
      exact ih (li + 1) (by omega) (by omega)
    · obtain rfl : li = i := by omega
      rw [hi] at ho1
      cases ho1
      rfl

theorem findFree_full {h : Heap} {t : RTree} {d : Nat} (hd : d ≤ 30) {s : Ratchet ParentNode d} (hh : Holds h t s)
    (hfull : ∀ j, j < 2 ^ d → ∃ n, s.leaves[j]? = some (some n)) :
    ∀ (fuel li : Nat), li ≤ 2 ^ d → 2 ^ d - li < fuel → findFree t fuel li = .ok (2 ^ d, false) := by
  have hp : 0 < 2 ^ d := Nat.two_pow_pos d
  have h30 : 2 ^ d ≤ 2 ^ 30 := Nat.pow_le_pow_right (by decide) hd
  have hlen := hh.length
  intro fuel
  induction fuel with
  | zero => intro li _ h; omega
  | succ fuel ih =>
    intro li h1 h2
    unfold findFree
    rcases Nat.lt_or_ge li (2 ^ d) with hl | hl
    · have hlt := (below_leaf hl).lt
      obtain ⟨o, ho1, ho2⟩ := hh.leaf_get hl
      rw [nodeOfLeaf_idx (by omega)]
      simp only
      rw [if_neg (by omega), Res.idx_ok_iff.2 ho2]
      simp only [Res.ok_bind]
      obtain ⟨n, hn⟩ := hfull li hl
      rw [hn] at ho1
      cases ho1
      exact ih (li + 1) (by omega) (by omega)
    · obtain rfl : li = 2 ^ d := by omega
      have : nodeOfLeaf (2 ^ d) = 2 ^ (d + 1) := by
        unfold nodeOfLeaf
        rw [Nat.mod_eq_of_lt (by omega), Nat.pow_succ]
        omega
      simp only [this]
      rw [if_pos (by omega)]

/-- What a reader sees after the new leaf is recorded on its ancestors and put in place. -/
theorem add_pathMod {h h' : Heap} {t : RTree} {d : Nat} {s : Ratchet ParentNode d} (hh : Holds h t s) {i : Nat}
    {li : UInt32} {leaf : LeafNode} (hi : i < 2 ^ d)
    (h3 : ∀ x p, x ∈ upPath d 0 i → t[x]? = some (some (.parent p)) →
      h'.getD p default = { h.getD p default with unmergedLeaves := (h.getD p default).unmergedLeaves ++ [li] })
    (h4 : ∀ p, (∀ x ∈ upPath d 0 i, t[x]? ≠ some (some (.parent p))) → h'.getD p default = h.getD p default) :
    PathMod (fun _ => some (.leaf leaf))
      (Option.map fun n => match n with
        | .leaf l => .leaf l
        | .parent q => .parent { q with unmergedLeaves := q.unmergedLeaves ++ [li] })
      d i (derefTree h t) (derefTree h' (t.set (idx 0 i) (some (.leaf leaf)))) := by
  have hlen := hh.length
  have hlt := (below_leaf hi).lt
  refine pathMod_of fun x => ?_
  simp only [derefTree_get, List.getElem?_set]
  by_cases hx : idx 0 i = x
  · subst hx
    rw [if_pos rfl, if_pos rfl, if_pos (by omega), List.getElem?_eq_getElem (by omega)]
    rfl
  · rw [if_neg hx, if_neg (fun he => hx he.symm)]
    generalize hv : t[x]? = v
    match v, hv with
    | none, _ => split <;> rfl
    | some none, _ => split <;> rfl
    | some (some (.leaf l)), _ => split <;> rfl
    | some (some (.parent p)), hv =>
      simp only [Option.map_some, TNode.deref]
      split
      · next hm => rw [h3 x p hm hv]
      · next hm =>
        rw [h4 p fun y hy hc => hm (by rw [hh.owned.inj hv hc]; exact hy)]

theorem treeAdd_found {h : Heap} {t : RTree} {d : Nat} (hd : d ≤ 31) {s : Ratchet ParentNode d} (hh : Holds h t s)
    {i : Nat} (hf : s.firstBlank = some i) (leaf : LeafNode) :
    ∃ h' t', treeAdd h t leaf = .ok (h', t') ∧ h'.length = h.length ∧
      Holds h' t' (s.alongPath (fun _ => some leaf) (Option.map (Ratchet.addUnmerged i)) i) := by
  rw [firstBlank_eq, List.findIdx?_eq_some_iff_getElem] at hf
  obtain ⟨hi, hi1, hi2⟩ := hf
  have hid : i < 2 ^ d := by rwa [leaves_length] at hi
  have hlen := hh.length
  have hlt := (below_leaf hid).lt
  have hbl : s.leaves[i]? = some none := by
    rw [List.getElem?_eq_getElem hi]
    cases hc : s.leaves[i] with
    | none => rfl
    | some n => rw [hc] at hi1; cases hi1
  have hfound := findFree_found hd hh hbl (fun j hj => by
    have := hi2 j hj
    rw [List.getElem?_eq_getElem (by omega)]
    cases hc : s.leaves[j] with
    | none => rw [hc] at this; simp at this
    | some n => exact ⟨n, rfl⟩) (t.length + 1) 0 (by omega) (by unfold idx at hlt; omega)
  obtain ⟨h', h1, h2, h3, h4⟩ := addAncestors_spec hd hlen (UInt32.ofNat i) hh.parent_pos d 0 i 64 h (by omega)
    (Nat.div_eq_of_lt hid) (by omega) hh.owned
  refine ⟨h', t.set (idx 0 i) (some (.leaf leaf)), ?_, h2,
    (hh.owned.sub (Sub.set_leaf _ _ _)).heap (Nat.le_of_eq h2.symm), ?_⟩
  · unfold treeAdd
    rw [hfound]
    simp only [Res.ok_bind, if_true]
    rw [numLeaves_pow hd hlen, nodeOfLeaf_idx (leaf_lt hd hid), h1]
    simp only [Res.ok_bind]
    rw [Res.setIdx_of_lt _ (by omega)]
    rfl
  · have hm := add_pathMod (leaf := leaf) hh hid h3 h4
    rw [hh.flat] at hm
    exact flat_alongPath (f := fun _ => some leaf) (g := Option.map (Ratchet.addUnmerged i)) (fun n => rfl)
      (fun p => by cases p <;> rfl) hm (by rw [derefTree_length, List.length_set]; exact hlen) hid

theorem blank_flat {P N : Type} (ml : LeafNode → N) (mp : P → N) (d : Nat) :
    (Ratchet.blank d : Ratchet P d).flat ml mp = List.replicate (2 ^ (d + 1) - 1) none := by
  induction d with
  | zero => rfl
  | succ d ih =>
    have hp : 0 < 2 ^ (d + 1) := Nat.two_pow_pos _
    simp only [Ratchet.blank, Ratchet.flat, ih, Option.map_none]
    rw [← List.replicate_succ, List.replicate_append_replicate, Nat.pow_succ 2 (d + 1)]
    congr 1
    omega

theorem derefTree_append (h : Heap) (t t' : RTree) : derefTree h (t ++ t') = derefTree h t ++ derefTree h t' := by
  simp [derefTree]

theorem Holds.grow {h : Heap} {t : RTree} {d : Nat} {s : Ratchet ParentNode d} (hh : Holds h t s) :
    Holds h (t ++ List.replicate (t.length + 1) none) (.node none s (.blank d)) := by
  refine ⟨hh.owned.sub (Sub.grow _ _), ?_⟩
  have hp : 0 < 2 ^ (d + 1) := Nat.two_pow_pos _
  rw [derefTree_append, hh.flat, Ratchet.flat, blank_flat, Option.map_none, ← List.replicate_succ, hh.length]
  simp [derefTree]

theorem treeAdd_full {h : Heap} {t : RTree} {d : Nat} (hd : d ≤ 30) {s : Ratchet ParentNode d} (hh : Holds h t s)
    (hf : s.firstBlank = none) (leaf : LeafNode) :
    ∃ h' t', treeAdd h t leaf = .ok (h', t') ∧ h'.length = h.length ∧
      Holds h' t' (.node none s ((Ratchet.blank d).alongPath (fun _ => some leaf) id 0)) := by
  have hp : 0 < 2 ^ d := Nat.two_pow_pos d
  rw [firstBlank_eq, List.findIdx?_eq_none_iff] at hf
  have hlen := hh.length
  have hg := hh.grow
  have hlen' := hg.length
  have hid : 2 ^ d < 2 ^ (d + 1) := by rw [Nat.pow_succ]; omega
  have hlt := (below_leaf hid).lt
  have hfull := findFree_full hd hh (fun j hj => by
    rw [← leaves_length s] at hj
    rw [List.getElem?_eq_getElem hj]
    have := hf _ (List.getElem_mem hj)
    cases hc : s.leaves[j] with
    | none => rw [hc] at this; simp at this
    | some n => exact ⟨n, rfl⟩) (t.length + 1) 0 (by omega) (by rw [Nat.pow_succ] at hlen; omega)
  obtain ⟨h', h1, h2, h3, h4⟩ := addAncestors_spec (d := d + 1) (by omega) hlen' (UInt32.ofNat (2 ^ d)) hg.parent_pos
    (d + 1) 0 (2 ^ d) 64 h (by omega) (Nat.div_eq_of_lt hid) (by omega) hg.owned
  refine ⟨h', _, ?_, h2, (hg.owned.sub (Sub.set_leaf _ (idx 0 (2 ^ d)) leaf)).heap (Nat.le_of_eq h2.symm), ?_⟩
  · unfold treeAdd
    rw [hfull]
    simp only [Res.ok_bind, Bool.false_eq_true, if_false]
    rw [numLeaves_pow (by omega) hlen', nodeOfLeaf_idx (leaf_lt (d := d + 1) (by omega) hid), h1]
    simp only [Res.ok_bind]
    rw [Res.setIdx_of_lt _ (by omega)]
    rfl
  · have hm := add_pathMod (leaf := leaf) hg hid h3 h4
    rw [hg.flat] at hm
    have := flat_alongPath (f := fun _ => some leaf) (g := Option.map (Ratchet.addUnmerged (2 ^ d))) (fun n => rfl)
      (fun p => by cases p <;> rfl) hm (by rw [derefTree_length, List.length_set]; exact hlen') hid
    rw [this]
    have hb : ∀ k i, (Ratchet.blank k : Ratchet ParentNode k).alongPath (fun _ => some leaf)
        (Option.map (Ratchet.addUnmerged (2 ^ d))) i = (Ratchet.blank k).alongPath (fun _ => some leaf) id i := by
      intro k
      induction k with
      | zero => intro i; rfl
      | succ k ih => intro i; simp only [Ratchet.blank, Ratchet.alongPath, Option.map_none, id, ih]
    simp only [Ratchet.alongPath, Nat.lt_irrefl, if_false, Nat.sub_self, Option.map_none, hb]

/-- Adding to a tree: the structural operation. -/
theorem treeAdd_spec {h : Heap} {t : RTree} {d : Nat} (hd : d ≤ 31) {s : Ratchet ParentNode d} (hh : Holds h t s)
    (hroom : d ≤ 30 ∨ s.firstBlank.isSome) (leaf : LeafNode) :
    ∃ h' t', treeAdd h t leaf = .ok (h', t') ∧ h'.length = h.length ∧ Holds h' t' (s.add leaf).2 := by
  unfold Ratchet.add
  cases hf : s.firstBlank with
  | some i => exact treeAdd_found hd hh hf leaf
  | none => exact treeAdd_full (by rcases hroom with h | h; exact h; rw [hf] at h; cases h) hh hf leaf

theorem treeAdd_empty (h : Heap) (leaf : LeafNode) :
    treeAdd h [] leaf = .ok (h, [some (.leaf leaf)]) := by
  rfl

/-! ### Updating -/

theorem pathMod_deref {h : Heap} {d i : Nat} {t t' : RTree} {F G : Option TNode → Option TNode}
    {F' G' : Option Node → Option Node} (hF : ∀ o, (F o).map (TNode.deref h) = F' (o.map (TNode.deref h)))
    (hG : ∀ o, (G o).map (TNode.deref h) = G' (o.map (TNode.deref h)))
    (hm : PathMod F G d i t t') : PathMod F' G' d i (derefTree h t) (derefTree h t') := by
  intro m y
  rw [derefTree_get, derefTree_get, hm m y]
  split
  · rcases t[idx m y]? with _ | o <;> simp [hF]
  · split
    · rcases t[idx m y]? with _ | o <;> simp [hG]
    · rfl

theorem treeUpdate_holds {h : Heap} {t : RTree} {d : Nat} (hd : d ≤ 31) {s : Ratchet ParentNode d} (hh : Holds h t s)
    {li : Nat} (hli : li < 2 ^ d) (leaf : LeafNode) :
    ∃ t', treeUpdate t li leaf = .ok t' ∧ Holds h t' (s.update li leaf) := by
  obtain ⟨t', h1, h2, h3⟩ := treeUpdate_spec hd hh.length hli leaf
  refine ⟨t', h1, hh.owned.sub ?_, ?_⟩
  · intro x p hx
    have hlt : x < 2 ^ (d + 1) - 1 := by
      have := (List.getElem?_eq_some_iff.1 hx).1
      rw [h2, hh.length] at this
      exact this
    obtain ⟨m, y, _, rfl⟩ := exists_below hlt
    have := h3 m y
    rw [hx] at this
    split at this
    · rcases ht : t[idx m y]? with _ | o <;> simp [ht] at this
    · split at this
      · rcases ht : t[idx m y]? with _ | o <;> simp [ht] at this
      · exact this.symm
  · have hm := pathMod_deref (h := h) (F' := fun _ => some (.leaf leaf)) (G' := fun _ => none) (fun _ => rfl) (fun _ => rfl) h3
    rw [hh.flat] at hm
    exact flat_alongPath (f := fun _ => some leaf) (g := fun _ => none) (fun _ => rfl) (fun _ => rfl) hm (by rw [derefTree_length, h2, hh.length]) hli

/-! ### Removing -/

/-- A list that maps to the array of a tree is the array of a tree. -/
theorem lift_flat (h : Heap) {d : Nat} {s : Ratchet ParentNode d} {t : RTree}
    (ht : derefTree h t = s.flat .leaf .parent) :
    ∃ s0 : Ratchet Nat d, t = s0.flat .leaf .parent ∧ s = s0.map (h.getD · default) := by
  induction s generalizing t with
  | leaf n =>
    unfold derefTree at ht
    simp only [Ratchet.flat, List.map_eq_cons_iff, List.map_eq_nil_iff] at ht
    obtain ⟨o, t', rfl, ho, rfl⟩ := ht
    match o, n, ho with
    | none, none, _ => exact ⟨.leaf none, rfl, rfl⟩
    | some (.leaf l), some l', ho =>
      simp [TNode.deref] at ho
      subst ho
      exact ⟨.leaf (some l), rfl, rfl⟩
    | some (.parent l), some l', ho => simp [TNode.deref] at ho
    | some (.parent l), none, ho => simp at ho
    | some (.leaf l), none, ho => simp at ho
    | none, some _, ho => simp at ho
  | node p l r ihl ihr =>
    have ht' := ht
    unfold derefTree at ht'
    simp only [Ratchet.flat, List.map_eq_append_iff, List.map_eq_cons_iff] at ht'
    obtain ⟨t1, t2, rfl, h1, o, t3, rfl, ho, h3⟩ := ht'
    obtain ⟨l0, rfl, hl⟩ := ihl h1
    obtain ⟨r0, rfl, hr⟩ := ihr h3
    subst hl hr
    match o, p, ho with
    | none, none, _ => exact ⟨.node none l0 r0, rfl, rfl⟩
    | some (.parent q), some q', ho =>
      simp [TNode.deref] at ho
      subst ho
      exact ⟨.node (some q) l0 r0, rfl, by simp [Ratchet.map]⟩
    | some (.leaf l), some l', ho => simp [TNode.deref] at ho
    | some (.parent l), none, ho => simp at ho
    | some (.leaf l), none, ho => simp at ho
    | none, some _, ho => simp at ho

theorem flat_map (h : Heap) {d : Nat} (s : Ratchet Nat d) :
    derefTree h (s.flat .leaf .parent) = (s.map (h.getD · default)).flat .leaf .parent := by
  induction s with
  | leaf n => cases n <;> rfl
  | node p l r ihl ihr =>
    simp only [Ratchet.flat, Ratchet.map, derefTree_append, ihl]
    unfold derefTree at ihr ⊢
    rw [List.map_cons, ihr]
    cases p <;> rfl

theorem map_alongPath {P Q : Type} (φ : P → Q) {d : Nat} (s : Ratchet P d) (i : Nat) (f : Option LeafNode → Option LeafNode) :
    (s.alongPath f (fun _ => none) i).map φ = (s.map φ).alongPath f (fun _ => none) i := by
  induction s generalizing i with
  | leaf => rfl
  | node p l r ihl ihr =>
    simp only [Ratchet.alongPath, Ratchet.map]
    split <;> simp [Ratchet.map, ihl, ihr]

theorem map_occupied {P Q : Type} (φ : P → Q) {d : Nat} (s : Ratchet P d) : (s.map φ).occupied = s.occupied := by
  induction s with
  | leaf => rfl
  | node p l r ihl ihr => simp [Ratchet.map, Ratchet.occupied, ihl, ihr]

theorem map_shrink {P Q : Type} (φ : P → Q) {d : Nat} (s : Ratchet P d) :
    (s.map φ).shrink = s.shrink.map fun a => ⟨a.1, a.2.map φ⟩ := by
  induction s with
  | leaf n => cases n <;> rfl
  | node p l r ihl ihr =>
    simp only [Ratchet.map, Ratchet.shrink, map_occupied]
    split
    · rfl
    · exact ihl

/-- The array holds the tree, or is empty when there is none. -/
def HoldsOpt (h : Heap) (t : RTree) : Option (Ratchet.Any ParentNode) → Prop
  | none => t = []
  | some a => Holds h t a.2

theorem blankPath_sub {n : Nat} : ∀ (fuel : Nat) (t : RTree) (x : Nat) (t' : RTree),
    blankPath n fuel t x = .ok t' → Sub t' t := by
  intro fuel
  induction fuel with
  | zero => intro t x t' h; simp [blankPath] at h
  | succ fuel ih =>
    intro t x t' h
    unfold blankPath at h
    simp only [Res.bind_ok_iff] at h
    obtain ⟨t1, h1, h⟩ := h
    have hs : Sub t1 t := by
      obtain ⟨_, rfl⟩ := Res.setIdx_ok_iff.1 h1
      exact Sub.set_none _ _
    split at h
    · cases h; exact hs
    · exact Sub.trans (ih _ _ _ h) hs

theorem treeRemove_sub {t t' : RTree} {li : Nat} (h : treeRemove t li = .ok t') : Sub t' t := by
  unfold treeRemove at h
  simp only [Res.bind_ok_iff] at h
  obtain ⟨t1, h1, r, h2, h⟩ := h
  refine Sub.trans ?_ (blankPath_sub _ _ _ _ h1)
  cases r with
  | none => cases h; intro x p hx; simp at hx
  | some L =>
    simp only at h
    split at h
    · cases h; exact Sub.take _ _
    · cases h; exact Sub.refl _

theorem treeRemove_holds {h : Heap} {t : RTree} {d : Nat} (hd : d ≤ 31) {s : Ratchet ParentNode d} (hh : Holds h t s)
    {li : Nat} (hli : li < 2 ^ d) :
    ∃ t', treeRemove t li = .ok t' ∧ HoldsOpt h t' (s.remove li) := by
  obtain ⟨s0, rfl, rfl⟩ := lift_flat h hh.flat
  have hr := treeRemove_spec (ml := TNode.leaf) (mp := TNode.parent) hd s0 hli
  refine ⟨_, hr, ?_⟩
  have hs := treeRemove_sub hr
  have he : (s0.map (h.getD · default)).remove li = (s0.remove li).map fun a => ⟨a.1, a.2.map (h.getD · default)⟩ := by
    unfold Ratchet.remove
    rw [← map_alongPath, map_shrink]
  rw [he]
  cases hq : s0.remove li with
  | none => rfl
  | some a =>
    rw [hq] at hs
    exact ⟨hh.owned.sub hs, flat_map h a.2⟩

end Mls
