import Verif.Spec.TreeRead
import Verif.Proofs.TreeShape
import Verif.Proofs.Private
import Verif.Proofs.Rfc
/-
The readers of ratchet trees follow the recursive specification of Verif/Spec/TreeRead.lean.
-/
namespace Mls

open Spec (Ratchet ITree)

/-- A tree inside an array of nodes. -/
abbrev VAt (t : VTree) {k : Nat} (j : Nat) (s : Ratchet ParentNode k) : Prop := At Node.leaf Node.parent t j s

theorem exists_vflat (d : Nat) (t : VTree) (off : Nat) (hoff : off % 2 = 0) (hl : t.length = 2 ^ (d + 1) - 1)
    (h1 : ∀ {x : Nat} {l : LeafNode}, t[x]? = some (some (.leaf l)) → (off + x) % 2 = 0)
    (h2 : ∀ {x : Nat} {p : ParentNode}, t[x]? = some (some (.parent p)) → (off + x) % 2 = 1) :
    ∃ s : Ratchet ParentNode d, t = s.flat .leaf .parent := by
  induction d generalizing t off with
  | zero =>
    match t, hl with
    | [o], _ =>
      match o with
      | none => exact ⟨.leaf none, rfl⟩
      | some (.leaf l) => exact ⟨.leaf (some l), rfl⟩
      | some (.parent p) =>
        have := h2 (x := 0) (p := p) rfl
        omega
  | succ d ih =>
    have hp : 0 < 2 ^ d := Nat.two_pow_pos d
    have e1 : 2 ^ (d + 1) = 2 * 2 ^ d := by rw [Nat.pow_succ]; omega
    have e2 : 2 ^ (d + 1 + 1) = 4 * 2 ^ d := by rw [Nat.pow_succ, Nat.pow_succ]; omega
    obtain ⟨l, hl1⟩ := ih (t.take (2 ^ (d + 1) - 1)) off hoff (by rw [List.length_take]; omega)
      (fun {x l} hx => h1 (by
        rw [List.getElem?_take] at hx
        split at hx
        · exact hx
        · cases hx))
      (fun {x l} hx => h2 (by
        rw [List.getElem?_take] at hx
        split at hx
        · exact hx
        · cases hx))
    obtain ⟨r, hr1⟩ := ih (t.drop (2 ^ (d + 1))) (off + 2 ^ (d + 1)) (by omega) (by rw [List.length_drop]; omega)
      (fun {x l} hx => by
        rw [List.getElem?_drop] at hx
        have := h1 hx
        omega)
      (fun {x l} hx => by
        rw [List.getElem?_drop] at hx
        have := h2 hx
        omega)
    have hmid : 2 ^ (d + 1) - 1 < t.length := by omega
    have hsplit : t = t.take (2 ^ (d + 1) - 1) ++ t[2 ^ (d + 1) - 1] :: t.drop (2 ^ (d + 1)) := by
      conv => lhs; rw [← List.take_append_drop (2 ^ (d + 1) - 1) t]
      rw [List.drop_eq_getElem_cons hmid]
      congr 3
      omega
    have hget : t[2 ^ (d + 1) - 1]? = some t[2 ^ (d + 1) - 1] := List.getElem?_eq_getElem hmid
    generalize t[2 ^ (d + 1) - 1] = o at hsplit hget
    rw [hl1, hr1] at hsplit
    match o, hsplit, hget with
    | none, hsplit, _ => exact ⟨.node none l r, hsplit⟩
    | some (.parent p), hsplit, _ => exact ⟨.node (some p) l r, hsplit⟩
    | some (.leaf l), _, hget =>
      have := h1 hget
      omega

/-- Reading a node of a flattened tree. -/
theorem at_root {N P : Type} {ml : LeafNode → N} {mp : P → N} {t : List (Option N)} {k j : Nat} {s : Ratchet P k}
    (h : At ml mp t j s) : idx k j < t.length := by
  cases s with
  | leaf n => exact (List.getElem?_eq_some_iff.1 h).1
  | node p l r => exact (List.getElem?_eq_some_iff.1 h.1).1


theorem at_pos_leaf {t : VTree} {k j : Nat} {s : Ratchet ParentNode k} (h : VAt t j s) {m y : Nat}
    (hb : Below k j (m + 1) y) (l : LeafNode) : t[idx (m + 1) y]? ≠ some (some (.leaf l)) := by
  induction s generalizing j with
  | leaf n => exact absurd hb.1 (by omega)
  | @node k p a b iha ihb =>
    rcases hb.cases with ⟨h1, rfl⟩ | hb | hb
    · obtain rfl : m = k := by omega
      rw [h.1]
      cases p <;> simp
    · exact iha h.2.1 hb
    · exact ihb h.2.2 hb

theorem at_pos_parent {t : VTree} {k j : Nat} {s : Ratchet ParentNode k} (h : VAt t j s) {y : Nat}
    (hb : Below k j 0 y) (p : ParentNode) : t[idx 0 y]? ≠ some (some (.parent p)) := by
  induction s generalizing j with
  | leaf n =>
    obtain ⟨_, h2⟩ := hb
    simp at h2
    subst h2
    unfold VAt at h
    rw [At] at h
    rw [h]
    cases n <;> simp
  | @node k q a b iha ihb =>
    rcases hb.cases with ⟨h1, rfl⟩ | hb | hb
    · omega
    · exact iha h.2.1 hb
    · exact ihb h.2.2 hb

theorem isTree_iff {t : VTree} :
    Spec.IsTree t ↔ ∃ d, d ≤ 31 ∧ ∃ s : Ratchet ParentNode d, t = s.flat .leaf .parent := by
  constructor
  · rintro ⟨⟨d, hd, hl⟩, h1, h2⟩
    obtain ⟨s, hs⟩ := exists_vflat d t 0 rfl hl (fun hx => by simpa using h1 _ _ hx) (fun hx => by simpa using h2 _ _ hx)
    exact ⟨d, hd, s, hs⟩
  · rintro ⟨d, hd, s, rfl⟩
    have hlen := flat_length Node.leaf Node.parent s
    refine ⟨⟨d, hd, hlen⟩, fun x l hx => ?_, fun x p hx => ?_⟩
    · have hlt : x < 2 ^ (d + 1) - 1 := hlen ▸ (List.getElem?_eq_some_iff.1 hx).1
      obtain ⟨m, y, hb, rfl⟩ := exists_below hlt
      cases m with
      | zero => rw [idx_zero]; omega
      | succ m => exact absurd hx (at_pos_leaf (at_flat _ _ s) hb l)
    · have hlt : x < 2 ^ (d + 1) - 1 := hlen ▸ (List.getElem?_eq_some_iff.1 hx).1
      obtain ⟨m, y, hb, rfl⟩ := exists_below hlt
      cases m with
      | zero => exact absurd hx (at_pos_parent (at_flat _ _ s) hb p)
      | succ m => exact idx_succ_odd m y

/-- Every node of a tree is the top of a subtree. -/
theorem at_sub {N P : Type} {ml : LeafNode → N} {mp : P → N} {t : List (Option N)} {k j : Nat} {s : Ratchet P k}
    (h : At ml mp t j s) {m y : Nat} (hb : Below k j m y) : ∃ s' : Ratchet P m, At ml mp t y s' := by
  induction s generalizing j with
  | leaf n =>
    obtain ⟨h1, h2⟩ := hb
    obtain rfl : m = 0 := by omega
    simp at h2
    subst h2
    exact ⟨.leaf n, h⟩
  | @node k p a b iha ihb =>
    rcases hb.cases with ⟨rfl, rfl⟩ | hb | hb
    · exact ⟨.node p a b, h⟩
    · exact iha h.2.1 hb
    · exact ihb h.2.2 hb

/-! ### Resolution -/

theorem nodeOfLeaf_number (u : UInt32) : nodeOfLeaf u.toNat = Spec.leafNumber u := rfl

theorem off_succ_left (k j : Nat) : 2 * j * 2 ^ (k + 1) = j * 2 ^ (k + 1 + 1) := by
  rw [Nat.pow_succ 2 (k + 1)]; ring

theorem off_succ_right (k j : Nat) : (2 * j + 1) * 2 ^ (k + 1) = j * 2 ^ (k + 1 + 1) + 2 ^ (k + 1) := by
  rw [Nat.pow_succ 2 (k + 1)]; ring

theorem idx_off (k j : Nat) : idx k j = j * 2 ^ (k + 1) + 2 ^ k - 1 := by
  have : 0 < 2 ^ k := Nat.two_pow_pos k
  unfold idx
  omega

theorem idx_child_left_lt {k j : Nat} : idx k (2 * j) < idx (k + 1) j := by
  unfold idx
  have : 0 < 2 ^ k := Nat.two_pow_pos k
  have e := off_succ_left k j
  have : 2 ^ (k + 1) = 2 * 2 ^ k := by rw [Nat.pow_succ]; omega
  omega

theorem resolveLoop_spec {t : VTree} (hlen : t.length < 2 ^ 32) {fuel k j : Nat} {s : Ratchet ParentNode k}
    (h : VAt t j s) (hk : k ≤ 31) (hf : k < fuel) :
    resolveLoop t fuel (idx k j) = .ok (s.resolution (j * 2 ^ (k + 1))) := by
  induction s generalizing fuel j with
  | leaf n =>
    obtain ⟨fuel, rfl⟩ : ∃ f, fuel = f + 1 := ⟨fuel - 1, by omega⟩
    unfold VAt at h
    rw [At] at h
    rw [resolveLoop, (Res.idx_ok_iff.2 h : Res.idx t (idx 0 j) = .ok _)]
    simp only [Res.ok_bind]
    cases n with
    | none => simp only [Option.map_none]; rw [children_idx_zero]; rfl
    | some l => simp only [Option.map_some, Ratchet.resolution, Res.pure_eq]; simp [idx]
  | @node k p l r ihl ihr =>
    obtain ⟨fuel, rfl⟩ : ∃ f, fuel = f + 1 := ⟨fuel - 1, by omega⟩
    have hlt := at_root h
    rw [resolveLoop, (Res.idx_ok_iff.2 h.1 : Res.idx t (idx (k + 1) j) = .ok _)]
    simp only [Res.ok_bind]
    cases p with
    | none =>
      simp only [Option.map_none]
      rw [children_idx_succ (by omega) (by omega)]
      dsimp only
      rw [ihl h.2.1 (by omega) (by omega), ihr h.2.2 (by omega) (by omega)]
      simp only [Res.ok_bind, Ratchet.resolution, off_succ_left, off_succ_right, Res.pure_eq]
    | some q =>
      simp only [Option.map_some, Ratchet.resolution, Res.pure_eq, idx_off]
      rfl

/-- The resolution of every node of a tree. -/
theorem resolve_spec {t : VTree} (hlen : t.length < 2 ^ 32) {k j : Nat} {s : Ratchet ParentNode k}
    (h : VAt t j s) (hk : k ≤ 31) : resolve t (idx k j) = .ok (s.resolution (j * 2 ^ (k + 1))) :=
  resolveLoop_spec hlen h hk (by omega)

theorem resolution_nil {d : Nat} (s : Ratchet ParentNode d) (off : Nat) : s.resolution off = [] ↔ s.Bare := by
  induction s generalizing off with
  | leaf n => cases n <;> simp [Ratchet.resolution, Ratchet.Bare]
  | node p l r ihl ihr => cases p <;> simp [Ratchet.resolution, Ratchet.Bare, ihl, ihr]

/-! ### Tree hashes -/

theorem leafBytes_some {n : LeafNode} {b : Bytes} : (Spec.Rfc.leafNode n).bytes = some b ↔ n.enc = .ok b := by
  rw [← leafNode_val, Enc.val_ok_iff]

theorem parentBytes_some {n : ParentNode} {b : Bytes} : (Spec.Rfc.parentNode n).bytes = some b ↔ n.enc = .ok b := by
  rw [← parentNode_val, Enc.val_ok_iff]

theorem leafInput_iff {i : Nat} (hi : i < 2 ^ 32) {n : Option LeafNode} {x : Bytes} :
    encLeafNodeHashInput i n = .ok x ↔ Ratchet.leafInput i n = some x := by
  have hu : (UInt32.ofNat i).toNat = i := by
    rw [UInt32.toNat_ofNat']; exact Nat.mod_eq_of_lt hi
  unfold encLeafNodeHashInput Ratchet.leafInput
  rw [addU8_eq, addU32, hu, beBytes4]
  cases n with
  | none =>
    simp only [writeOptional, addU8_eq, Enc.append_ok_iff, Res.ok.injEq, Option.some.injEq]
    constructor
    · rintro ⟨_, _, ⟨_, _, rfl, rfl, rfl⟩, rfl, rfl⟩; rfl
    · rintro rfl; exact ⟨_, _, ⟨_, _, rfl, rfl, rfl⟩, rfl, rfl⟩
  | some n =>
    simp only [writeOptional, addU8_eq, Enc.append_ok_iff, Res.ok.injEq, Option.map_eq_some_iff, leafBytes_some]
    constructor
    · rintro ⟨_, _, ⟨_, _, rfl, rfl, rfl⟩, ⟨_, b, rfl, hb, rfl⟩, rfl⟩
      exact ⟨b, hb, by simp [Spec.be4]⟩
    · rintro ⟨b, hb, rfl⟩
      exact ⟨_, _, ⟨_, _, rfl, rfl, rfl⟩, ⟨_, b, rfl, hb, rfl⟩, by simp [Spec.be4]⟩

theorem parentInput_iff {p : Option ParentNode} {lh rh x : Bytes} (hl : lh.length < 2 ^ 30) (hr : rh.length < 2 ^ 30) :
    encParentNodeHashInput p lh rh = .ok x ↔ Ratchet.parentInput p lh rh = some x := by
  unfold encParentNodeHashInput Ratchet.parentInput
  rw [addU8_eq, writeOpaqueVec_vec hl, writeOpaqueVec_vec hr]
  cases p with
  | none =>
    simp only [writeOptional, addU8_eq, Enc.append_ok_iff, Res.ok.injEq, Option.some.injEq]
    constructor
    · rintro ⟨_, _, ⟨_, _, ⟨_, _, rfl, rfl, rfl⟩, rfl, rfl⟩, rfl, rfl⟩; rfl
    · rintro rfl; exact ⟨_, _, ⟨_, _, ⟨_, _, rfl, rfl, rfl⟩, rfl, rfl⟩, rfl, rfl⟩
  | some n =>
    simp only [writeOptional, addU8_eq, Enc.append_ok_iff, Res.ok.injEq, Option.map_eq_some_iff, parentBytes_some]
    constructor
    · rintro ⟨_, _, ⟨_, _, ⟨_, _, rfl, ⟨_, b, rfl, hb, rfl⟩, rfl⟩, rfl, rfl⟩, rfl, rfl⟩
      exact ⟨b, hb, by simp⟩
    · rintro ⟨b, hb, rfl⟩
      exact ⟨_, _, ⟨_, _, ⟨_, _, rfl, ⟨_, b, rfl, hb, rfl⟩, rfl⟩, rfl, rfl⟩, rfl, by simp⟩

theorem leafOfNode_idx_zero (j : Nat) : leafOfNode (idx 0 j) = some j := by
  unfold leafOfNode isLeaf
  rw [idx_zero, if_pos (by simp), Nat.mul_div_cancel_left _ (by decide)]

theorem leafOfNode_idx_succ (k j : Nat) : leafOfNode (idx (k + 1) j) = none := by
  unfold leafOfNode isLeaf
  rw [if_neg]
  have := idx_succ_odd k j
  simp [this]

theorem hashedLeaf_spec (n : Option LeafNode) (ex : List UInt32) (u : UInt32) :
    hashedLeaf (n.map Node.leaf) (ex.contains u) = .ok (if u ∈ ex then none else n) := by
  cases n <;> by_cases h : u ∈ ex <;> simp [hashedLeaf, h]

theorem hashedParent_spec (p : Option ParentNode) (ex : List UInt32) :
    hashedParent (p.map Node.parent) ex =
      .ok (p.map fun p => { p with unmergedLeaves := p.unmergedLeaves.filter fun u => u ∉ ex }) := by
  cases p with
  | none => rfl
  | some p =>
    unfold hashedParent
    simp only [Option.map_some]
    split
    · simp
    · next h =>
      have : p.unmergedLeaves.filter (fun u => decide (u ∉ ex)) = p.unmergedLeaves := by
        rw [List.filter_eq_self]
        intro a ha
        have h1 : p.unmergedLeaves.length > 0 := List.length_pos_of_mem ha
        have h2 : ex.length = 0 := by
          rcases Nat.eq_zero_or_pos ex.length with h2 | h2
          · exact h2
          · exact absurd ⟨h1, h2⟩ h
        rw [List.length_eq_zero_iff] at h2
        simp [h2]
      rw [this]

theorem treeHash_length {H : Bytes → Bytes} {n : Nat} (hH : ∀ m, (H m).length = n) {d : Nat}
    {s : Ratchet ParentNode d} {i : Nat} {x : Bytes} (h : s.treeHash H i = some x) : x.length = n := by
  cases s with
  | leaf n =>
    simp only [Ratchet.treeHash, Option.map_eq_some_iff] at h
    obtain ⟨_, _, rfl⟩ := h
    exact hH _
  | node p l r =>
    simp only [Ratchet.treeHash, Option.bind_eq_bind, Option.bind_eq_some_iff] at h
    obtain ⟨_, _, _, _, _, _, h⟩ := h
    cases h
    exact hH _

theorem hash_size_lt (a : HashAlg) : a.size < 2 ^ 30 := by cases a <;> decide

theorem computeTreeHashLoop_iff {pr : Prims} (hc : pr.Correct) {cs : UInt16} {d : SuiteDesc} (hd : suite cs = .ok d)
    {t : VTree} (hlen : t.length < 2 ^ 32) (ex : List UInt32) {fuel k j : Nat} {s : Ratchet ParentNode k}
    (h : VAt t j s) (hk : k ≤ 31) (hf : k < fuel) (x : Bytes) :
    computeTreeHashLoop pr cs t ex fuel (idx k j) = .ok x ↔
      (s.without ex (j * 2 ^ k)).treeHash (pr.hash d.hash) (j * 2 ^ k) = some x := by
  induction s generalizing fuel j x with
  | leaf n =>
    obtain ⟨fuel, rfl⟩ : ∃ f, fuel = f + 1 := ⟨fuel - 1, by omega⟩
    have hlt := at_root h
    rw [idx_zero] at hlt
    unfold VAt at h
    rw [At] at h
    rw [computeTreeHashLoop, (Res.idx_ok_iff.2 h : Res.idx t (idx 0 j) = .ok _)]
    simp only [Res.ok_bind, leafOfNode_idx_zero, hashedLeaf_spec, hd, Res.bind_ok_iff, Res.pure_eq, Res.ok.injEq,
      Ratchet.without, Ratchet.treeHash, Option.map_eq_some_iff, Nat.pow_zero, Nat.mul_one]
    constructor
    · rintro ⟨a, h1, h2⟩
      exact ⟨a, (leafInput_iff (by omega)).1 h1, h2⟩
    · rintro ⟨a, h1, h2⟩
      exact ⟨a, (leafInput_iff (by omega)).2 h1, h2⟩
  | @node k p l r ihl ihr =>
    obtain ⟨fuel, rfl⟩ : ∃ f, fuel = f + 1 := ⟨fuel - 1, by omega⟩
    have hlt := at_root h
    have e1 : 2 * j * 2 ^ k = j * 2 ^ (k + 1) := by rw [Nat.pow_succ]; ring
    have e2 : (2 * j + 1) * 2 ^ k = j * 2 ^ (k + 1) + 2 ^ k := by rw [Nat.pow_succ]; ring
    have hL := fun x => ihl (j := 2 * j) (fuel := fuel) h.2.1 (by omega) (by omega) x
    have hR := fun x => ihr (j := 2 * j + 1) (fuel := fuel) h.2.2 (by omega) (by omega) x
    rw [e1] at hL
    rw [e2] at hR
    have hlenH : ∀ m, (pr.hash d.hash m).length = d.hash.size := hc.hash_length _
    have hsz := hash_size_lt d.hash
    rw [computeTreeHashLoop, (Res.idx_ok_iff.2 h.1 : Res.idx t (idx (k + 1) j) = .ok _)]
    simp only [Res.ok_bind, leafOfNode_idx_succ]
    rw [children_idx_succ (by omega) (by omega)]
    simp only [hashedParent_spec, Res.ok_bind, hd, Res.bind_ok_iff, Res.pure_eq, Res.ok.injEq, hL, hR,
      Ratchet.without, Ratchet.treeHash, Option.bind_eq_bind, Option.bind_eq_some_iff, Option.pure_def,
      Option.some.injEq]
    constructor
    · rintro ⟨a, ⟨lh, h1, rh, h2, h3⟩, h4⟩
      have hl1 := treeHash_length hlenH h1
      have hl2 := treeHash_length hlenH h2
      exact ⟨lh, h1, rh, h2, a, (parentInput_iff (by omega) (by omega)).1 h3, h4⟩
    · rintro ⟨lh, h1, rh, h2, a, h3, h4⟩
      have hl1 := treeHash_length hlenH h1
      have hl2 := treeHash_length hlenH h2
      exact ⟨a, ⟨lh, h1, rh, h2, (parentInput_iff (by omega) (by omega)).2 h3⟩, h4⟩

theorem computeTreeHash_iff {pr : Prims} (hc : pr.Correct) {cs : UInt16} {d : SuiteDesc} (hd : suite cs = .ok d)
    {t : VTree} (hlen : t.length < 2 ^ 32) (ex : List UInt32) {k j : Nat} {s : Ratchet ParentNode k}
    (h : VAt t j s) (hk : k ≤ 31) (x : Bytes) :
    computeTreeHash pr cs t (idx k j) ex = .ok x ↔
      (s.without ex (j * 2 ^ k)).treeHash (pr.hash d.hash) (j * 2 ^ k) = some x :=
  computeTreeHashLoop_iff hc hd hlen ex h hk (by omega) x

theorem without_nil {d : Nat} (s : Ratchet ParentNode d) (i : Nat) : s.without [] i = s := by
  induction s generalizing i with
  | leaf n => simp [Ratchet.without]
  | node p l r ihl ihr =>
    cases p with
    | none => simp [Ratchet.without, ihl, ihr]
    | some p =>
      have : p.unmergedLeaves.filter (fun u => decide (u ∉ ([] : List UInt32))) = p.unmergedLeaves := by
        rw [List.filter_eq_self]; simp
      simp only [Ratchet.without, ihl, ihr, Option.map_some, this]

theorem pow_tree_lt {d : Nat} (hd : d ≤ 31) : 2 ^ (d + 1) - 1 < 2 ^ 32 := by
  have h : 2 ^ (d + 1) ≤ 2 ^ 32 := Nat.pow_le_pow_right (by decide) (by omega)
  have : 0 < 2 ^ (d + 1) := Nat.two_pow_pos _
  omega

theorem vflat_lt {d : Nat} (hd : d ≤ 31) (s : Ratchet ParentNode d) :
    (s.flat Node.leaf Node.parent).length < 2 ^ 32 := by
  rw [flat_length]; exact pow_tree_lt hd

theorem vflat_numLeaves {d : Nat} (hd : d ≤ 31) (s : Ratchet ParentNode d) :
    treeNumLeaves (s.flat Node.leaf Node.parent) = 2 ^ d := numLeaves_pow hd (flat_length _ _ _)

theorem computeRootTreeHash_iff {pr : Prims} (hc : pr.Correct) {cs : UInt16} {d : SuiteDesc} (hd : suite cs = .ok d)
    {k : Nat} (hk : k ≤ 31) (s : Ratchet ParentNode k) (x : Bytes) :
    computeRootTreeHash pr cs (s.flat .leaf .parent) = .ok x ↔ s.treeHash (pr.hash d.hash) 0 = some x := by
  unfold computeRootTreeHash
  rw [vflat_numLeaves hk, root_idx hk, computeTreeHash_iff hc hd (vflat_lt hk s) [] (at_flat _ _ s) hk x,
    without_nil]
  simp

/-! Tree hashes determine the tree. -/

theorem be4_length (i : Nat) : (Spec.be4 i).length = 4 := rfl

theorem leafInput_inj {i i' : Nat} {n n' : Option LeafNode} {x : Bytes} (h : Ratchet.leafInput i n = some x)
    (h' : Ratchet.leafInput i' n' = some x) : n = n' := by
  cases n with
  | none =>
    simp only [Ratchet.leafInput, Option.some.injEq] at h
    subst h
    cases n' with
    | none => rfl
    | some n' =>
      simp only [Ratchet.leafInput, Option.map_eq_some_iff] at h'
      obtain ⟨b, _, hb⟩ := h'
      simp [Spec.be4] at hb
  | some n =>
    simp only [Ratchet.leafInput, Option.map_eq_some_iff, leafBytes_some] at h
    obtain ⟨b, hb, rfl⟩ := h
    cases n' with
    | none =>
      simp [Ratchet.leafInput, Spec.be4] at h'
    | some n' =>
      simp only [Ratchet.leafInput, Option.map_eq_some_iff, leafBytes_some] at h'
      obtain ⟨b', hb', he⟩ := h'
      have hbb : b' = b := by
        have := congrArg (List.drop 6) he
        simpa [Spec.be4] using this
      subst hbb
      have e1 := leafNode_rt n b' [] hb trivial
      have e2 := leafNode_rt n' b' [] hb' trivial
      rw [e1] at e2
      cases e2
      rfl

theorem vec_rt (b rest : Bytes) (h : b.length < 2 ^ 30) : readOpaqueVec.run (Spec.vec b ++ rest) = (.ok b, rest) :=
  opaque_rt b _ rest (writeOpaqueVec_vec h) trivial

theorem vec_vec_inj {a b a' b' : Bytes} (ha : a.length < 2 ^ 30) (hb : b.length < 2 ^ 30) (ha' : a'.length < 2 ^ 30)
    (hb' : b'.length < 2 ^ 30) (h : Spec.vec a ++ Spec.vec b = Spec.vec a' ++ Spec.vec b') : a = a' ∧ b = b' := by
  have e1 := vec_rt a (Spec.vec b) ha
  have e2 := vec_rt a' (Spec.vec b') ha'
  rw [h, e2] at e1
  simp only [Prod.mk.injEq, Res.ok.injEq] at e1
  obtain ⟨rfl, he⟩ := e1
  have e3 := vec_rt b [] hb
  have e4 := vec_rt b' [] hb'
  rw [he, e3] at e4
  simp only [Prod.mk.injEq, Res.ok.injEq] at e4
  exact ⟨rfl, e4.1⟩

theorem parentInput_inj {p p' : Option ParentNode} {l r l' r' x : Bytes} (hl : l.length < 2 ^ 30)
    (hr : r.length < 2 ^ 30) (hl' : l'.length < 2 ^ 30) (hr' : r'.length < 2 ^ 30)
    (h : Ratchet.parentInput p l r = some x) (h' : Ratchet.parentInput p' l' r' = some x) :
    p = p' ∧ l = l' ∧ r = r' := by
  cases p with
  | none =>
    simp only [Ratchet.parentInput, Option.some.injEq] at h
    subst h
    cases p' with
    | none =>
      simp only [Ratchet.parentInput, Option.some.injEq, List.append_assoc, List.append_cancel_left_eq] at h'
      obtain ⟨rfl, rfl⟩ := vec_vec_inj hl' hr' hl hr h'
      exact ⟨rfl, rfl, rfl⟩
    | some n' =>
      simp only [Ratchet.parentInput, Option.map_eq_some_iff] at h'
      obtain ⟨b, _, hb⟩ := h'
      simp at hb
  | some n =>
    simp only [Ratchet.parentInput, Option.map_eq_some_iff, parentBytes_some] at h
    obtain ⟨b, hb, rfl⟩ := h
    cases p' with
    | none => simp [Ratchet.parentInput] at h'
    | some n' =>
      simp only [Ratchet.parentInput, Option.map_eq_some_iff, parentBytes_some] at h'
      obtain ⟨b', hb', he⟩ := h'
      simp only [List.append_assoc, List.append_cancel_left_eq] at he
      have e1 := parentNode_rt n b (Spec.vec l ++ Spec.vec r) hb trivial
      have e2 := parentNode_rt n' b' (Spec.vec l' ++ Spec.vec r') hb' trivial
      rw [he, e1] at e2
      simp only [Prod.mk.injEq, Res.ok.injEq] at e2
      obtain ⟨rfl, he2⟩ := e2
      obtain ⟨rfl, rfl⟩ := vec_vec_inj hl hr hl' hr' he2
      exact ⟨rfl, rfl, rfl⟩

theorem leafInput_parentInput {i : Nat} {n : Option LeafNode} {p : Option ParentNode} {l r x : Bytes}
    (h : Ratchet.leafInput i n = some x) (h' : Ratchet.parentInput p l r = some x) : False := by
  have a1 : x.head? = some 1 := by
    cases n with
    | none => simp only [Ratchet.leafInput, Option.some.injEq] at h; subst h; rfl
    | some n =>
      simp only [Ratchet.leafInput, Option.map_eq_some_iff] at h
      obtain ⟨_, _, rfl⟩ := h
      rfl
  have a2 : x.head? = some 2 := by
    cases p with
    | none => simp only [Ratchet.parentInput, Option.some.injEq] at h'; subst h'; rfl
    | some n =>
      simp only [Ratchet.parentInput, Option.map_eq_some_iff] at h'
      obtain ⟨_, _, rfl⟩ := h'
      rfl
  rw [a1] at a2
  simp at a2

/-- Two members of two lists with the same hash. -/
def Collides (H : Bytes → Bytes) (as bs : List Bytes) : Prop := ∃ a ∈ as, ∃ b ∈ bs, a ≠ b ∧ H a = H b

theorem Collides.mono {H : Bytes → Bytes} {as bs as' bs' : List Bytes} (h : Collides H as bs)
    (h1 : ∀ a ∈ as, a ∈ as') (h2 : ∀ b ∈ bs, b ∈ bs') : Collides H as' bs' := by
  obtain ⟨a, ha, b, hb, h⟩ := h
  exact ⟨a, h1 a ha, b, h2 b hb, h⟩

theorem treeHash_binding {H : Bytes → Bytes} {n : Nat} (hH : ∀ m, (H m).length = n) (hn : n < 2 ^ 30)
    {d d' : Nat} (s : Ratchet ParentNode d) (s' : Ratchet ParentNode d') (i i' : Nat) {x : Bytes}
    (h : s.treeHash H i = some x) (h' : s'.treeHash H i' = some x) :
    (⟨d, s⟩ : Ratchet.Any ParentNode) = ⟨d', s'⟩ ∨ Collides H (s.hashed H i) (s'.hashed H i') := by
  induction s generalizing d' s' i i' x with
  | leaf m =>
    simp only [Ratchet.treeHash, Option.map_eq_some_iff] at h
    obtain ⟨a, ha, rfl⟩ := h
    cases s' with
    | leaf m' =>
      simp only [Ratchet.treeHash, Option.map_eq_some_iff] at h'
      obtain ⟨b, hb, he⟩ := h'
      by_cases hab : a = b
      · subst hab
        rw [leafInput_inj ha hb]
        exact .inl rfl
      · exact .inr ⟨a, by simp [Ratchet.hashed, ha], b, by simp [Ratchet.hashed, hb], hab, he.symm⟩
    | node p l r =>
      simp only [Ratchet.treeHash, Option.bind_eq_bind, Option.bind_eq_some_iff, Option.pure_def,
        Option.some.injEq] at h'
      obtain ⟨lh, hl, rh, hr, b, hb, he⟩ := h'
      refine .inr ⟨a, by simp [Ratchet.hashed, ha], b, ?_, ?_, he.symm⟩
      · simp [Ratchet.hashed, hl, hr, hb]
      · rintro rfl
        exact leafInput_parentInput ha hb
  | @node d p l r ihl ihr =>
    simp only [Ratchet.treeHash, Option.bind_eq_bind, Option.bind_eq_some_iff, Option.pure_def,
      Option.some.injEq] at h
    obtain ⟨lh, hl, rh, hr, a, ha, rfl⟩ := h
    have hain : a ∈ (Ratchet.node p l r).hashed H i := by simp [Ratchet.hashed, hl, hr, ha]
    cases s' with
    | leaf m' =>
      simp only [Ratchet.treeHash, Option.map_eq_some_iff] at h'
      obtain ⟨b, hb, he⟩ := h'
      refine .inr ⟨a, hain, b, by simp [Ratchet.hashed, hb], ?_, he.symm⟩
      rintro rfl
      exact leafInput_parentInput hb ha
    | @node d' p' l' r' =>
      simp only [Ratchet.treeHash, Option.bind_eq_bind, Option.bind_eq_some_iff, Option.pure_def,
        Option.some.injEq] at h'
      obtain ⟨lh', hl', rh', hr', b, hb, he⟩ := h'
      have hbin : b ∈ (Ratchet.node p' l' r').hashed H i' := by simp [Ratchet.hashed, hl', hr', hb]
      by_cases hab : a = b
      · subst hab
        have z1 := treeHash_length hH hl
        have z2 := treeHash_length hH hr
        have z3 := treeHash_length hH hl'
        have z4 := treeHash_length hH hr'
        obtain ⟨rfl, rfl, rfl⟩ := parentInput_inj (by omega) (by omega) (by omega) (by omega) ha hb
        rcases ihl l' i i' hl hl' with e | hcol
        · cases e
          rcases ihr r' _ _ hr hr' with e | hcol
          · cases e
            exact .inl rfl
          · exact .inr (hcol.mono (fun a ha => by simp [Ratchet.hashed, ha]) (fun a ha => by simp [Ratchet.hashed, ha]))
        · exact .inr (hcol.mono (fun a ha => by simp [Ratchet.hashed, ha]) (fun a ha => by simp [Ratchet.hashed, ha]))
      · exact .inr ⟨a, hain, b, hbin, hab, he.symm⟩

end Mls
