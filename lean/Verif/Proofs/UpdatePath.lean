import Verif.Spec.UpdatePath
import Verif.Proofs.Integrity
import Verif.Proofs.TreeHeap
/-
mergeUpdatePath against Verif/Spec/UpdatePath.lean.
-/
namespace Mls

open Spec (Ratchet ITree nodeAt)

/-- The child on the path of leaf `i`. -/
theorem path_split {k j i : Nat} (hi : i / 2 ^ (k + 1) = j) :
    (i / 2 ^ k = 2 * j ∧ i - j * 2 ^ (k + 1) < 2 ^ k ∧ i - j * 2 ^ (k + 1) = i - 2 * j * 2 ^ k) ∨
    (i / 2 ^ k = 2 * j + 1 ∧ ¬ i - j * 2 ^ (k + 1) < 2 ^ k ∧
      i - j * 2 ^ (k + 1) - 2 ^ k = i - (2 * j + 1) * 2 ^ k) := by
  have hp : 0 < 2 ^ k := Nat.two_pow_pos _
  have hdm := Nat.div_add_mod i (2 ^ (k + 1))
  have hml := Nat.mod_lt i (Nat.two_pow_pos (k + 1))
  rw [hi] at hdm
  have hpk : 2 ^ (k + 1) = 2 * 2 ^ k := by rw [Nat.pow_succ]; omega
  have hmul : 2 ^ (k + 1) * j = 2 * j * 2 ^ k := by rw [hpk]; ring
  have hmul' : j * 2 ^ (k + 1) = 2 * j * 2 ^ k := by rw [hpk]; ring
  have hmul2 : (2 * j + 1) * 2 ^ k = 2 * j * 2 ^ k + 2 ^ k := by ring
  rcases Nat.lt_or_ge (i - j * 2 ^ (k + 1)) (2 ^ k) with hlt | hge
  · left
    refine ⟨?_, hlt, by omega⟩
    apply Nat.div_eq_of_lt_le
    · omega
    · rw [Nat.succ_mul]; omega
  · right
    refine ⟨?_, by omega, by omega⟩
    apply Nat.div_eq_of_lt_le
    · omega
    · rw [Nat.succ_mul]; omega

theorem mem_path {d i x : Nat} : x ∈ upPath d 0 i ↔ ∃ m, 0 < m ∧ m ≤ d ∧ x = idx m (i / 2 ^ m) := by
  rw [mem_upPath]
  constructor
  · rintro ⟨e, he, rfl⟩
    exact ⟨e + 1, by omega, by omega, by rw [Nat.zero_add]⟩
  · rintro ⟨m, h0, hm, rfl⟩
    obtain ⟨e, rfl⟩ : ∃ e, m = e + 1 := ⟨m - 1, by omega⟩
    exact ⟨e, by omega, by rw [Nat.zero_add]⟩

/-- Nodes below a node off the path are off the path. -/
theorem off_path {d i k b m y : Nat} (hb : i / 2 ^ k ≠ b) (h : Below k b m y) :
    idx m y ∉ upPath d 0 i ∧ idx m y ≠ idx 0 i := by
  have key : ∀ m', idx m y ≠ idx m' (i / 2 ^ m') := by
    intro m' he
    obtain ⟨rfl, rfl⟩ := idx_inj he
    apply hb
    rw [← h.2, Nat.div_div_eq_div_mul, ← Nat.pow_add]
    congr 2
    have := h.1
    omega
  refine ⟨fun hm => ?_, fun he => key 0 (by simpa using he)⟩
  obtain ⟨m', _, _, he⟩ := mem_path.1 hm
  exact key m' he

/-- Nodes of the path within a subtree. -/
theorem mem_filteredPath {k : Nat} {s : Ratchet ParentNode k} {i j x : Nat} (hi : i / 2 ^ k = j)
    (hx : x ∈ s.filteredPath (j * 2 ^ (k + 1)) (i - j * 2 ^ k)) : x ∈ upPath k 0 i := by
  induction s generalizing j with
  | leaf n => simp [Ratchet.filteredPath] at hx
  | @node k p l r ihl ihr =>
    have hroot : ∀ x, x ∈ (if (r.resolution (j * 2 ^ (k + 2) + 2 ^ (k + 1)) = []) then []
        else [j * 2 ^ (k + 2) + 2 ^ (k + 1) - 1]) ∨ x ∈ (if l.resolution (j * 2 ^ (k + 2)) = [] then []
        else [j * 2 ^ (k + 2) + 2 ^ (k + 1) - 1]) → x ∈ upPath (k + 1) 0 i := by
      intro x hx
      have : x = idx (k + 1) j := by
        rw [idx_off]
        rcases hx with hx | hx <;> split at hx <;> simp_all
      rw [mem_path]
      exact ⟨k + 1, by omega, by omega, by rw [hi, this]⟩
    have hup : ∀ x, x ∈ upPath k 0 i → x ∈ upPath (k + 1) 0 i := by
      intro x hx
      obtain ⟨m, h1, h2, h3⟩ := mem_path.1 hx
      exact mem_path.2 ⟨m, h1, by omega, h3⟩
    rw [Ratchet.filteredPath] at hx
    rcases path_split hi with ⟨h1, h2, h3⟩ | ⟨h1, h2, h3⟩
    · rw [if_pos h2, List.mem_append] at hx
      rcases hx with hx | hx
      · rw [h3, ← off_succ_left] at hx
        exact hup x (ihl h1 hx)
      · exact hroot x (.inl hx)
    · rw [if_neg h2, List.mem_append] at hx
      rcases hx with hx | hx
      · rw [h3, ← off_succ_right] at hx
        exact hup x (ihr h1 hx)
      · exact hroot x (.inr hx)

/-- A subtree off the path is the same in another tree that differs on the path only. -/
theorem vat_off {h0 h' : Heap} {t0 t' : RTree} (ho : Owned h0 t0) (hh : ∀ p, p < h0.length → h'[p]? = h0[p]?)
    {d i : Nat} (ht : ∀ x, x ∉ upPath d 0 i → x ≠ idx 0 i → t'[x]? = t0[x]?) {k b : Nat} (hb : i / 2 ^ k ≠ b)
    {r : Ratchet ParentNode k} (h : VAt (derefTree h0 t0) b r) : VAt (derefTree h' t') b r := by
  refine h.congr fun m y hby => ?_
  obtain ⟨h1, h2⟩ := off_path (d := d) hb hby
  rw [derefTree_get, derefTree_get, ht _ h1 h2]
  cases hx : t0[idx m y]? with
  | none => rfl
  | some o =>
    cases o with
    | none => rfl
    | some n =>
      cases n with
      | leaf l => rfl
      | parent p =>
        simp only [Option.map_some, TNode.deref, Option.some.injEq, Node.parent.injEq, List.getD]
        rw [hh p (ho.lt hx)]

/-! ### The filtered direct path -/

theorem filteredDirectPathLoop_spec {v : VTree} {d i : Nat} (hd : d ≤ 31) (hlen : v.length < 2 ^ 32)
    {k : Nat} (hk : k ≤ d) (hi : i < 2 ^ d) {s : Ratchet ParentNode k} (hs : VAt v (i / 2 ^ k) s) {fuel : Nat}
    {rest : List Nat} (hr : filteredDirectPathLoop v (2 ^ d) fuel (idx k (i / 2 ^ k)) = .ok rest) :
    filteredDirectPathLoop v (2 ^ d) (fuel + k) (idx 0 i) =
      .ok (s.filteredPath (i / 2 ^ k * 2 ^ (k + 1)) (i - i / 2 ^ k * 2 ^ k) ++ rest) := by
  induction s generalizing fuel rest with
  | leaf n => simpa [Ratchet.filteredPath] using hr
  | @node k p l r ihl ihr =>
    have hjk : i / 2 ^ k / 2 ^ (d - k) = 0 := by
      rw [Nat.div_div_eq_div_mul, ← Nat.pow_add, show k + (d - k) = d from by omega]
      exact Nat.div_eq_of_lt hi
    have hpar := parent_idx (j := i / 2 ^ k) hd (by omega) hjk
    have hsib := sibling_idx (j := i / 2 ^ k) hd (by omega) hjk
    rw [← div_half'] at hpar
    generalize hJ : i / 2 ^ (k + 1) = j at *
    rw [Ratchet.filteredPath, show fuel + (k + 1) = fuel + 1 + k from by omega]
    rcases path_split hJ with ⟨h1, h2, h3⟩ | ⟨h1, h2, h3⟩
    · rw [if_pos h2, h3, ← off_succ_left, List.append_assoc]
      have := ihl (by omega) (by rw [h1]; exact hs.2.1) (fuel := fuel + 1)
        (rest := (if r.resolution (2 * j * 2 ^ (k + 1) + 2 ^ (k + 1)) = [] then []
          else [2 * j * 2 ^ (k + 1) + 2 ^ (k + 1) - 1]) ++ rest) ?_
      · rw [h1] at this
        exact this
      · rw [filteredDirectPathLoop, hpar]
        dsimp only
        rw [hsib, h1, if_pos (by omega)]
        dsimp only
        rw [resolve_spec hlen hs.2.2 (by omega), Res.ok_bind, hr, Res.ok_bind, off_succ_right, ← off_succ_left]
        by_cases he : r.resolution (2 * j * 2 ^ (k + 1) + 2 ^ (k + 1)) = []
        · rw [if_pos he, he]
          rfl
        · rw [if_neg he, if_pos (List.length_pos_iff.2 he), idx_off, off_succ_left]
          rfl
    · rw [if_neg h2, h3, ← off_succ_right, List.append_assoc]
      have := ihr (by omega) (by rw [h1]; exact hs.2.2) (fuel := fuel + 1)
        (rest := (if l.resolution (j * 2 ^ (k + 1 + 1)) = [] then [] else [(2 * j + 1) * 2 ^ (k + 1) - 1]) ++ rest) ?_
      · rw [h1] at this
        exact this
      · rw [filteredDirectPathLoop, hpar]
        dsimp only
        rw [hsib, h1, if_neg (by omega), Nat.add_sub_cancel]
        dsimp only
        rw [resolve_spec hlen hs.2.1 (by omega), Res.ok_bind, hr, Res.ok_bind, off_succ_left]
        by_cases he : l.resolution (j * 2 ^ (k + 1 + 1)) = []
        · rw [if_pos he, he]
          rfl
        · rw [if_neg he, if_pos (List.length_pos_iff.2 he), idx_off, ← off_succ_right]
          rfl

/-- filteredDirectPath is the filtered direct path of RFC 9420. -/
theorem filteredDirectPath_spec {d i : Nat} (hd : d ≤ 31) (hi : i < 2 ^ d) (s : Ratchet ParentNode d) :
    filteredDirectPath (s.flat .leaf .parent) (idx 0 i) = .ok (s.filteredPath 0 i) := by
  have h0 : i / 2 ^ d = 0 := Nat.div_eq_of_lt hi
  have hroot : filteredDirectPathLoop (s.flat .leaf .parent) (2 ^ d) (64 - d) (idx d (i / 2 ^ d)) = .ok [] := by
    rw [h0, show 64 - d = 63 - d + 1 from by omega, filteredDirectPathLoop, parent_root hd]
  have := filteredDirectPathLoop_spec hd (vflat_lt hd s) (Nat.le_refl d) hi (by rw [h0]; exact at_flat _ _ s) hroot
  rw [h0, Nat.zero_mul, Nat.zero_mul, Nat.sub_zero, List.append_nil, show 64 - d + d = 64 from by omega] at this
  unfold filteredDirectPath
  rw [vflat_numLeaves hd, this]

/-! ### Parent hashes of the new nodes -/

/-- One step of the loop over the filtered direct path. -/
theorem parentHashLoop_step {pr : Prims} {cs : UInt16} {sd : SuiteDesc} (hsd : suite cs = .ok sd) {dp : List Nat}
    {sender : Nat} {t : RTree} {ni l r ptr : Nat} {rest : List Nat} {h : Heap} {prev key : Bytes} {sh : Option Bytes}
    (hn : t[ni]? = some (some (.parent ptr))) (hp : h[ptr]? = some { encryptionKey := key, parentHash := [], unmergedLeaves := [] })
    (hch : children ni = some (l, r))
    (hsh : ∀ x, computeTreeHash pr cs (derefTree h t) (pathSibling dp sender l r) [] = .ok x ↔ sh = some x) (ks : List Bytes) :
    (∀ q, Spec.pathStep (pr.hash sd.hash) (key :: ks) prev sh = some q →
      q.1 = { encryptionKey := key, parentHash := prev, unmergedLeaves := [] } ∧ q.2.1 = ks ∧
      parentHashLoop pr cs dp sender t (ni :: rest) h prev = parentHashLoop pr cs dp sender t rest (h.set ptr q.1) q.2.2) ∧
    (Spec.pathStep (pr.hash sd.hash) (key :: ks) prev sh = none →
      ∀ a, parentHashLoop pr cs dp sender t (ni :: rest) h prev ≠ .ok a) := by
  have hmod : h.modify ptr (fun q => { q with parentHash := prev }) =
      h.set ptr { encryptionKey := key, parentHash := prev, unmergedLeaves := [] } := by
    apply List.ext_getElem?
    intro x
    rw [List.getElem?_modify, List.getElem?_set]
    by_cases hx : ptr = x
    · subst hx
      have := (List.getElem?_eq_some_iff.1 hp).1
      rw [hp, if_pos rfl, if_pos this]
      simp
    · simp [hx]
  have hget : (h.set ptr { encryptionKey := key, parentHash := prev, unmergedLeaves := [] }).getD ptr default =
      { encryptionKey := key, parentHash := prev, unmergedLeaves := [] } := by
    have := (List.getElem?_eq_some_iff.1 hp).1
    simp [List.getD, this]
  have hloop : parentHashLoop pr cs dp sender t (ni :: rest) h prev =
      (computeTreeHash pr cs (derefTree h t) (pathSibling dp sender l r) []).bind fun th =>
        (ParentNode.computeParentHash pr cs { encryptionKey := key, parentHash := prev, unmergedLeaves := [] } th).bind fun ph =>
          parentHashLoop pr cs dp sender t rest
            (h.set ptr { encryptionKey := key, parentHash := prev, unmergedLeaves := [] }) ph := by
    rw [parentHashLoop, Res.idx_ok_iff.2 hn, Res.ok_bind, hch]
    dsimp only [Res.deref, Res.ok_bind]
    rw [hmod, hget]
    rfl
  unfold Spec.pathStep
  dsimp only
  constructor
  · intro q hq
    simp only [Option.bind_eq_bind, Option.bind_eq_some_iff, Option.pure_def, Option.some.injEq] at hq
    obtain ⟨a, ha, x, hx, rfl⟩ := hq
    refine ⟨rfl, rfl, ?_⟩
    rw [hloop, (hsh a).2 ha]
    show Res.bind (ParentNode.computeParentHash _ _ _ a) _ = _
    rw [(computeParentHash_iff hsd).2 ⟨x, hx, rfl⟩]
    rfl
  · intro hq a ha
    rw [hloop] at ha
    obtain ⟨th, h1, h2⟩ := Res.bind_ok_iff.1 ha
    obtain ⟨ph, h3, h4⟩ := Res.bind_ok_iff.1 h2
    obtain ⟨x, hx, rfl⟩ := (computeParentHash_iff hsd).1 h3
    rw [(hsh th).1 h1] at hq
    simp only [Option.bind_eq_bind, Option.bind_some] at hq
    rw [hx] at hq
    simp at hq

/-- The state of the tree while the parent hashes are computed: the new nodes are in place. `F` is the filtered
direct path of leaf `i`; `ptr` and `key` give the reference and public key of each new node. -/
structure InPlace (h0 : Heap) (t0 t : RTree) (d i : Nat) (F : List Nat) (ptr : Nat → Nat) : Prop where
  owned : Owned h0 t0
  length : t.length = 2 ^ (d + 1) - 1
  off : ∀ x, x ∉ upPath d 0 i → t[x]? = t0[x]?
  on : ∀ x, x ∈ upPath d 0 i → t[x]? = some (if x ∈ F then some (.parent (ptr x)) else none)
  fresh : ∀ x ∈ F, h0.length ≤ ptr x
  inj : ∀ x ∈ F, ∀ y ∈ F, ptr x = ptr y → x = y

/-- What the loop does to the heap and the tree. -/
structure Merged (h h' : Heap) (t : RTree) (i : Nat) (new : LeafNode) (F : List Nat) (ptr : Nat → Nat) {k : Nat} (j : Nat)
    (s' : Ratchet ParentNode k) : Prop where
  length : h'.length = h.length
  same : ∀ p, (∀ x ∈ F, ptr x ≠ p) → h'[p]? = h[p]?
  tree : VAt (derefTree h' (t.set (idx 0 i) (some (.leaf new)))) j s'

theorem parentHashLoop_merge {pr : Prims} (hc : pr.Correct) {cs : UInt16} {sd : SuiteDesc} (hsd : suite cs = .ok sd)
    {d i : Nat} (hd : d ≤ 31) (hi : i < 2 ^ d) {h0 : Heap} {t0 t : RTree} {F : List Nat} {ptr : Nat → Nat} {key : Nat → Bytes}
    {new : LeafNode} (hp : InPlace h0 t0 t d i F ptr) {k : Nat} (hk : k ≤ d) {s : Ratchet ParentNode k}
    (hs : VAt (derefTree h0 t0) (i / 2 ^ k) s)
    (hF : ∀ x ∈ upPath k 0 i, x ∈ F ↔ x ∈ s.filteredPath (i / 2 ^ k * 2 ^ (k + 1)) (i - i / 2 ^ k * 2 ^ k)) {h : Heap}
    (hh : ∀ p, p < h0.length → h[p]? = h0[p]?)
    (hnew : ∀ x ∈ s.filteredPath (i / 2 ^ k * 2 ^ (k + 1)) (i - i / 2 ^ k * 2 ^ k),
      h[ptr x]? = some { encryptionKey := key x, parentHash := [], unmergedLeaves := [] }) (prev : Bytes) :
    (∀ a, s.merge (pr.hash sd.hash) new (i / 2 ^ k * 2 ^ k) (i - i / 2 ^ k * 2 ^ k)
        ((s.filteredPath (i / 2 ^ k * 2 ^ (k + 1)) (i - i / 2 ^ k * 2 ^ k)).reverse.map key) prev = some a →
      ∃ h', parentHashLoop pr cs (upPath d 0 i) (idx 0 i) t
          (s.filteredPath (i / 2 ^ k * 2 ^ (k + 1)) (i - i / 2 ^ k * 2 ^ k)).reverse h prev = .ok (h', a.2) ∧
        Merged h h' t i new (s.filteredPath (i / 2 ^ k * 2 ^ (k + 1)) (i - i / 2 ^ k * 2 ^ k)) ptr (i / 2 ^ k) a.1) ∧
    (s.merge (pr.hash sd.hash) new (i / 2 ^ k * 2 ^ k) (i - i / 2 ^ k * 2 ^ k)
        ((s.filteredPath (i / 2 ^ k * 2 ^ (k + 1)) (i - i / 2 ^ k * 2 ^ k)).reverse.map key) prev = none →
      ∀ a, parentHashLoop pr cs (upPath d 0 i) (idx 0 i) t
          (s.filteredPath (i / 2 ^ k * 2 ^ (k + 1)) (i - i / 2 ^ k * 2 ^ k)).reverse h prev ≠ .ok a) := by
  have hlen : ∀ h' : Heap, (derefTree h' t).length < 2 ^ 32 := by
    intro h'
    rw [derefTree_length, hp.length]
    exact pow_tree_lt hd
  have hilt : idx 0 i < t.length := by
    rw [hp.length, idx_zero, Nat.pow_succ]
    omega
  have hset : ∀ x, x ∉ upPath d 0 i → x ≠ idx 0 i → (t.set (idx 0 i) (some (.leaf new)))[x]? = t0[x]? := by
    intro x h1 h2
    rw [List.getElem?_set_ne (fun e => h2 e.symm)]
    exact hp.off x h1
  induction s generalizing h prev with
  | leaf n =>
    simp only [Ratchet.filteredPath, List.reverse_nil, List.map_nil, Ratchet.merge, if_true, Option.some.injEq, parentHashLoop,
      reduceCtorEq, false_implies, and_true]
    rintro a rfl
    refine ⟨h, rfl, rfl, fun _ _ => rfl, ?_⟩
    show (derefTree h (t.set (idx 0 i) (some (.leaf new))))[idx 0 (i / 2 ^ 0)]? = _
    rw [derefTree_get, Nat.pow_zero, Nat.div_one, List.getElem?_set_self hilt]
    rfl
  | @node k p l r ihl ihr =>
    generalize hJ : i / 2 ^ (k + 1) = j at *
    have hpos : idx (k + 1) j ∈ upPath d 0 i := mem_path.2 ⟨k + 1, by omega, hk, by rw [hJ]⟩
    have hpos' : idx (k + 1) j ∈ upPath (k + 1) 0 i := mem_path.2 ⟨k + 1, by omega, by omega, by rw [hJ]⟩
    have hpne : idx (k + 1) j ≠ idx 0 i := fun e => by have := (idx_inj e).1; omega
    have hup : ∀ x, x ∈ upPath k 0 i → x ∈ upPath (k + 1) 0 i ∧ x ≠ idx (k + 1) j := by
      intro x hx
      obtain ⟨m, h1, h2, h3⟩ := mem_path.1 hx
      refine ⟨mem_path.2 ⟨m, h1, by omega, h3⟩, ?_⟩
      rintro rfl
      have := (idx_inj h3).1
      omega
    have hchild : children (idx (k + 1) j) = some (idx k (2 * j), idx k (2 * j + 1)) :=
      children_idx_succ (by omega) (by
        have h1 : idx (k + 1) j < t.length := by
          by_contra hge
          have := hp.on _ hpos
          rw [List.getElem?_eq_none (by omega)] at this
          cases this
        have := hlen h
        rw [derefTree_length] at this
        omega)
    have hcases := path_split hJ
    have hsibOf : ∀ b, (b = 2 * j ∨ b = 2 * j + 1) → i / 2 ^ k ≠ b → pathSibling (upPath d 0 i) (idx 0 i) (idx k (2 * j)) (idx k (2 * j + 1)) = idx k b := by
      intro b hb hne
      unfold pathSibling
      rcases hcases with ⟨h1, _⟩ | ⟨h1, _⟩
      · obtain rfl : b = 2 * j + 1 := by omega
        rw [if_pos]
        rw [List.contains_iff_mem]
        cases k with
        | zero => left; rw [← h1, Nat.pow_zero, Nat.div_one]
        | succ k => right; exact mem_path.2 ⟨k + 1, by omega, by omega, by rw [h1]⟩
      · obtain rfl : b = 2 * j := by omega
        rw [if_neg]
        rw [List.contains_iff_mem]
        obtain ⟨a, b⟩ := off_path (d := d) hne (Below.refl k (2 * j))
        exact fun h => h.elim b a
    -- the subtree on the path
    have main : ∀ (c b : Ratchet ParentNode k) (cj bj : Nat) (mk : Option ParentNode → Ratchet ParentNode k → Ratchet ParentNode (k + 1)),
        i / 2 ^ k = cj → (bj = 2 * j ∨ bj = 2 * j + 1) → cj ≠ bj → VAt (derefTree h0 t0) cj c → VAt (derefTree h0 t0) bj b →
        (∀ (T : VTree) (o : Option ParentNode) (c' : Ratchet ParentNode k), VAt T cj c' → VAt T bj b → T[idx (k + 1) j]? = some (o.map .parent) → VAt T j (mk o c')) →
        ∀ (fp : List Nat), fp = c.filteredPath (cj * 2 ^ (k + 1)) (i - cj * 2 ^ k) ++ (if b.resolution 0 = [] then [] else [idx (k + 1) j]) →
        (∀ x ∈ upPath (k + 1) 0 i, x ∈ F ↔ x ∈ fp) →
        (∀ x ∈ fp, h[ptr x]? = some { encryptionKey := key x, parentHash := [], unmergedLeaves := [] }) →
        ∀ m, m = (if b.resolution 0 = [] then (c.merge (pr.hash sd.hash) new (cj * 2 ^ k) (i - cj * 2 ^ k) (fp.reverse.map key) prev).map fun a => (mk none a.1, a.2)
          else (Spec.pathStep (pr.hash sd.hash) (fp.reverse.map key) prev (b.treeHash (pr.hash sd.hash) (bj * 2 ^ k))).bind fun q =>
            (c.merge (pr.hash sd.hash) new (cj * 2 ^ k) (i - cj * 2 ^ k) q.2.1 q.2.2).map fun a => (mk (some q.1) a.1, a.2)) →
        (∀ h (prev : Bytes), (∀ p, p < h0.length → h[p]? = h0[p]?) →
          (∀ x ∈ c.filteredPath (cj * 2 ^ (k + 1)) (i - cj * 2 ^ k), h[ptr x]? = some { encryptionKey := key x, parentHash := [], unmergedLeaves := [] }) →
          (∀ x ∈ upPath k 0 i, x ∈ F ↔ x ∈ c.filteredPath (cj * 2 ^ (k + 1)) (i - cj * 2 ^ k)) →
          (∀ a, c.merge (pr.hash sd.hash) new (cj * 2 ^ k) (i - cj * 2 ^ k)
              ((c.filteredPath (cj * 2 ^ (k + 1)) (i - cj * 2 ^ k)).reverse.map key) prev = some a →
            ∃ h', parentHashLoop pr cs (upPath d 0 i) (idx 0 i) t (c.filteredPath (cj * 2 ^ (k + 1)) (i - cj * 2 ^ k)).reverse h prev = .ok (h', a.2) ∧
              Merged h h' t i new (c.filteredPath (cj * 2 ^ (k + 1)) (i - cj * 2 ^ k)) ptr cj a.1) ∧
          (c.merge (pr.hash sd.hash) new (cj * 2 ^ k) (i - cj * 2 ^ k)
              ((c.filteredPath (cj * 2 ^ (k + 1)) (i - cj * 2 ^ k)).reverse.map key) prev = none →
            ∀ a, parentHashLoop pr cs (upPath d 0 i) (idx 0 i) t (c.filteredPath (cj * 2 ^ (k + 1)) (i - cj * 2 ^ k)).reverse h prev ≠ .ok a)) →
        (∀ a, m = some a → ∃ h', parentHashLoop pr cs (upPath d 0 i) (idx 0 i) t fp.reverse h prev = .ok (h', a.2) ∧ Merged h h' t i new fp ptr j a.1) ∧
        (m = none → ∀ a, parentHashLoop pr cs (upPath d 0 i) (idx 0 i) t fp.reverse h prev ≠ .ok a) := by
      intro c b cj bj mk hcj hbj hne hatc hatb hmk fp hfp hF hnew m hm ih
      have hFc : ∀ x ∈ upPath k 0 i, x ∈ F ↔ x ∈ c.filteredPath (cj * 2 ^ (k + 1)) (i - cj * 2 ^ k) := by
        intro x hx
        obtain ⟨h1, h2⟩ := hup x hx
        rw [hF x h1, hfp, List.mem_append]
        constructor
        · rintro (h | h)
          · exact h
          · split at h <;> simp at h
            exact absurd h h2
        · exact .inl
      have hcup : ∀ x ∈ c.filteredPath (cj * 2 ^ (k + 1)) (i - cj * 2 ^ k), x ∈ upPath k 0 i :=
        fun x hx => mem_filteredPath hcj hx
      have hoffb : ∀ h' : Heap, (∀ p, p < h0.length → h'[p]? = h0[p]?) →
          VAt (derefTree h' (t.set (idx 0 i) (some (.leaf new)))) bj b := fun h' hh' =>
        vat_off hp.owned hh' hset (by rw [hcj]; exact hne) hatb
      have hfreshF : ∀ x ∈ c.filteredPath (cj * 2 ^ (k + 1)) (i - cj * 2 ^ k), h0.length ≤ ptr x := fun x hx =>
        hp.fresh x ((hFc x (hcup x hx)).2 hx)
      by_cases hb : b.resolution 0 = []
      · rw [if_pos hb] at hm hfp
        rw [List.append_nil] at hfp
        have hnotF : idx (k + 1) j ∉ F := by
          rw [hF _ hpos', hfp]
          intro hx
          exact (hup _ (hcup _ hx)).2 rfl
        obtain ⟨i1, i2⟩ := ih h prev hh (fun x hx => hnew x (by rw [hfp]; exact hx)) hFc
        subst hm
        rw [← hfp] at i1 i2
        constructor
        · intro a ha
          rw [Option.map_eq_some_iff] at ha
          obtain ⟨a', ha', rfl⟩ := ha
          obtain ⟨h', e1, e2⟩ := i1 a' ha'
          refine ⟨h', e1, e2.length, e2.same, hmk _ none a'.1 e2.tree (hoffb h' fun p hp' => ?_) ?_⟩
          · rw [e2.same p fun x hx => ?_, hh p hp']
            have := hfreshF x (by rw [← hfp]; exact hx)
            omega
          · rw [derefTree_get, List.getElem?_set_ne (fun e => hpne e.symm), hp.on _ hpos, if_neg hnotF]
            rfl
        · intro hn
          rw [Option.map_eq_none_iff] at hn
          exact i2 hn
      · rw [if_neg hb] at hm hfp
        have hinF : idx (k + 1) j ∈ F := by rw [hF _ hpos', hfp]; simp
        have hrev : fp.reverse = idx (k + 1) j :: (c.filteredPath (cj * 2 ^ (k + 1)) (i - cj * 2 ^ k)).reverse := by
          rw [hfp, List.reverse_append]; rfl
        have hptr : h[ptr (idx (k + 1) j)]? = some { encryptionKey := key (idx (k + 1) j), parentHash := [], unmergedLeaves := [] } :=
          hnew _ (by rw [hfp]; simp)
        have hdiff : ∀ x ∈ c.filteredPath (cj * 2 ^ (k + 1)) (i - cj * 2 ^ k), ptr x ≠ ptr (idx (k + 1) j) := by
          intro x hx e
          exact (hup _ (hcup _ hx)).2 (hp.inj x ((hFc x (hcup x hx)).2 hx) _ hinF e)
        have hoffb' : VAt (derefTree h t) bj b :=
          vat_off hp.owned hh (fun x h1 _ => hp.off x h1) (by rw [hcj]; exact hne) hatb
        have hsh : ∀ x, computeTreeHash pr cs (derefTree h t)
            (pathSibling (upPath d 0 i) (idx 0 i) (idx k (2 * j)) (idx k (2 * j + 1))) [] = .ok x ↔
            b.treeHash (pr.hash sd.hash) (bj * 2 ^ k) = some x := by
          intro x
          rw [hsibOf bj hbj (by rw [hcj]; exact hne), computeTreeHash_iff hc hsd (hlen h) [] hoffb' (by omega), without_nil]
        obtain ⟨s1, s2⟩ := parentHashLoop_step hsd (rest := (c.filteredPath (cj * 2 ^ (k + 1)) (i - cj * 2 ^ k)).reverse)
          (prev := prev) (by rw [hp.on _ hpos, if_pos hinF]) hptr hchild hsh
          ((c.filteredPath (cj * 2 ^ (k + 1)) (i - cj * 2 ^ k)).reverse.map key)
        have hstep : ∀ q, Spec.pathStep (pr.hash sd.hash) (fp.reverse.map key) prev (b.treeHash (pr.hash sd.hash) (bj * 2 ^ k)) = some q →
            q.2.1 = (c.filteredPath (cj * 2 ^ (k + 1)) (i - cj * 2 ^ k)).reverse.map key ∧
            parentHashLoop pr cs (upPath d 0 i) (idx 0 i) t fp.reverse h prev =
              parentHashLoop pr cs (upPath d 0 i) (idx 0 i) t (c.filteredPath (cj * 2 ^ (k + 1)) (i - cj * 2 ^ k)).reverse
                (h.set (ptr (idx (k + 1) j)) q.1) q.2.2 := by
          intro q hq
          rw [hrev, List.map_cons] at hq
          rw [hrev]
          exact ⟨(s1 q hq).2.1, (s1 q hq).2.2⟩
        have hi' : ∀ q : ParentNode × List Bytes × Bytes, _ := fun q => ih (h.set (ptr (idx (k + 1) j)) q.1) q.2.2
          (fun p hp' => by
            rw [List.getElem?_set_ne, hh p hp']
            have := hp.fresh _ hinF
            omega)
          (fun x hx => by
            rw [List.getElem?_set_ne (fun e => hdiff x hx e.symm)]
            exact hnew x (by rw [hfp]; exact List.mem_append_left _ hx)) hFc
        subst hm
        constructor
        · intro a ha
          rw [Option.bind_eq_some_iff] at ha
          obtain ⟨q, hq, ha⟩ := ha
          rw [Option.map_eq_some_iff] at ha
          obtain ⟨a', ha', rfl⟩ := ha
          obtain ⟨e1, e2⟩ := hstep q hq
          rw [e1] at ha'
          obtain ⟨h', f1, f2⟩ := (hi' q).1 a' ha'
          have hptrlt := (List.getElem?_eq_some_iff.1 hptr).1
          refine ⟨h', by rw [e2]; exact f1, by rw [f2.length, List.length_set], fun p hp' => ?_,
            hmk _ (some q.1) a'.1 f2.tree (hoffb h' fun p hp' => ?_) ?_⟩
          · rw [f2.same p fun x hx => hp' x (by rw [hfp]; exact List.mem_append_left _ hx), List.getElem?_set_ne]
            exact hp' _ (by rw [hfp]; simp)
          · rw [f2.same p fun x hx => ?_, List.getElem?_set_ne, hh p hp']
            · have := hp.fresh _ hinF
              omega
            · have := hfreshF x hx
              omega
          · rw [derefTree_get, List.getElem?_set_ne (fun e => hpne e.symm), hp.on _ hpos, if_pos hinF]
            simp only [Option.map_some, TNode.deref, List.getD]
            rw [f2.same _ hdiff, List.getElem?_set_self hptrlt]
            rfl
        · intro hn
          rw [Option.bind_eq_none_iff] at hn
          cases hq : Spec.pathStep (pr.hash sd.hash) (fp.reverse.map key) prev (b.treeHash (pr.hash sd.hash) (bj * 2 ^ k)) with
          | none =>
            rw [hrev, List.map_cons] at hq
            rw [hrev]
            exact s2 hq
          | some q =>
            have hn' := hn q hq
            rw [Option.map_eq_none_iff] at hn'
            obtain ⟨e1, e2⟩ := hstep q hq
            rw [e1] at hn'
            rw [e2]
            exact (hi' q).2 hn'
    have hres : ∀ (b : Ratchet ParentNode k) (off : Nat), b.resolution off = [] ↔ b.resolution 0 = [] := fun b off => by
      rw [resolution_nil, resolution_nil]
    have hite : ∀ (b : Ratchet ParentNode k) (off : Nat) (x y : List Nat), (if b.resolution off = [] then x else y) =
        if b.resolution 0 = [] then x else y := by
      intro b off x y
      by_cases hb : b.resolution 0 = []
      · rw [if_pos hb, if_pos ((hres b off).2 hb)]
      · rw [if_neg hb, if_neg fun h => hb ((hres b off).1 h)]
    have e1 : 2 * j * 2 ^ k = j * 2 ^ (k + 1) := by rw [Nat.pow_succ]; ring
    have e2 : (2 * j + 1) * 2 ^ k = j * 2 ^ (k + 1) + 2 ^ k := by rw [Nat.pow_succ]; ring
    rcases hcases with ⟨h1, h2, h3⟩ | ⟨h1, h2, h3⟩
    · refine main l r (2 * j) (2 * j + 1) (fun o c => .node o c r) h1 (.inr rfl) (by omega) hs.2.1 hs.2.2
        (fun T o c' a1 a2 a3 => ⟨a3, a1, a2⟩) _ ?_ hF hnew _ ?_ ?_
      · rw [Ratchet.filteredPath, if_pos h2, h3, hite, off_succ_left, idx_off]
      · rw [Ratchet.merge, if_pos h2, h3, e1, e2]
      · intro h prev hh hn hFl
        have := ihl (by omega) (by rw [h1]; exact hs.2.1) (by rw [h1]; exact hFl) hh (by rw [h1]; exact hn) prev
        rw [h1] at this
        exact this
    · refine main r l (2 * j + 1) (2 * j) (fun o c => .node o l c) h1 (.inl rfl) (by omega) hs.2.2 hs.2.1
        (fun T o c' a1 a2 a3 => ⟨a3, a2, a1⟩) _ ?_ hF hnew _ ?_ ?_
      · rw [Ratchet.filteredPath, if_neg h2, h3, hite, off_succ_right, idx_off]
      · rw [Ratchet.merge, if_neg h2, h3, e1, e2]
      · intro h prev hh hn hFl
        have := ihr (by omega) (by rw [h1]; exact hs.2.2) (by rw [h1]; exact hFl) hh (by rw [h1]; exact hn) prev
        rw [h1] at this
        exact this

/-! ### The steps before the loop -/

theorem blankAll_spec {N : Type} {xs : List Nat} {t : List (Option N)} (h : ∀ x ∈ xs, x < t.length) :
    ∃ t', blankAll t xs = .ok t' ∧ t'.length = t.length ∧
      ∀ x, t'[x]? = if x ∈ xs then (t[x]?).map (fun _ => none) else t[x]? := by
  induction xs generalizing t with
  | nil => exact ⟨t, rfl, rfl, by simp⟩
  | cons y ys ih =>
    have hy := h y (List.mem_cons_self ..)
    obtain ⟨t', h1, h2, h3⟩ := ih (t := t.set y none) fun x hx => by
      rw [List.length_set]
      exact h x (List.mem_cons_of_mem _ hx)
    refine ⟨t', ?_, by rw [h2, List.length_set], fun x => ?_⟩
    · rw [blankAll, Res.setIdx_of_lt _ hy, Res.ok_bind, h1]
    · rw [h3, List.getElem?_set]
      by_cases hx : x = y
      · subst hx
        have e : t[x]? = some t[x] := List.getElem?_eq_getElem hy
        simp [hy]
      · have : ¬ y = x := fun e => hx e.symm
        simp [hx, this]

/-- The new nodes of a path. -/
def freshNodes (ns : List UpdatePathNode) : List ParentNode :=
  ns.map fun pn => { encryptionKey := pn.encryptionKey, parentHash := [], unmergedLeaves := [] }

theorem setPathNodes_spec {h : Heap} {xs : List Nat} {ns : List UpdatePathNode} {t : RTree} (hn : xs.Nodup)
    (hx : ∀ x ∈ xs, x < t.length) (hl : xs.length = ns.length) :
    ∃ t', setPathNodes h t xs ns = .ok (h ++ freshNodes ns, t') ∧ t'.length = t.length ∧
      (∀ x, x ∉ xs → t'[x]? = t[x]?) ∧ ∀ (a x : Nat), xs[a]? = some x → t'[x]? = some (some (.parent (h.length + a))) := by
  induction xs generalizing h t ns with
  | nil =>
    cases ns with
    | nil => exact ⟨t, by simp [setPathNodes, freshNodes], rfl, fun _ _ => rfl, by simp⟩
    | cons => simp at hl
  | cons y ys ih =>
    cases ns with
    | nil => simp at hl
    | cons pn ns =>
      have hy := hx y (List.mem_cons_self ..)
      obtain ⟨hny, hnys⟩ := List.nodup_cons.1 hn
      obtain ⟨t', h1, h2, h3, h4⟩ := ih (h := h ++ [{ encryptionKey := pn.encryptionKey, parentHash := [], unmergedLeaves := [] }])
        (t := t.set y (some (.parent h.length))) (ns := ns) hnys
        (fun x hx' => by rw [List.length_set]; exact hx x (List.mem_cons_of_mem _ hx')) (by simpa using hl)
      refine ⟨t', ?_, by rw [h2, List.length_set], fun x hx' => ?_, fun a x ha => ?_⟩
      · rw [setPathNodes, Res.setIdx_of_lt _ hy, Res.ok_bind, h1]
        simp [freshNodes]
      · rw [h3 x fun h => hx' (List.mem_cons_of_mem _ h),
          List.getElem?_set_ne fun e => hx' (by rw [e]; exact List.mem_cons_self ..)]
      · cases a with
        | zero =>
          simp only [List.getElem?_cons_zero, Option.some.injEq] at ha
          subst ha
          rw [h3 _ hny, List.getElem?_set_self hy]
          rfl
        | succ a =>
          rw [h4 a x (by simpa using ha), List.length_append, List.length_singleton, Nat.add_assoc, Nat.add_comm 1]

theorem filteredPath_nodup {k : Nat} {s : Ratchet ParentNode k} {i j : Nat} (hi : i / 2 ^ k = j) :
    (s.filteredPath (j * 2 ^ (k + 1)) (i - j * 2 ^ k)).Nodup := by
  induction s generalizing j with
  | leaf n => simp [Ratchet.filteredPath]
  | @node k p l r ihl ihr =>
    have hroot : ∀ (b : Prop) [Decidable b] (xs : List Nat), xs.Nodup → (∀ x ∈ xs, x ∈ upPath k 0 i) →
        (xs ++ if b then [] else [j * 2 ^ (k + 2) + 2 ^ (k + 1) - 1]).Nodup := by
      intro b _ xs h1 h2
      split
      · rwa [List.append_nil]
      · rw [List.nodup_append]
        refine ⟨h1, by simp, fun x hx y hy e => ?_⟩
        rw [List.mem_singleton, ← idx_off] at hy
        obtain ⟨m, h3, h4, h5⟩ := mem_path.1 (h2 x hx)
        rw [e, hy] at h5
        have := (idx_inj h5).1
        omega
    rw [Ratchet.filteredPath]
    rcases path_split hi with ⟨h1, h2, h3⟩ | ⟨h1, h2, h3⟩
    · rw [if_pos h2, h3]
      refine hroot _ _ ?_ fun x hx => mem_filteredPath (s := l) h1 ?_
      · rw [← off_succ_left]; exact ihl h1
      · rw [off_succ_left]; exact hx
    · rw [if_neg h2, h3]
      refine hroot _ _ ?_ fun x hx => mem_filteredPath (s := r) h1 ?_
      · rw [← off_succ_right]; exact ihr h1
      · rw [off_succ_right]; exact hx

/-- The filtered direct path does not depend on the nodes of the path. -/
theorem filteredPath_alongPath {d : Nat} (f : Option LeafNode → Option LeafNode) (g : Option ParentNode → Option ParentNode)
    (s : Ratchet ParentNode d) (off i : Nat) : (s.alongPath f g i).filteredPath off i = s.filteredPath off i := by
  induction s generalizing off i with
  | leaf n => rfl
  | @node d p l r ihl ihr =>
    rw [Ratchet.alongPath]
    by_cases h : i < 2 ^ d
    · rw [if_pos h, Ratchet.filteredPath, Ratchet.filteredPath, if_pos h, if_pos h, ihl]
    · rw [if_neg h, Ratchet.filteredPath, Ratchet.filteredPath, if_neg h, if_neg h, ihr]

/-- A merge uses one key for each node of the filtered direct path. -/
theorem merge_length {H : Bytes → Bytes} {new : LeafNode} {k : Nat} {s : Ratchet ParentNode k} {i0 i off : Nat} {keys : List Bytes}
    {prev : Bytes} {a : Ratchet ParentNode k × Bytes} (h : s.merge H new i0 i keys prev = some a) :
    keys.length = (s.filteredPath off i).length := by
  have hres : ∀ {k} (b : Ratchet ParentNode k) (off : Nat), b.resolution off = [] ↔ b.resolution 0 = [] := fun b off => by
    rw [resolution_nil, resolution_nil]
  have hstep : ∀ {keys prev sib} {q : ParentNode × List Bytes × Bytes}, Spec.pathStep H keys prev sib = some q →
      keys.length = q.2.1.length + 1 := by
    intro keys prev sib q hq
    unfold Spec.pathStep at hq
    cases keys with
    | nil => cases hq
    | cons k ks =>
      simp only [Option.bind_eq_bind, Option.bind_eq_some_iff, Option.pure_def, Option.some.injEq] at hq
      obtain ⟨_, _, _, _, rfl⟩ := hq
      rfl
  induction s generalizing i0 i off keys prev with
  | leaf n =>
    rw [Ratchet.merge] at h
    by_cases hk : keys = []
    · subst hk; rfl
    · rw [if_neg hk] at h; cases h
  | @node d p l r ihl ihr =>
    rw [Ratchet.merge] at h
    rw [Ratchet.filteredPath]
    by_cases hi : i < 2 ^ d
    · rw [if_pos hi] at h ⊢
      by_cases hr : r.resolution 0 = []
      · rw [if_pos hr, Option.map_eq_some_iff] at h
        obtain ⟨a', h, rfl⟩ := h
        rw [if_pos ((hres _ _).2 hr), List.append_nil]
        exact ihl h
      · rw [if_neg hr, Option.bind_eq_some_iff] at h
        obtain ⟨q, hq, h⟩ := h
        rw [Option.map_eq_some_iff] at h
        obtain ⟨a', h, rfl⟩ := h
        rw [if_neg fun e => hr ((hres _ _).1 e), List.length_append, hstep hq, ihl h]
        rfl
    · rw [if_neg hi] at h ⊢
      by_cases hr : l.resolution 0 = []
      · rw [if_pos hr, Option.map_eq_some_iff] at h
        obtain ⟨a', h, rfl⟩ := h
        rw [if_pos ((hres _ _).2 hr), List.append_nil]
        exact ihr h
      · rw [if_neg hr, Option.bind_eq_some_iff] at h
        obtain ⟨q, hq, h⟩ := h
        rw [Option.map_eq_some_iff] at h
        obtain ⟨a', h, rfl⟩ := h
        rw [if_neg fun e => hr ((hres _ _).1 e), List.length_append, hstep hq, ihr h]
        rfl

/-- mergeUpdatePath is the merge of the specification. -/
theorem mergeUpdatePath_spec {pr : Prims} (hc : pr.Correct) {cs : UInt16} {sd : SuiteDesc} (hsd : suite cs = .ok sd)
    {d i : Nat} (hd : d ≤ 31) (hi : i < 2 ^ d) {h : Heap} {t : RTree} {s : Ratchet ParentNode d} (hH : Holds h t s)
    (path : UpdatePath) :
    (∀ s', s.mergePath (pr.hash sd.hash) i path = some s' →
      ∃ h' t', mergeUpdatePath pr cs h t i path = .ok (h', t') ∧ Holds h' t' s' ∧ h.length ≤ h'.length ∧
        ∀ p, p < h.length → h'[p]? = h[p]?) ∧
    (s.mergePath (pr.hash sd.hash) i path = none → ∀ a, mergeUpdatePath pr cs h t i path ≠ .ok a) := by
  have hlen : t.length = 2 ^ (d + 1) - 1 := by rw [← derefTree_length h, hH.flat, flat_length]
  have h0 : i / 2 ^ d = 0 := Nat.div_eq_of_lt hi
  have hidx : nodeOfLeaf i = idx 0 i := nodeOfLeaf_idx (leaf_lt hd hi)
  have hdp : directPath (treeNumLeaves t) (idx 0 i) = .ok (upPath d 0 i) := by
    have := vflat_numLeaves hd s
    rw [← hH.flat] at this
    have e : treeNumLeaves (derefTree h t) = treeNumLeaves t := by
      unfold treeNumLeaves; rw [derefTree_length]
    rw [← e, this]
    have := directPath_idx (k := 0) (j := i) hd (by omega) (by simpa using h0)
    simpa using this
  have hpathlt : ∀ x ∈ upPath d 0 i, x < t.length := by
    intro x hx
    obtain ⟨m, h1, h2, rfl⟩ := mem_path.1 hx
    rw [hlen]
    refine Below.lt ⟨h2, ?_⟩
    rw [Nat.div_div_eq_div_mul, ← Nat.pow_add, show m + (d - m) = d from by omega, h0]
  obtain ⟨t1, b1, b2, b3⟩ := blankAll_spec hpathlt
  have hflat1 : derefTree h t1 = (s.alongPath id (fun _ => none) i).flat .leaf .parent := by
    refine flat_alongPath (F := id) (G := fun _ => none) (fun n => rfl) (fun p => rfl) ?_
      (by rw [derefTree_length, b2, hlen]) hi
    intro m y
    rw [← hH.flat, derefTree_get, derefTree_get, b3]
    by_cases hm : m = 0 ∧ y = i
    · obtain ⟨rfl, rfl⟩ := hm
      have hx : idx 0 y ∉ upPath d 0 y := by
        intro hx
        obtain ⟨m, h1, h2, h3⟩ := mem_path.1 hx
        have := (idx_inj h3).1
        omega
      rw [if_neg hx, if_pos ⟨rfl, rfl⟩]
      simp
    · rw [if_neg hm]
      by_cases hm2 : 0 < m ∧ m ≤ d ∧ y = i / 2 ^ m
      · rw [if_pos hm2, if_pos (mem_path.2 ⟨m, hm2.1, hm2.2.1, by rw [hm2.2.2]⟩)]
        simp [Function.comp_def]
      · rw [if_neg hm2, if_neg]
        intro hx
        obtain ⟨m', h1, h2, h3⟩ := mem_path.1 hx
        obtain ⟨rfl, rfl⟩ := idx_inj h3
        exact hm2 ⟨h1, h2, rfl⟩
  have hfdp : filteredDirectPath (derefTree h t1) (idx 0 i) = .ok (s.filteredPath 0 i) := by
    rw [hflat1, filteredDirectPath_spec hd hi, filteredPath_alongPath]
  generalize hFdef : s.filteredPath 0 i = F at hfdp
  have hFmem : ∀ x ∈ F, x ∈ upPath d 0 i := by
    intro x hx
    refine mem_filteredPath h0 (s := s) ?_
    rw [Nat.zero_mul, Nat.zero_mul, Nat.sub_zero, hFdef]
    exact hx
  have hFnodup : F.Nodup := by
    have := filteredPath_nodup (s := s) h0
    rwa [Nat.zero_mul, Nat.zero_mul, Nat.sub_zero, hFdef] at this
  have hbeg : mergeUpdatePath pr cs h t i path = (Res.guardErr (F.length == path.nodes.length)).bind fun _ =>
      (setPathNodes h t1 F path.nodes).bind fun a =>
        (parentHashLoop pr cs (upPath d 0 i) (idx 0 i) a.2 F.reverse a.1 []).bind fun b =>
          (Res.guardErr (path.leafNode.parentHash == b.2)).bind fun _ =>
            (Res.setIdx a.2 (idx 0 i) (some (TNode.leaf path.leafNode))).bind fun c => .ok (b.1, c) := by
    unfold mergeUpdatePath
    dsimp only
    rw [hidx, hdp, Res.ok_bind, b1, Res.ok_bind, hfdp, Res.ok_bind]
    rfl
  have hph : path.leafNode.parentHash = Spec.parentHashOf (.leaf path.leafNode) := rfl
  by_cases hl : F.length = path.nodes.length
  swap
  · have hnone : s.mergePath (pr.hash sd.hash) i path = none := by
      unfold Ratchet.mergePath
      cases hm : s.merge (pr.hash sd.hash) path.leafNode 0 i (path.nodes.map fun n => n.encryptionKey).reverse [] with
      | none => rfl
      | some a =>
        have := merge_length (off := 0) hm
        rw [hFdef] at this
        simp at this
        omega
    rw [hnone]
    refine ⟨by simp, fun _ a ha => ?_⟩
    rw [hbeg] at ha
    obtain ⟨_, h1, _⟩ := Res.bind_ok_iff.1 ha
    rw [Res.guardErr_ok_iff] at h1
    exact hl (by simpa using h1)
  obtain ⟨t2, s1, s2, s3, s4⟩ := setPathNodes_spec (h := h) (t := t1) (ns := path.nodes) hFnodup
    (fun x hx => by rw [b2]; exact hpathlt x (hFmem x hx)) hl
  have hidxOf : ∀ x ∈ F, F[F.idxOf x]? = some x := by
    intro x hx
    rw [List.getElem?_eq_getElem (List.idxOf_lt_length_of_mem hx), List.getElem_idxOf]
  have hplace : InPlace h t t2 d i F (fun x => h.length + F.idxOf x) := by
    refine ⟨hH.owned, by rw [s2, b2, hlen], fun x hx => ?_, fun x hx => ?_, fun x _ => Nat.le_add_right .., fun x hx y hy e => ?_⟩
    · rw [s3 x fun h => hx (hFmem x h), b3, if_neg hx]
    · by_cases hxF : x ∈ F
      · rw [if_pos hxF, s4 _ x (hidxOf x hxF)]
      · rw [if_neg hxF, s3 x hxF, b3, if_pos hx, List.getElem?_eq_getElem (hpathlt x hx)]
        rfl
    · have e' : F.idxOf x = F.idxOf y := by simpa using e
      have := hidxOf x hx
      rw [e', hidxOf y hy] at this
      exact (Option.some.inj this).symm
  obtain ⟨key, hkey, hkeys⟩ : ∃ key : Nat → Bytes,
      (∀ x ∈ F, (h ++ freshNodes path.nodes)[h.length + F.idxOf x]? =
        some { encryptionKey := key x, parentHash := [], unmergedLeaves := [] }) ∧
      F.map key = path.nodes.map fun n => n.encryptionKey := by
    refine ⟨fun x => (path.nodes[F.idxOf x]?.map fun n => n.encryptionKey).getD [], fun x hx => ?_, ?_⟩
    · have hlt : F.idxOf x < path.nodes.length := by rw [← hl]; exact List.idxOf_lt_length_of_mem hx
      rw [List.getElem?_append_right (by omega), Nat.add_sub_cancel_left]
      simp [freshNodes, hlt]
    · apply List.ext_getElem (by simpa using hl)
      intro a h1 h2
      rw [List.length_map] at h1 h2
      simp only [List.getElem_map]
      rw [hFnodup.idxOf_getElem a h1]
      simp [h2]
  have hmain := parentHashLoop_merge hc hsd hd hi (new := path.leafNode) (key := key) hplace (Nat.le_refl d) (s := s)
    (by rw [h0, hH.flat]; exact at_flat _ _ s)
    (by rw [h0, Nat.zero_mul, Nat.zero_mul, Nat.sub_zero, hFdef]; exact fun _ _ => Iff.rfl)
    (h := h ++ freshNodes path.nodes) (fun p hp => List.getElem?_append_left hp)
    (by rw [h0, Nat.zero_mul, Nat.zero_mul, Nat.sub_zero, hFdef]; exact hkey) []
  rw [h0, Nat.zero_mul, Nat.zero_mul, Nat.sub_zero, hFdef, List.map_reverse, hkeys] at hmain
  have hilt : idx 0 i < t2.length := by
    rw [s2, b2, hlen, idx_zero, Nat.pow_succ]
    omega
  have hend : mergeUpdatePath pr cs h t i path =
      (parentHashLoop pr cs (upPath d 0 i) (idx 0 i) t2 F.reverse (h ++ freshNodes path.nodes) []).bind fun b =>
          (Res.guardErr (path.leafNode.parentHash == b.2)).bind fun _ =>
            .ok (b.1, t2.set (idx 0 i) (some (TNode.leaf path.leafNode))) := by
    rw [hbeg, s1]
    have : Res.guardErr (F.length == path.nodes.length) = .ok () := by rw [Res.guardErr_ok_iff]; simpa using hl
    rw [this]
    show (parentHashLoop pr cs (upPath d 0 i) (idx 0 i) t2 F.reverse (h ++ freshNodes path.nodes) []).bind (fun b =>
          (Res.guardErr (path.leafNode.parentHash == b.2)).bind fun _ =>
            (Res.setIdx t2 (idx 0 i) (some (TNode.leaf path.leafNode))).bind fun c => .ok (b.1, c)) = _
    rw [Res.setIdx_of_lt _ hilt]
    rfl
  unfold Ratchet.mergePath
  cases hm : s.merge (pr.hash sd.hash) path.leafNode 0 i (path.nodes.map fun n => n.encryptionKey).reverse [] with
  | none =>
    refine ⟨by simp, fun _ a ha => ?_⟩
    rw [hend] at ha
    obtain ⟨b, hb, _⟩ := Res.bind_ok_iff.1 ha
    exact hmain.2 hm b hb
  | some sp =>
    obtain ⟨s', ph⟩ := sp
    obtain ⟨h', l1, l2⟩ := hmain.1 _ hm
    dsimp only at l1 l2 ⊢
    by_cases he : Spec.parentHashOf (.leaf path.leafNode) = ph
    · rw [if_pos he]
      refine ⟨fun s'' hs => ?_, by simp⟩
      obtain rfl := Option.some.inj hs
      have hget : ∀ x, (t2.set (idx 0 i) (some (TNode.leaf path.leafNode)))[x]? =
          if x = idx 0 i then some (some (TNode.leaf path.leafNode)) else
            if x ∈ upPath d 0 i then some (if x ∈ F then some (.parent (h.length + F.idxOf x)) else none) else t[x]? := by
        intro x
        by_cases h1 : x = idx 0 i
        · rw [if_pos h1, h1, List.getElem?_set_self hilt]
        · rw [if_neg h1, List.getElem?_set_ne fun e => h1 e.symm]
          by_cases h2 : x ∈ upPath d 0 i
          · rw [if_pos h2, hplace.on x h2]
          · rw [if_neg h2, hplace.off x h2]
      have hptr : ∀ {x p : Nat}, (t2.set (idx 0 i) (some (TNode.leaf path.leafNode)))[x]? = some (some (.parent p)) →
          (x ∈ F ∧ p = h.length + F.idxOf x) ∨ (t[x]? = some (some (.parent p))) := by
        intro x p hx
        rw [hget] at hx
        by_cases h1 : x = idx 0 i
        · rw [if_pos h1] at hx; cases hx
        · rw [if_neg h1] at hx
          by_cases h2 : x ∈ upPath d 0 i
          · rw [if_pos h2] at hx
            by_cases h3 : x ∈ F
            · rw [if_pos h3] at hx
              cases hx
              exact .inl ⟨h3, rfl⟩
            · rw [if_neg h3] at hx; cases hx
          · rw [if_neg h2] at hx
            exact .inr hx
      refine ⟨h', t2.set (idx 0 i) (some (TNode.leaf path.leafNode)), ?_, ⟨⟨?_, ?_⟩, ?_⟩, ?_, fun p hp => ?_⟩
      · rw [hend, l1]
        show (Res.guardErr (path.leafNode.parentHash == ph)).bind _ = _
        have hg : Res.guardErr (path.leafNode.parentHash == ph) = .ok () := Res.guardErr_ok_iff.2 (by rw [hph, he]; simp)
        rw [hg]
        rfl
      · intro x p hx
        rw [l2.length, List.length_append]
        rcases hptr hx with ⟨h1, rfl⟩ | h1
        · have := List.idxOf_lt_length_of_mem h1
          simp only [freshNodes, List.length_map]
          omega
        · have := hH.owned.lt h1
          omega
      · intro x y p hx hy
        rcases hptr hx with ⟨h1, e1⟩ | h1 <;> rcases hptr hy with ⟨h2, e2⟩ | h2
        · exact hplace.inj x h1 y h2 (by rw [← e1, ← e2])
        · have := hH.owned.lt h2
          omega
        · have := hH.owned.lt h1
          omega
        · exact hH.owned.inj h1 h2
      · exact eq_flat_of_at l2.tree (by rw [derefTree_length, List.length_set, s2, b2, hlen])
      · rw [l2.length, List.length_append]; omega
      · rw [l2.same p fun x _ e => by omega, List.getElem?_append_left hp]
    · rw [if_neg he]
      refine ⟨by simp, fun _ a ha => ?_⟩
      rw [hend, l1] at ha
      obtain ⟨_, h0, h1⟩ := Res.bind_ok_iff.1 ha
      cases h0
      obtain ⟨_, h1, _⟩ := Res.bind_ok_iff.1 h1
      rw [Res.guardErr_ok_iff] at h1
      exact he (by rw [← hph]; simpa using h1)

end Mls
