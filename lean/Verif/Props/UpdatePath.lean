import Verif.Proofs.UpdatePath
import Verif.Proofs.TreePoint
import Verif.Spec.ToyGroup
/-
C31: what merging an update path does to a ratchet tree.
-/
namespace Mls

open Spec (Ratchet ITree IsAncestor nodeAt)

theorem pathStep_some {H : Bytes → Bytes} {keys : List Bytes} {prev : Bytes} {sib : Option Bytes}
    {q : ParentNode × List Bytes × Bytes} (h : Spec.pathStep H keys prev sib = some q) :
    ∃ k sh x, keys = k :: q.2.1 ∧ q.1 = { encryptionKey := k, parentHash := prev, unmergedLeaves := [] } ∧ sib = some sh ∧
      Spec.parentHashInput q.1 sh = some x ∧ q.2.2 = H x := by
  unfold Spec.pathStep at h
  cases keys with
  | nil => cases h
  | cons k ks =>
    simp only [Option.bind_eq_bind, Option.bind_eq_some_iff, Option.pure_def, Option.some.injEq] at h
    obtain ⟨sh, h1, x, h2, rfl⟩ := h
    exact ⟨k, sh, x, rfl, rfl, h1, h2, rfl⟩

/-- The cases of a merge at a parent node: the subtree on the path, the one off the path, and the new node. -/
theorem merge_node {H : Bytes → Bytes} {new : LeafNode} {d : Nat} {p : Option ParentNode} {l r : Ratchet ParentNode d}
    {i0 i : Nat} {keys : List Bytes} {prev : Bytes} {a : Ratchet ParentNode (d + 1) × Bytes}
    (h : (Ratchet.node p l r).merge H new i0 i keys prev = some a) :
    ∃ o ks pv c, (if i < 2 ^ d then l.merge H new i0 i ks pv = some (c, a.2) ∧ a.1 = .node o c r
        else r.merge H new (i0 + 2 ^ d) (i - 2 ^ d) ks pv = some (c, a.2) ∧ a.1 = .node o l c) ∧
      (((if i < 2 ^ d then r else l).resolution 0 = [] ∧ o = none ∧ ks = keys ∧ pv = prev) ∨
        ((if i < 2 ^ d then r else l).resolution 0 ≠ [] ∧ ∃ k sh x,
          keys = k :: ks ∧ o = some { encryptionKey := k, parentHash := prev, unmergedLeaves := [] } ∧
          (if i < 2 ^ d then r.treeHash H (i0 + 2 ^ d) else l.treeHash H i0) = some sh ∧
          Spec.parentHashInput { encryptionKey := k, parentHash := prev, unmergedLeaves := [] } sh = some x ∧ pv = H x)) := by
  rw [Ratchet.merge] at h
  by_cases hi : i < 2 ^ d
  · simp only [if_pos hi] at h ⊢
    by_cases hr : r.resolution 0 = []
    · rw [if_pos hr, Option.map_eq_some_iff] at h
      obtain ⟨⟨c, ph⟩, h, rfl⟩ := h
      exact ⟨none, keys, prev, c, ⟨h, rfl⟩, .inl ⟨hr, rfl, rfl, rfl⟩⟩
    · rw [if_neg hr, Option.bind_eq_some_iff] at h
      obtain ⟨⟨q, ks, pv⟩, hq, h⟩ := h
      rw [Option.map_eq_some_iff] at h
      obtain ⟨⟨c, ph⟩, h, rfl⟩ := h
      obtain ⟨k, sh, x, h1, h2, h3, h4, h5⟩ := pathStep_some hq
      exact ⟨some q, ks, pv, c, ⟨h, rfl⟩, .inr ⟨hr, k, sh, x, h1, congrArg some h2, h3, by rw [← h2]; exact h4, h5⟩⟩
  · simp only [if_neg hi] at h ⊢
    by_cases hr : l.resolution 0 = []
    · rw [if_pos hr, Option.map_eq_some_iff] at h
      obtain ⟨⟨c, ph⟩, h, rfl⟩ := h
      exact ⟨none, keys, prev, c, ⟨h, rfl⟩, .inl ⟨hr, rfl, rfl, rfl⟩⟩
    · rw [if_neg hr, Option.bind_eq_some_iff] at h
      obtain ⟨⟨q, ks, pv⟩, hq, h⟩ := h
      rw [Option.map_eq_some_iff] at h
      obtain ⟨⟨c, ph⟩, h, rfl⟩ := h
      obtain ⟨k, sh, x, h1, h2, h3, h4, h5⟩ := pathStep_some hq
      exact ⟨some q, ks, pv, c, ⟨h, rfl⟩, .inr ⟨hr, k, sh, x, h1, congrArg some h2, h3, by rw [← h2]; exact h4, h5⟩⟩

/-- A merge leaves the filtered direct path as it is. -/
theorem merge_filteredPath {H : Bytes → Bytes} {new : LeafNode} {k : Nat} {s : Ratchet ParentNode k} {i0 i : Nat}
    {keys : List Bytes} {prev : Bytes} {a : Ratchet ParentNode k × Bytes} (h : s.merge H new i0 i keys prev = some a)
    (off : Nat) : a.1.filteredPath off i = s.filteredPath off i := by
  induction s generalizing i0 i keys prev off with
  | leaf n =>
    rw [Ratchet.merge] at h
    by_cases hk : keys = []
    · rw [if_pos hk] at h
      cases h
      rfl
    · rw [if_neg hk] at h; cases h
  | @node d p l r ihl ihr =>
    obtain ⟨o, ks, pv, c, hc, _⟩ := merge_node h
    by_cases hi : i < 2 ^ d
    · rw [if_pos hi] at hc
      rw [hc.2, Ratchet.filteredPath, Ratchet.filteredPath, if_pos hi, if_pos hi, ← ihl hc.1]
    · rw [if_neg hi] at hc
      rw [hc.2, Ratchet.filteredPath, Ratchet.filteredPath, if_neg hi, if_neg hi, ← ihr hc.1]

/-- The only node in the resolution of a subtree on the path is the topmost new node. -/
theorem merge_top {H : Bytes → Bytes} {new : LeafNode} {k j i0 i : Nat} {s : Ratchet ParentNode k} {keys : List Bytes} {prev : Bytes}
    {a : Ratchet ParentNode k × Bytes} (h : s.merge H new i0 i keys prev = some a) {t : VTree} (ht : VAt t j a.1)
    (hph : Spec.parentHashOf (.leaf new) = a.2) :
    ∃ y n, a.1.resolution (j * 2 ^ (k + 1)) = [y] ∧ nodeAt t y = some n ∧ Spec.parentHashOf n = prev := by
  induction s generalizing j i0 i keys prev with
  | leaf n =>
    rw [Ratchet.merge] at h
    by_cases hk : keys = []
    · rw [if_pos hk] at h
      cases h
      refine ⟨j * 2, .leaf new, rfl, ?_, hph⟩
      have : t[idx 0 j]? = _ := ht
      rw [idx_zero, Nat.mul_comm] at this
      exact nodeAt_eq this
    · rw [if_neg hk] at h; cases h
  | @node d p l r ihl ihr =>
    obtain ⟨o, ks, pv, c, h1, h2⟩ := merge_node h
    obtain ⟨s', ph⟩ := a
    dsimp only at h1 ht hph ⊢
    by_cases hi : i < 2 ^ d
    · simp only [if_pos hi] at h1 h2
      obtain ⟨h1, rfl⟩ := h1
      rcases h2 with ⟨h2, rfl, rfl, rfl⟩ | ⟨h2, ky, sh, x, rfl, rfl, _⟩
      · obtain ⟨y, n, e1, e2, e3⟩ := ihl h1 ht.2.1 hph
        refine ⟨y, n, ?_, e2, e3⟩
        rw [Ratchet.resolution, ← off_succ_left, e1, (resolution_nil r _).2 ((resolution_nil r 0).1 h2), List.append_nil]
      · refine ⟨_, .parent { encryptionKey := ky, parentHash := prev, unmergedLeaves := [] }, rfl, nodeAt_eq (o := some _) ?_, rfl⟩
        rw [← idx_off]
        exact ht.1
    · simp only [if_neg hi] at h1 h2
      obtain ⟨h1, rfl⟩ := h1
      rcases h2 with ⟨h2, rfl, rfl, rfl⟩ | ⟨h2, ky, sh, x, rfl, rfl, _⟩
      · obtain ⟨y, n, e1, e2, e3⟩ := ihr h1 ht.2.2 hph
        refine ⟨y, n, ?_, e2, e3⟩
        rw [Ratchet.resolution, ← off_succ_right, e1, (resolution_nil l _).2 ((resolution_nil l 0).1 h2), List.nil_append]
      · refine ⟨_, .parent { encryptionKey := ky, parentHash := prev, unmergedLeaves := [] }, rfl, nodeAt_eq (o := some _) ?_, rfl⟩
        rw [← idx_off]
        exact ht.1

theorem merge_chained {H : Bytes → Bytes} {new : LeafNode} {k j i0 i : Nat} {s : Ratchet ParentNode k} {keys : List Bytes} {prev : Bytes}
    {a : Ratchet ParentNode k × Bytes} (h : s.merge H new i0 i keys prev = some a) {t : VTree} (ht : VAt t j a.1)
    (hph : Spec.parentHashOf (.leaf new) = a.2) : a.1.PathChained H t (j * 2 ^ (k + 1)) i0 i := by
  induction s generalizing j i0 i keys prev with
  | leaf n =>
    rw [Ratchet.merge] at h
    by_cases hk : keys = []
    · rw [if_pos hk] at h
      cases h
      trivial
    · rw [if_neg hk] at h; cases h
  | @node d p l r ihl ihr =>
    obtain ⟨o, ks, pv, c, h1, h2⟩ := merge_node h
    obtain ⟨s', ph⟩ := a
    dsimp only at h1 ht hph ⊢
    by_cases hi : i < 2 ^ d
    · simp only [if_pos hi] at h1 h2
      obtain ⟨h1, rfl⟩ := h1
      rw [Ratchet.PathChained, if_pos hi, ← off_succ_left]
      refine ⟨?_, ihl h1 ht.2.1 hph⟩
      rintro q rfl
      rcases h2 with ⟨_, h2, _⟩ | ⟨h2, ky, sh, x, rfl, e, h3, h4, rfl⟩
      · cases h2
      · obtain rfl := Option.some.inj e
        obtain ⟨y, n, e1, e2, e3⟩ := merge_top h1 ht.2.1 hph
        exact ⟨sh, x, y, n, h3, h4, e1, e2, e3⟩
    · simp only [if_neg hi] at h1 h2
      obtain ⟨h1, rfl⟩ := h1
      rw [Ratchet.PathChained, if_neg hi, ← off_succ_right]
      refine ⟨?_, ihr h1 ht.2.2 hph⟩
      rintro q rfl
      rcases h2 with ⟨_, h2, _⟩ | ⟨h2, ky, sh, x, rfl, e, h3, h4, rfl⟩
      · cases h2
      · obtain rfl := Option.some.inj e
        obtain ⟨y, n, e1, e2, e3⟩ := merge_top h1 ht.2.2 hph
        exact ⟨sh, x, y, n, h3, h4, e1, e2, e3⟩

/-- The nodes after a merge. -/
theorem merge_nodes {H : Bytes → Bytes} {new : LeafNode} {k j i0 i : Nat} {s : Ratchet ParentNode k} {keys : List Bytes} {prev : Bytes}
    {a : Ratchet ParentNode k × Bytes} (hj : i / 2 ^ k = j) (h : s.merge H new i0 (i - j * 2 ^ k) keys prev = some a)
    {t t' : VTree} (ht : VAt t j s) (ht' : VAt t' j a.1) :
    t'[idx 0 i]? = some (some (.leaf new)) ∧
    (∀ m y, Below k j m y → y ≠ i / 2 ^ m → t'[idx m y]? = t[idx m y]?) ∧
    (∀ (e x : Nat) (ky : Bytes), (s.filteredPath (j * 2 ^ (k + 1)) (i - j * 2 ^ k)).reverse[e]? = some x → keys[e]? = some ky →
      ∃ ph, t'[x]? = some (some (.parent { encryptionKey := ky, parentHash := ph, unmergedLeaves := [] })) ∧ (e = 0 → ph = prev)) ∧
    ∀ m, 0 < m → m ≤ k → idx m (i / 2 ^ m) ∉ s.filteredPath (j * 2 ^ (k + 1)) (i - j * 2 ^ k) →
      t'[idx m (i / 2 ^ m)]? = some none := by
  induction s generalizing j i0 keys prev with
  | leaf n =>
    rw [Ratchet.merge] at h
    by_cases hk : keys = []
    · rw [if_pos hk] at h
      cases h
      rw [Nat.pow_zero, Nat.div_one] at hj
      subst hj
      refine ⟨ht', fun m y hb hy => ?_, by simp [Ratchet.filteredPath], fun m h1 h2 => by omega⟩
      obtain ⟨h1, h2⟩ := hb
      obtain rfl : m = 0 := by omega
      simp at h2 hy
      exact absurd h2 hy
    · rw [if_neg hk] at h; cases h
  | @node d p l r ihl ihr =>
    obtain ⟨o, ks, pv, c, h1, h2⟩ := merge_node h
    obtain ⟨s', ph⟩ := a
    dsimp only at h1 ht' ⊢
    have hrootm : ∀ m y, m = d + 1 → Below (d + 1) j m y → y = j := by
      rintro m y rfl hb
      have := hb.2
      simpa using this
    rcases path_split hj with ⟨e1, e2, e3⟩ | ⟨e1, e2, e3⟩
    · simp only [if_pos e2] at h1 h2
      obtain ⟨h1, rfl⟩ := h1
      rw [e3] at h1
      obtain ⟨f1, f2, f3, f4⟩ := ihl e1 h1 ht.2.1 ht'.2.1
      rw [Ratchet.filteredPath, if_pos e2, e3]
      rw [off_succ_left] at f3 f4
      refine ⟨f1, fun m y hb hy => ?_, ?_, ?_⟩
      · rcases hb.cases with ⟨rfl, rfl⟩ | hb | hb
        · exact absurd hj.symm hy
        · exact f2 m y hb hy
        · exact (ht'.2.2.unique ht.2.2 hb)
      · intro e x ky hx hky
        rcases h2 with ⟨h2, rfl, rfl, rfl⟩ | ⟨h2, k0, sh, z, rfl, rfl, h3, h4, rfl⟩
        · rw [if_pos ((resolution_nil r _).2 ((resolution_nil r 0).1 h2)), List.append_nil] at hx
          exact f3 e x ky hx hky
        · rw [if_neg fun hh => h2 ((resolution_nil r 0).2 ((resolution_nil r _).1 hh)), List.reverse_append] at hx
          cases e with
          | zero =>
            simp only [List.reverse_cons, List.reverse_nil, List.nil_append, List.cons_append, List.getElem?_cons_zero,
              Option.some.injEq] at hx hky
            subst hx hky
            refine ⟨prev, ?_, fun _ => rfl⟩
            rw [← idx_off]
            exact ht'.1
          | succ e =>
            obtain ⟨ph', g1, _⟩ := f3 e x ky (by simpa using hx) (by simpa using hky)
            exact ⟨ph', g1, fun hh => by omega⟩
      · intro m m1 m2 hx
        rw [List.mem_append, not_or] at hx
        rcases Nat.lt_or_ge m (d + 1) with hm | hm
        · exact f4 m m1 (by omega) hx.1
        · obtain rfl : m = d + 1 := by omega
          rw [hj] at hx ⊢
          rcases h2 with ⟨h2, rfl, rfl, rfl⟩ | ⟨h2, k0, sh, z, rfl, rfl, h3, h4, rfl⟩
          · exact ht'.1
          · rw [if_neg fun hh => h2 ((resolution_nil r 0).2 ((resolution_nil r _).1 hh)), ← idx_off] at hx
            exact absurd (List.mem_singleton.2 rfl) hx.2
    · simp only [if_neg e2] at h1 h2
      obtain ⟨h1, rfl⟩ := h1
      rw [e3] at h1
      obtain ⟨f1, f2, f3, f4⟩ := ihr e1 h1 ht.2.2 ht'.2.2
      rw [Ratchet.filteredPath, if_neg e2, e3]
      rw [off_succ_right] at f3 f4
      refine ⟨f1, fun m y hb hy => ?_, ?_, ?_⟩
      · rcases hb.cases with ⟨rfl, rfl⟩ | hb | hb
        · exact absurd hj.symm hy
        · exact (ht'.2.1.unique ht.2.1 hb)
        · exact f2 m y hb hy
      · intro e x ky hx hky
        rcases h2 with ⟨h2, rfl, rfl, rfl⟩ | ⟨h2, k0, sh, z, rfl, rfl, h3, h4, rfl⟩
        · rw [if_pos ((resolution_nil l _).2 ((resolution_nil l 0).1 h2)), List.append_nil] at hx
          exact f3 e x ky hx hky
        · rw [if_neg fun hh => h2 ((resolution_nil l 0).2 ((resolution_nil l _).1 hh)), List.reverse_append] at hx
          cases e with
          | zero =>
            simp only [List.reverse_cons, List.reverse_nil, List.nil_append, List.cons_append, List.getElem?_cons_zero,
              Option.some.injEq] at hx hky
            subst hx hky
            refine ⟨prev, ?_, fun _ => rfl⟩
            rw [← idx_off]
            exact ht'.1
          | succ e =>
            obtain ⟨ph', g1, _⟩ := f3 e x ky (by simpa using hx) (by simpa using hky)
            exact ⟨ph', g1, fun hh => by omega⟩
      · intro m m1 m2 hx
        rw [List.mem_append, not_or] at hx
        rcases Nat.lt_or_ge m (d + 1) with hm | hm
        · exact f4 m m1 (by omega) hx.1
        · obtain rfl : m = d + 1 := by omega
          rw [hj] at hx ⊢
          rcases h2 with ⟨h2, rfl, rfl, rfl⟩ | ⟨h2, k0, sh, z, rfl, rfl, h3, h4, rfl⟩
          · exact ht'.1
          · rw [if_neg fun hh => h2 ((resolution_nil l 0).2 ((resolution_nil l _).1 hh)), ← idx_off] at hx
            exact absurd (List.mem_singleton.2 rfl) hx.2

/-- A path is accepted exactly when it has a public key for each node of the filtered direct path and its leaf node
closes the chain of parent hashes, and then the tree is that of the specification. The nodes allocated before
are unchanged, so no other tree is affected. -/
theorem C31_refines {pr : Prims} (hc : pr.Correct) {cs : UInt16} {sd : SuiteDesc} (hsd : suite cs = .ok sd) {d i : Nat}
    (hd : d ≤ 31) (hi : i < 2 ^ d) {h : Heap} {t : RTree} {s : Ratchet ParentNode d} (ho : Owned h t)
    (hf : derefTree h t = s.flat .leaf .parent) (path : UpdatePath) :
    ((∃ a, mergeUpdatePath pr cs h t i path = .ok a) ↔ ∃ s', s.mergePath (pr.hash sd.hash) i path = some s') ∧
    ∀ s', s.mergePath (pr.hash sd.hash) i path = some s' → ∃ h' t', mergeUpdatePath pr cs h t i path = .ok (h', t') ∧
      Owned h' t' ∧ derefTree h' t' = s'.flat .leaf .parent ∧ ∀ p, p < h.length → h'[p]? = h[p]? := by
  obtain ⟨h1, h2⟩ := mergeUpdatePath_spec hc hsd hd hi ⟨ho, hf⟩ path
  refine ⟨⟨fun ⟨a, ha⟩ => ?_, fun ⟨s', hs⟩ => ?_⟩, fun s' hs => ?_⟩
  · cases hm : s.mergePath (pr.hash sd.hash) i path with
    | none => exact absurd ha (h2 hm a)
    | some s' => exact ⟨s', rfl⟩
  · obtain ⟨h', t', e, _⟩ := h1 s' hs
    exact ⟨_, e⟩
  · obtain ⟨h', t', e, e1, _, e2⟩ := h1 s' hs
    exact ⟨h', t', e, e1.owned, e1.flat, e2⟩

/-- **C31.** After a successful merge: the tree is still well formed and as long; the sender's leaf is the path's; the
nodes of the sender's filtered direct path hold the path's public keys, in order, without unmerged leaves; the other
ancestors of the sender are blank; all other nodes are unchanged; the topmost new node has no parent hash; and
every node of the filtered direct path, down to the leaf, carries the hash of the next one above. The filtered
direct path is the same as before. -/
theorem C31_merge {pr : Prims} (hc : pr.Correct) {cs : UInt16} {h : Heap} {t : RTree} (hv : ValidTree h t) {i : Nat}
    (hi : 2 * i < t.length) {path : UpdatePath} {h' : Heap} {t' : RTree}
    (hok : mergeUpdatePath pr cs h t i path = .ok (h', t')) (hsuite : ∃ sd, suite cs = .ok sd) :
    ∃ (d : Nat) (s s' : Ratchet ParentNode d) (sd : SuiteDesc), suite cs = .ok sd ∧
      derefTree h t = s.flat .leaf .parent ∧ derefTree h' t' = s'.flat .leaf .parent ∧ ValidTree h' t' ∧
      nodeAt (derefTree h' t') (2 * i) = some (.leaf path.leafNode) ∧
      (s.filteredPath 0 i).length = path.nodes.length ∧
      (∀ (e x : Nat) (n : UpdatePathNode), (s.filteredPath 0 i)[e]? = some x → path.nodes[e]? = some n →
        ∃ ph, nodeAt (derefTree h' t') x =
            some (.parent { encryptionKey := n.encryptionKey, parentHash := ph, unmergedLeaves := [] }) ∧
          (e + 1 = path.nodes.length → ph = [])) ∧
      (∀ x, IsAncestor d i x → x ∉ s.filteredPath 0 i → nodeAt (derefTree h' t') x = none) ∧
      (∀ x, x ≠ 2 * i → ¬ IsAncestor d i x → nodeAt (derefTree h' t') x = nodeAt (derefTree h t) x) ∧
      s'.PathChained (pr.hash sd.hash) (derefTree h' t') 0 0 i ∧ s'.filteredPath 0 i = s.filteredPath 0 i := by
  obtain ⟨sd, hsd⟩ := hsuite
  obtain ⟨d, hd, s, hH⟩ := hv.holds
  have hlen : t.length = 2 ^ (d + 1) - 1 := by rw [← derefTree_length h, hH.flat, flat_length]
  have hid : i < 2 ^ d := by rw [hlen, Nat.pow_succ] at hi; omega
  have h0 : i / 2 ^ d = 0 := Nat.div_eq_of_lt hid
  obtain ⟨h1, h2⟩ := mergeUpdatePath_spec hc hsd hd hid hH path
  cases hm : s.mergePath (pr.hash sd.hash) i path with
  | none => exact absurd hok (h2 hm _)
  | some s' =>
    obtain ⟨h'', t'', e, hH', _⟩ := h1 s' hm
    rw [hok] at e
    obtain ⟨rfl, rfl⟩ := Prod.mk.inj (Res.ok.inj e)
    unfold Ratchet.mergePath at hm
    cases hmm : s.merge (pr.hash sd.hash) path.leafNode 0 i (path.nodes.map fun n => n.encryptionKey).reverse [] with
    | none => rw [hmm] at hm; cases hm
    | some a =>
      obtain ⟨s'', ph⟩ := a
      rw [hmm] at hm
      dsimp only at hm
      by_cases hph : Spec.parentHashOf (.leaf path.leafNode) = ph
      · rw [if_pos hph] at hm
        obtain rfl := Option.some.inj hm
        have hat : VAt (derefTree h t) 0 s := by rw [hH.flat]; exact at_flat _ _ s
        have hat' : VAt (derefTree h' t') 0 s'' := by rw [hH'.flat]; exact at_flat _ _ s''
        have hll := merge_length (off := 0) hmm
        rw [List.length_reverse, List.length_map] at hll
        obtain ⟨n1, n2, n3, n4⟩ := merge_nodes (i := i) h0 (by rw [Nat.zero_mul, Nat.sub_zero]; exact hmm) hat hat'
        rw [Nat.zero_mul, Nat.zero_mul, Nat.sub_zero] at n3 n4
        have hch := merge_chained hmm hat' hph
        rw [Nat.zero_mul] at hch
        refine ⟨d, s, s'', sd, hsd, hH.flat, hH'.flat, hH'.valid hd, ?_, hll.symm, ?_, ?_, ?_, hch,
          merge_filteredPath hmm 0⟩
        · rw [idx_zero] at n1
          exact nodeAt_eq n1
        · intro e x n hx hn
          obtain ⟨hx', -⟩ := List.getElem?_eq_some_iff.1 hx
          obtain ⟨ph', g1, g2⟩ := n3 ((s.filteredPath 0 i).length - 1 - e) x n.encryptionKey
            (by rw [List.getElem?_reverse (by omega), show (s.filteredPath 0 i).length - 1 - ((s.filteredPath 0 i).length - 1 - e) = e from by omega]; exact hx)
            (by
              rw [List.getElem?_reverse (by simp; omega), List.length_map, hll,
                show (s.filteredPath 0 i).length - 1 - ((s.filteredPath 0 i).length - 1 - e) = e from by omega, List.getElem?_map, hn]
              rfl)
          exact ⟨ph', nodeAt_eq g1, fun he => g2 (by omega)⟩
        · intro x hx hx'
          obtain ⟨m, m1, m2, rfl⟩ := mem_path.1 ((isAncestor_iff hid).1 hx)
          exact nodeAt_eq (n4 m m1 m2 hx')
        · intro x hx hx'
          rcases Nat.lt_or_ge x (2 ^ (d + 1) - 1) with hl | hl
          · obtain ⟨m, y, hb, rfl⟩ := exists_below hl
            unfold nodeAt
            rw [n2 m y hb]
            rintro rfl
            rcases Nat.eq_zero_or_pos m with rfl | hm
            · apply hx
              rw [idx_zero, Nat.pow_zero, Nat.div_one]
            · exact hx' ((isAncestor_iff hid).2 (mem_path.2 ⟨m, hm, hb.1, rfl⟩))
          · unfold nodeAt
            have l1 : (derefTree h t).length ≤ x := by rw [derefTree_length, hlen]; exact hl
            have l2 : (derefTree h' t').length ≤ x := by rw [hH'.flat, flat_length]; exact hl
            rw [List.getElem?_eq_none l1, List.getElem?_eq_none l2]
      · rw [if_neg hph] at hm; cases hm

/-- Three members in a tree of four leaves, with a node above the first two and a root. -/
def toyTriple : Heap × RTree :=
  ([toyParent 7, { toyParent 8 with unmergedLeaves := [2] }],
    [some (.leaf (toyLeaf 0)), some (.parent 0), some (.leaf (toyLeaf 1)), some (.parent 1), some (.leaf (toyLeaf 2)), none, none])

/-- An update path of the third member. The resolution of its sibling is empty, so the path has a node for the root
only. -/
def toyTriplePath : UpdatePath :=
  let root : ParentNode := { encryptionKey := [77], parentHash := [], unmergedLeaves := [] }
  match computeTreeHash toyPrims 1 (derefTree toyTriple.1 toyTriple.2) 1 [] with
  | .ok sib =>
    match root.computeParentHash toyPrims 1 sib with
    | .ok ph => { leafNode := { toyLeaf 2 with encryptionKey := [66], source := .commit ph }, nodes := [⟨[77], []⟩] }
    | _ => default
  | _ => default

theorem toyTriple_valid : ValidTree toyTriple.1 toyTriple.2 := by
  have hp : ∀ {x p : Nat}, toyTriple.2[x]? = some (some (.parent p)) → x = 1 ∧ p = 0 ∨ x = 3 ∧ p = 1 := by
    intro x p h
    match x, h with
    | 0, h => simp [toyTriple] at h
    | 1, h => simp [toyTriple] at h; omega
    | 2, h => simp [toyTriple] at h
    | 3, h => simp [toyTriple] at h; omega
    | 4, h => simp [toyTriple] at h
    | 5, h => simp [toyTriple] at h
    | 6, h => simp [toyTriple] at h
    | x + 7, h => simp [toyTriple] at h
  refine ⟨⟨2, by decide, rfl⟩, fun {x l} h => ?_, fun {x p} h => ?_, fun {x p} h => ?_, fun {x y p} h h' => ?_⟩
  · match x, h with
    | 0, _ | 2, _ | 4, _ | 6, _ => rfl
    | 1, h | 3, h | 5, h => simp [toyTriple] at h
    | x + 7, h => simp [toyTriple] at h
  · rcases hp h with ⟨rfl, _⟩ | ⟨rfl, _⟩ <;> rfl
  · rcases hp h with ⟨_, rfl⟩ | ⟨_, rfl⟩ <;> decide
  · have := hp h
    have := hp h'
    omega

/-- The hypotheses of C31 are met by a path that replaces the root and leaves node 5 blank. -/
example : ∃ a, mergeUpdatePath toyPrims 1 toyTriple.1 toyTriple.2 2 toyTriplePath = .ok a ∧
    nodeAt (derefTree a.1 a.2) 3 = some (.parent ⟨[77], [], []⟩) ∧ nodeAt (derefTree a.1 a.2) 5 = none ∧
    nodeAt (derefTree a.1 a.2) 1 = some (.parent (toyParent 7)) := by
  have h : (match mergeUpdatePath toyPrims 1 toyTriple.1 toyTriple.2 2 toyTriplePath with
    | .ok a => decide (nodeAt (derefTree a.1 a.2) 3 = some (.parent ⟨[77], [], []⟩) ∧ nodeAt (derefTree a.1 a.2) 5 = none ∧
        nodeAt (derefTree a.1 a.2) 1 = some (.parent (toyParent 7)))
    | _ => false) = true := by decide +kernel
  cases hm : mergeUpdatePath toyPrims 1 toyTriple.1 toyTriple.2 2 toyTriplePath with
  | ok a => rw [hm] at h; exact ⟨a, rfl, by simpa using h⟩
  | _ => rw [hm] at h; cases h

/-- One without the key, or with another parent hash in its leaf, is refused. -/
example : mergeUpdatePath toyPrims 1 toyTriple.1 toyTriple.2 2 { toyTriplePath with nodes := [] } = .err ∧
    mergeUpdatePath toyPrims 1 toyTriple.1 toyTriple.2 2 { toyTriplePath with leafNode := toyLeaf 2 } = .err := by decide +kernel

end Mls
