import Verif.Spec.Integrity
import Verif.Proofs.TreeRead
import Verif.Proofs.TreePoint
import Verif.Proofs.Sign
/-
verifyIntegrity against Verif/Spec/Integrity.lean.
-/
namespace Mls

open Spec (Ratchet ITree nodeAt)

/-- What is asked of the member at leaf index `i` alone (RFC 9420 section 7.3): a signature for its own
place, a lifetime covering the present, and extensions that it supports. -/
structure Spec.LeafValid (pr : Prims) (ctx : GroupContext) (now : GoTime) (i : Nat) (l : LeafNode) : Prop where
  signature : ∃ tbs, (Spec.Rfc.leafNodeTBS l ctx.groupID (UInt32.ofNat i).toNat).bytes = some tbs ∧
    Spec.ValidSig pr ctx.cipherSuite l.signatureKey "LeafNodeTBS" tbs l.signature
  lifetime : ∀ lt, l.source = .keyPackage lt → now.isZero = true ∨ lt.verify now = true
  extensions : ∀ e ∈ l.extensions, e.ty ∈ l.capabilities.extensions

/-- What a joiner checks of the tree `s` stored in the array `t`, in the group context `ctx`; `H` is the
hash function of the cipher suite. -/
structure Spec.TreeValid (pr : Prims) (H : Bytes → Bytes) (ctx : GroupContext) (now : GoTime) (t : VTree) {d : Nat}
    (s : Ratchet ParentNode d) : Prop where
  array : t = s.flat .leaf .parent
  treeHash : s.treeHash H 0 = some ctx.treeHash
  parentHashes : s.ParentHashValid H t 0 0
  leaves : ∀ i l, i < 2 ^ d → nodeAt t (2 * i) = some (.leaf l) → Spec.LeafValid pr ctx now i l
  credentials : ∀ l, some l ∈ s.leaves →
    ((s.leaves.filterMap id).flatMap fun m => m.capabilities.credentials).count l.credential.ty =
      (s.leaves.filterMap id).length
  signatureKeys : ∀ i j l m, i < 2 ^ d → j < 2 ^ d → i ≠ j → nodeAt t (2 * i) = some (.leaf l) →
    nodeAt t (2 * j) = some (.leaf m) → l.signatureKey ≠ m.signatureKey
  encryptionKeys : ∀ x y n m, x ≠ y → nodeAt t x = some n → nodeAt t y = some m → Spec.keyOf n ≠ Spec.keyOf m
  unmerged : ∀ x p, nodeAt t x = some (.parent p) → Spec.UnmergedValid t d x p.unmergedLeaves

theorem nodeAt_eq {t : VTree} {x : Nat} {o : Option Node} (h : t[x]? = some o) : nodeAt t x = o := by
  unfold nodeAt
  rw [h]
  rfl

theorem nodeAt_some {t : VTree} {x : Nat} {n : Node} : nodeAt t x = some n ↔ t[x]? = some (some n) := by
  unfold nodeAt
  cases h : t[x]? with
  | none => simp
  | some o => simp

/-! ### A tree hash exists only for arrays of the right shape -/

theorem tree_of_hashLoop {pr : Prims} {cs : UInt16} {t : VTree} (hlen : t.length < 2 ^ 32) {k j fuel : Nat} {x : Bytes}
    (hk : k ≤ 31) (hj : idx k j < 2 ^ 32)
    (h : computeTreeHashLoop pr cs t [] fuel (idx k j) = .ok x) : ∃ s : Ratchet ParentNode k, VAt t j s := by
  induction k generalizing j fuel x with
  | zero =>
    cases fuel with
    | zero => cases h
    | succ fuel =>
      rw [computeTreeHashLoop] at h
      simp only [leafOfNode_idx_zero, Res.bind_ok_iff] at h
      obtain ⟨n, hn, _, ⟨l, hl, _⟩, _⟩ := h
      rw [Res.idx_ok_iff] at hn
      cases n with
      | none => exact ⟨.leaf none, hn⟩
      | some n =>
        cases n with
        | leaf l => exact ⟨.leaf (some l), hn⟩
        | parent p => simp [hashedLeaf] at hl
  | succ k ih =>
    cases fuel with
    | zero => cases h
    | succ fuel =>
      have hc := children_idx_succ (k := k) (j := j) (by omega) hj
      rw [computeTreeHashLoop] at h
      simp only [leafOfNode_idx_succ, hc, Res.bind_ok_iff] at h
      obtain ⟨n, hn, _, ⟨lh, h1, rh, h2, p, hp, _⟩, _⟩ := h
      rw [Res.idx_ok_iff] at hn
      have hil : idx k (2 * j) < 2 ^ 32 := Nat.lt_trans idx_child_left_lt hj
      have hir : idx k (2 * j + 1) < 2 ^ 32 := by
        by_contra hge
        have hx := h2
        cases fuel with
        | zero => cases hx
        | succ fuel =>
          rw [computeTreeHashLoop, Res.bind_ok_iff] at hx
          obtain ⟨_, hx, _⟩ := hx
          rw [Res.idx_ok_iff] at hx
          have := (List.getElem?_eq_some_iff.1 hx).1
          omega
      obtain ⟨sl, hl⟩ := ih (by omega) hil h1
      obtain ⟨sr, hr⟩ := ih (by omega) hir h2
      cases n with
      | none => exact ⟨.node none sl sr, hn, hl, hr⟩
      | some n =>
        cases n with
        | leaf l => simp [hashedParent] at hp
        | parent p => exact ⟨.node (some p) sl sr, hn, hl, hr⟩

theorem tree_of_rootHash {pr : Prims} {cs : UInt16} {t : VTree} {d : Nat} (hd : d ≤ 31)
    (hl : t.length = 2 ^ (d + 1) - 1) {x : Bytes} (h : computeRootTreeHash pr cs t = .ok x) :
    ∃ s : Ratchet ParentNode d, t = s.flat .leaf .parent := by
  unfold computeRootTreeHash computeTreeHash at h
  rw [numLeaves_pow hd hl, root_idx hd] at h
  have hlt := pow_tree_lt hd
  have hi : idx d 0 < 2 ^ 32 := by
    unfold idx
    have : 2 ^ d ≤ 2 ^ 31 := Nat.pow_le_pow_right (by decide) hd
    omega
  obtain ⟨s, hs⟩ := tree_of_hashLoop (by omega) hd hi h
  exact ⟨s, eq_flat_of_at hs hl⟩

/-! ### Parent hashes -/

theorem writeOpaqueVec_spec {b x : Bytes} : writeOpaqueVec b = .ok x ↔ Spec.opaqueVec b = some x := by
  rw [writeOpaqueVec_eq_spec]
  cases Spec.opaqueVec b <;> simp

theorem computeParentHash_iff {pr : Prims} {cs : UInt16} {d : SuiteDesc} (hd : suite cs = .ok d) {p : ParentNode}
    {sh x : Bytes} : p.computeParentHash pr cs sh = .ok x ↔
      ∃ i, Spec.parentHashInput p sh = some i ∧ pr.hash d.hash i = x := by
  unfold ParentNode.computeParentHash encParentHashInput Spec.parentHashInput
  simp only [hd, Res.ok_bind, Res.bind_ok_iff, Enc.append_ok_iff, Res.pure_eq, Res.ok.injEq, Option.bind_eq_bind,
    Option.bind_eq_some_iff, Option.pure_def, Option.some.injEq, writeOpaqueVec_spec]
  constructor
  · rintro ⟨_, ⟨_, c, ⟨a, b, ha, hb, rfl⟩, hc, rfl⟩, rfl⟩
    exact ⟨_, ⟨a, ha, b, hb, c, hc, rfl⟩, rfl⟩
  · rintro ⟨_, ⟨a, ha, b, hb, c, hc, rfl⟩, rfl⟩
    exact ⟨_, ⟨_, c, ⟨a, b, ha, hb, rfl⟩, hc, rfl⟩, rfl⟩

theorem findParentHash_ok {t : VTree} {ph : Bytes} {xs : List Nat} {b : Bool} (h : findParentHash t ph xs = .ok b) :
    b = true ↔ Spec.HashIn t xs ph := by
  induction xs with
  | nil =>
    cases h
    simp [Spec.HashIn]
  | cons x xs ih =>
    rw [findParentHash, Res.bind_ok_iff] at h
    obtain ⟨n, hn, h⟩ := h
    rw [Res.idx_ok_iff] at hn
    have hcons : Spec.HashIn t (x :: xs) ph ↔ (∃ n, nodeAt t x = some n ∧ Spec.parentHashOf n = ph) ∨ Spec.HashIn t xs ph := by
      simp [Spec.HashIn]
    rw [hcons, nodeAt_eq hn]
    cases n with
    | none =>
      rw [ih h]
      simp
    | some n =>
      have h' : (if Spec.parentHashOf n = ph then pure true else findParentHash t ph xs) = Res.ok b := by
        cases n <;> exact h
      by_cases he : Spec.parentHashOf n = ph
      · rw [if_pos he] at h'
        cases h'
        simp [he]
      · rw [if_neg he] at h'
        rw [ih h']
        simp [he]

theorem findParentHash_total {t : VTree} {ph : Bytes} {xs : List Nat} (h : ∀ x ∈ xs, x < t.length) :
    ∃ b, findParentHash t ph xs = .ok b := by
  induction xs with
  | nil => exact ⟨false, rfl⟩
  | cons x xs ih =>
    obtain ⟨b, hb⟩ := ih fun y hy => h y (List.mem_cons_of_mem _ hy)
    have hx := h x (List.mem_cons_self ..)
    rw [findParentHash, (Res.idx_ok_iff.2 (List.getElem?_eq_getElem hx) : Res.idx t x = .ok _)]
    simp only [Res.ok_bind]
    cases t[x] with
    | none => exact ⟨b, hb⟩
    | some n =>
      have : ∃ b, (if Spec.parentHashOf n = ph then pure true else findParentHash t ph xs) = Res.ok b := by
        by_cases he : Spec.parentHashOf n = ph
        · exact ⟨true, by rw [if_pos he]; rfl⟩
        · exact ⟨b, by rw [if_neg he]; exact hb⟩
      cases n <;> exact this

/-- The test of verifyParentHashes at one node. -/
def LinkOk (pr : Prims) (cs : UInt16) (t : VTree) (x : Nat) (n : Node) : Prop :=
  match children (x % 2 ^ 32) with
  | none => True
  | some (l, r) =>
    match n with
    | .leaf _ => False
    | .parent p => ∃ lh rh lp rp resL a resR b,
      computeTreeHash pr cs t l p.unmergedLeaves = .ok lh ∧ computeTreeHash pr cs t r p.unmergedLeaves = .ok rh ∧
      p.computeParentHash pr cs rh = .ok lp ∧ p.computeParentHash pr cs lh = .ok rp ∧
      resolve t l = .ok resL ∧ findParentHash t lp resL = .ok a ∧
      resolve t r = .ok resR ∧ findParentHash t rp resR = .ok b ∧ a ≠ b

theorem verifyParentHashesLoop_iff {pr : Prims} {cs : UInt16} {t : VTree} {i : Nat} {ns : List (Option Node)} :
    verifyParentHashesLoop pr cs t i ns = .ok true ↔
      ∀ (m : Nat) n, ns[m]? = some (some n) → LinkOk pr cs t (i + m) n := by
  induction ns generalizing i with
  | nil => simp [verifyParentHashesLoop]
  | cons o ns ih =>
    have hshift : (∀ (m : Nat) n, ns[m]? = some (some n) → LinkOk pr cs t (i + 1 + m) n) ↔
        ∀ (m : Nat) n, (o :: ns)[m + 1]? = some (some n) → LinkOk pr cs t (i + (m + 1)) n := by
      simp only [List.getElem?_cons_succ, Nat.add_assoc, Nat.add_comm 1]
    have hall : (∀ (m : Nat) n, (o :: ns)[m]? = some (some n) → LinkOk pr cs t (i + m) n) ↔
        (∀ n, o = some n → LinkOk pr cs t i n) ∧ ∀ (m : Nat) n, ns[m]? = some (some n) → LinkOk pr cs t (i + 1 + m) n := by
      rw [hshift]
      constructor
      · intro h
        exact ⟨fun n hn => h 0 n (by simp [hn]), fun m n hm => h (m + 1) n hm⟩
      · rintro ⟨h0, h⟩ m n hm
        cases m with
        | zero => exact h0 n (by simpa using hm)
        | succ m => exact h m n hm
    rw [hall, ← ih]
    cases o with
    | none => simp [verifyParentHashesLoop]
    | some n =>
      simp only [Option.some.injEq, forall_eq']
      unfold LinkOk
      rw [verifyParentHashesLoop.eq_def]
      dsimp only
      cases hc : children (i % 2 ^ 32) with
      | none => simp
      | some lr =>
        obtain ⟨l, r⟩ := lr
        cases n with
        | leaf l => simp
        | parent p =>
          simp only [orFalse_ok_true, Res.bind_ok_iff]
          constructor
          · rintro ⟨lh, h1, rh, h2, lp, h3, rp, h4, resL, h5, a, h6, resR, h7, b, h8, h9⟩
            split at h9
            · cases h9
            · next hne => exact ⟨⟨lh, rh, lp, rp, resL, a, resR, b, h1, h2, h3, h4, h5, h6, h7, h8, by simpa using hne⟩, h9⟩
          · rintro ⟨⟨lh, rh, lp, rp, resL, a, resR, b, h1, h2, h3, h4, h5, h6, h7, h8, h9⟩, h10⟩
            exact ⟨lh, h1, rh, h2, lp, h3, rp, h4, resL, h5, a, h6, resR, h7, b, h8, by rw [if_neg (by simpa using h9)]; exact h10⟩

theorem linkOk_leaf {pr : Prims} {cs : UInt16} {t : VTree} {j : Nat} (hj : idx 0 j < 2 ^ 32) (n : Node) :
    LinkOk pr cs t (idx 0 j) n := by
  unfold LinkOk
  rw [Nat.mod_eq_of_lt hj, children_idx_zero]
  trivial

theorem linkOk_spec {pr : Prims} (hc : pr.Correct) {cs : UInt16} {sd : SuiteDesc} (hd : suite cs = .ok sd) {t : VTree}
    (hlen : t.length < 2 ^ 32) {k j : Nat} (hk : k + 1 ≤ 31) {p : ParentNode} {l r : Ratchet ParentNode k}
    (h : VAt t j (.node (some p) l r)) (hok : LinkOk pr cs t (idx (k + 1) j) (.parent p)) :
    Spec.ParentLink (pr.hash sd.hash) t (j * 2 ^ (k + 2)) (j * 2 ^ (k + 1)) p l r := by
  have hlt := at_root h
  have e1 : 2 * j * 2 ^ k = j * 2 ^ (k + 1) := by rw [Nat.pow_succ]; ring
  have e2 : (2 * j + 1) * 2 ^ k = j * 2 ^ (k + 1) + 2 ^ k := by rw [Nat.pow_succ]; ring
  unfold LinkOk at hok
  rw [Nat.mod_eq_of_lt (by omega), children_idx_succ (by omega) (by omega)] at hok
  dsimp only at hok
  obtain ⟨lh, rh, lp, rp, resL, a, resR, b, h1, h2, h3, h4, h5, h6, h7, h8, h9⟩ := hok
  rw [computeTreeHash_iff hc hd hlen _ h.2.1 (by omega), e1] at h1
  rw [computeTreeHash_iff hc hd hlen _ h.2.2 (by omega), e2] at h2
  rw [computeParentHash_iff hd] at h3 h4
  obtain ⟨li, h3, rfl⟩ := h3
  obtain ⟨ri, h4, rfl⟩ := h4
  rw [resolve_spec hlen h.2.1 (by omega), Res.ok.injEq, off_succ_left] at h5
  rw [resolve_spec hlen h.2.2 (by omega), Res.ok.injEq, off_succ_right] at h7
  subst h5 h7
  refine ⟨lh, rh, li, ri, h1, h2, h3, h4, ?_⟩
  rw [← findParentHash_ok h6, ← findParentHash_ok h8]
  cases a <;> cases b <;> simp at h9 ⊢

theorem linkOk_of_spec {pr : Prims} (hc : pr.Correct) {cs : UInt16} {sd : SuiteDesc} (hd : suite cs = .ok sd) {t : VTree}
    (hlen : t.length < 2 ^ 32) {k j : Nat} (hk : k + 1 ≤ 31) {p : ParentNode} {l r : Ratchet ParentNode k}
    (h : VAt t j (.node (some p) l r))
    (hl : ∀ x ∈ l.resolution (j * 2 ^ (k + 2)), x < t.length)
    (hr : ∀ x ∈ r.resolution (j * 2 ^ (k + 2) + 2 ^ (k + 1)), x < t.length)
    (hs : Spec.ParentLink (pr.hash sd.hash) t (j * 2 ^ (k + 2)) (j * 2 ^ (k + 1)) p l r) :
    LinkOk pr cs t (idx (k + 1) j) (.parent p) := by
  have hlt := at_root h
  have e1 : 2 * j * 2 ^ k = j * 2 ^ (k + 1) := by rw [Nat.pow_succ]; ring
  have e2 : (2 * j + 1) * 2 ^ k = j * 2 ^ (k + 1) + 2 ^ k := by rw [Nat.pow_succ]; ring
  obtain ⟨lh, rh, li, ri, h1, h2, h3, h4, h5⟩ := hs
  obtain ⟨a, ha⟩ := findParentHash_total (ph := pr.hash sd.hash li) hl
  obtain ⟨b, hb⟩ := findParentHash_total (ph := pr.hash sd.hash ri) hr
  unfold LinkOk
  rw [Nat.mod_eq_of_lt (by omega), children_idx_succ (by omega) (by omega)]
  refine ⟨lh, rh, _, _, _, a, _, b, (computeTreeHash_iff hc hd hlen _ h.2.1 (by omega) _).2 (by rw [e1]; exact h1),
    (computeTreeHash_iff hc hd hlen _ h.2.2 (by omega) _).2 (by rw [e2]; exact h2),
    (computeParentHash_iff hd).2 ⟨li, h3, rfl⟩, (computeParentHash_iff hd).2 ⟨ri, h4, rfl⟩,
    resolve_spec hlen h.2.1 (by omega), by rw [off_succ_left]; exact ha,
    resolve_spec hlen h.2.2 (by omega), by rw [off_succ_right]; exact hb, ?_⟩
  rw [← findParentHash_ok ha, ← findParentHash_ok hb] at h5
  cases a <;> cases b <;> simp at h5 ⊢

/-- Links everywhere below a node. -/
theorem parentHashValid_of {pr : Prims} (hc : pr.Correct) {cs : UInt16} {sd : SuiteDesc} (hd : suite cs = .ok sd)
    {t : VTree} (hlen : t.length < 2 ^ 32) {k j : Nat} (hk : k ≤ 31) {s : Ratchet ParentNode k} (h : VAt t j s)
    (hok : ∀ (x : Nat) n, t[x]? = some (some n) → LinkOk pr cs t x n) :
    s.ParentHashValid (pr.hash sd.hash) t (j * 2 ^ (k + 1)) (j * 2 ^ k) := by
  induction s generalizing j with
  | leaf n => trivial
  | @node k p l r ihl ihr =>
    have e1 : 2 * j * 2 ^ k = j * 2 ^ (k + 1) := by rw [Nat.pow_succ]; ring
    have e2 : (2 * j + 1) * 2 ^ k = j * 2 ^ (k + 1) + 2 ^ k := by rw [Nat.pow_succ]; ring
    refine ⟨?_, ?_, ?_⟩
    · rintro q rfl
      exact linkOk_spec hc hd hlen (by omega) h (hok _ _ h.1)
    · have := ihl (by omega) h.2.1
      rwa [off_succ_left, e1] at this
    · have := ihr (by omega) h.2.2
      rwa [off_succ_right, e2] at this

theorem resolution_in {t : VTree} {k j : Nat} {s : Ratchet ParentNode k} (h : VAt t j s)
    (hu : ∀ y p, nodeAt t y = some (.parent p) → ∀ li ∈ p.unmergedLeaves, Spec.leafNumber li < t.length) :
    ∀ x ∈ s.resolution (j * 2 ^ (k + 1)), x < t.length := by
  induction s generalizing j with
  | leaf n =>
    have hlt := at_root h
    cases n with
    | none => simp [Ratchet.resolution]
    | some l =>
      simp only [Ratchet.resolution, List.mem_singleton]
      rintro x rfl
      simpa [idx] using hlt
  | @node k p l r ihl ihr =>
    have hlt := at_root h
    cases p with
    | none =>
      simp only [Ratchet.resolution, List.mem_append]
      rintro x (hx | hx)
      · rw [← off_succ_left] at hx
        exact ihl h.2.1 x hx
      · rw [← off_succ_right] at hx
        exact ihr h.2.2 x hx
    | some p =>
      simp only [Ratchet.resolution, List.mem_cons, List.mem_map]
      rintro x (rfl | ⟨li, hli, rfl⟩)
      · rw [← idx_off]; exact hlt
      · exact hu _ p (nodeAt_eq h.1) li hli

theorem linkOk_of_valid {pr : Prims} (hc : pr.Correct) {cs : UInt16} {sd : SuiteDesc} (hd : suite cs = .ok sd)
    {t : VTree} (hlen : t.length < 2 ^ 32) {k j : Nat} (hk : k ≤ 31) {s : Ratchet ParentNode k} (h : VAt t j s)
    (hu : ∀ y p, nodeAt t y = some (.parent p) → ∀ li ∈ p.unmergedLeaves, Spec.leafNumber li < t.length)
    (hv : s.ParentHashValid (pr.hash sd.hash) t (j * 2 ^ (k + 1)) (j * 2 ^ k)) {m y : Nat} (hb : Below k j m y) {n : Node}
    (hn : t[idx m y]? = some (some n)) : LinkOk pr cs t (idx m y) n := by
  induction s generalizing j with
  | leaf o =>
    obtain ⟨h1, h2⟩ := hb
    obtain rfl : m = 0 := by omega
    have := (List.getElem?_eq_some_iff.1 hn).1
    exact linkOk_leaf (by omega) n
  | @node k p l r ihl ihr =>
    have e1 : 2 * j * 2 ^ k = j * 2 ^ (k + 1) := by rw [Nat.pow_succ]; ring
    have e2 : (2 * j + 1) * 2 ^ k = j * 2 ^ (k + 1) + 2 ^ k := by rw [Nat.pow_succ]; ring
    obtain ⟨v1, v2, v3⟩ := hv
    rcases hb.cases with ⟨rfl, rfl⟩ | hb | hb
    · have hp := h.1
      rw [hn] at hp
      cases p with
      | none => cases hp
      | some p =>
        cases hp
        refine linkOk_of_spec hc hd hlen (by omega) h ?_ ?_ (v1 p rfl)
        · have := resolution_in h.2.1 hu
          rwa [off_succ_left] at this
        · have := resolution_in h.2.2 hu
          rwa [off_succ_right] at this
    · exact ihl (by omega) h.2.1 (by rw [off_succ_left, e1]; exact v2) hb
    · exact ihr (by omega) h.2.2 (by rw [off_succ_right, e2]; exact v3) hb

/-! ### Leaves -/

theorem getLeaf_at {t : VTree} {d : Nat} {s : Ratchet ParentNode d} (hd : d ≤ 31) (ht : t = s.flat .leaf .parent)
    {i : Nat} (hi : i < 2 ^ d) :
    ∃ o, getLeaf t i = .ok o ∧ nodeAt t (2 * i) = o.map .leaf ∧ s.leaves[i]? = some o := by
  subst ht
  obtain ⟨n, hl, h'⟩ := at_leaf (at_flat Node.leaf Node.parent s) hi
  rw [Nat.zero_mul, Nat.zero_add] at h'
  have hp : 2 ^ d ≤ 2 ^ 31 := Nat.pow_le_pow_right (by decide) hd
  have hnl : nodeOfLeaf i = idx 0 i := by
    unfold nodeOfLeaf
    rw [idx_zero, Nat.mod_eq_of_lt (by omega)]
  refine ⟨n, ?_, ?_, hl⟩
  · unfold getLeaf
    rw [hnl, (Res.idx_ok_iff.2 h' : Res.idx _ _ = .ok _)]
    cases n <;> rfl
  · rw [← idx_zero]
    exact nodeAt_eq h'

/-- What leafNode.verify checks apart from the keys of the other members. -/
def LeafOk (pr : Prims) (ctx : GroupContext) (now : GoTime) (creds : List UInt16) (i : Nat) (l : LeafNode) : Prop :=
  Spec.LeafValid pr ctx now i l ∧ l.credential.ty ∈ creds

theorem lifetimeOk_iff {l : LeafNode} {now : GoTime} :
    l.lifetimeOk now = true ↔ ∀ lt, l.source = .keyPackage lt → now.isZero = true ∨ lt.verify now = true := by
  unfold LeafNode.lifetimeOk
  cases l.source <;> simp

theorem leafVerify_iff {pr : Prims} {ctx : GroupContext} {now : GoTime} {creds : List UInt16} {i : Nat} {l : LeafNode}
    {sigs encs : List Bytes} :
    l.verify pr { cipherSuite := ctx.cipherSuite, groupID := ctx.groupID, leafIndex := UInt32.ofNat i,
                  supportedCreds := creds, signatureKeys := sigs, encryptionKeys := encs, now } = .ok () ↔
      LeafOk pr ctx now creds i l ∧ l.signatureKey ∉ sigs ∧ l.encryptionKey ∉ encs := by
  unfold LeafNode.verify
  simp only [Res.bind_ok_iff, Res.guardErr_ok_iff, List.contains_iff_mem, List.all_eq_true, Bool.not_eq_true',
    exists_const]
  constructor
  · rintro ⟨b, h1, h2, h3, h4, h5, h6, h7⟩
    subst h2
    exact ⟨⟨⟨leaf_verifySignature_iff.1 h1, lifetimeOk_iff.1 h4, fun e he => by simpa using h5 e he⟩, h3⟩, by simpa using h6,
      by simpa using h7⟩
  · rintro ⟨⟨⟨h1, h4, h5⟩, h3⟩, h6, h7⟩
    exact ⟨true, leaf_verifySignature_iff.2 h1, rfl, h3, lifetimeOk_iff.2 h4, fun e he => by simpa using h5 e he, by simpa using h6, by simpa using h7⟩

/-- The condition established by the loop over the leaves from `li` to `li + k`. -/
def LeavesOk (pr : Prims) (ctx : GroupContext) (now : GoTime) (creds : List UInt16) (t : VTree) (k li : Nat)
    (sigs encs : List Bytes) : Prop :=
  ∀ i l, li ≤ i → i < li + k → nodeAt t (2 * i) = some (.leaf l) →
    LeafOk pr ctx now creds i l ∧ l.signatureKey ∉ sigs ∧ l.encryptionKey ∉ encs ∧
    ∀ j l', li ≤ j → j < i → nodeAt t (2 * j) = some (.leaf l') →
      l'.signatureKey ≠ l.signatureKey ∧ l'.encryptionKey ≠ l.encryptionKey

/-- The keys collected by the loop. -/
def KeysFrom (t : VTree) (k li : Nat) (encs E : List Bytes) : Prop :=
  ∀ key, key ∈ E ↔ key ∈ encs ∨ ∃ i l, li ≤ i ∧ i < li + k ∧ nodeAt t (2 * i) = some (.leaf l) ∧ l.encryptionKey = key

theorem verifyLeavesLoop_sound {pr : Prims} {ctx : GroupContext} {now : GoTime} {creds : List UInt16} {t : VTree}
    {d : Nat} {s : Ratchet ParentNode d} (hd : d ≤ 31) (ht : t = s.flat .leaf .parent) {k li : Nat}
    {sigs encs E : List Bytes} (hk : li + k ≤ 2 ^ d)
    (h : verifyLeavesLoop pr ctx now creds t k li sigs encs = .ok E) :
    LeavesOk pr ctx now creds t k li sigs encs ∧ KeysFrom t k li encs E := by
  induction k generalizing li sigs encs with
  | zero =>
    cases h
    refine ⟨fun i l h1 h2 => by omega, fun key => ?_⟩
    constructor
    · exact fun h => .inl h
    · rintro (h | ⟨i, l, h1, h2, _⟩)
      · exact h
      · omega
  | succ k ih =>
    obtain ⟨o, ho, hat, _⟩ := getLeaf_at hd ht (i := li) (by omega)
    rw [verifyLeavesLoop, ho, Res.ok_bind] at h
    cases o with
    | none =>
      obtain ⟨h1, h2⟩ := ih (by omega) h
      have hne : ∀ i l, li ≤ i → nodeAt t (2 * i) = some (.leaf l) → li + 1 ≤ i := by
        intro i l hi hl
        by_contra hlt
        obtain rfl : i = li := by omega
        rw [hat] at hl
        cases hl
      refine ⟨fun i l hi hlt hl => ?_, fun key => ?_⟩
      · obtain ⟨a, b, c, e⟩ := h1 i l (hne i l hi hl) (by omega) hl
        exact ⟨a, b, c, fun j l' hj hji hl' => e j l' (hne j l' hj hl') hji hl'⟩
      · rw [h2 key]
        constructor
        · rintro (h | ⟨i, l, a, b, c⟩)
          · exact .inl h
          · exact .inr ⟨i, l, by omega, by omega, c⟩
        · rintro (h | ⟨i, l, a, b, c, e⟩)
          · exact .inl h
          · exact .inr ⟨i, l, hne i l a c, by omega, c, e⟩
    | some l0 =>
      dsimp only at h
      rw [Res.bind_ok_iff] at h
      obtain ⟨⟨⟩, hv, h⟩ := h
      rw [leafVerify_iff] at hv
      obtain ⟨hv1, hv2, hv3⟩ := hv
      obtain ⟨h1, h2⟩ := ih (by omega) h
      refine ⟨fun i l hi hlt hl => ?_, fun key => ?_⟩
      · rcases Nat.eq_or_lt_of_le hi with rfl | hi
        · rw [hat] at hl
          cases hl
          exact ⟨hv1, hv2, hv3, fun j l' hj hji => by omega⟩
        · obtain ⟨a, b, c, e⟩ := h1 i l hi (by omega) hl
          simp only [List.mem_cons, not_or] at b c
          refine ⟨a, b.2, c.2, fun j l' hj hji hl' => ?_⟩
          rcases Nat.eq_or_lt_of_le hj with rfl | hj
          · rw [hat] at hl'
            cases hl'
            exact ⟨fun he => b.1 he.symm, fun he => c.1 he.symm⟩
          · exact e j l' hj hji hl'
      · rw [h2 key, List.mem_cons]
        constructor
        · rintro ((rfl | h) | ⟨i, l, a, b, c⟩)
          · exact .inr ⟨li, l0, by omega, by omega, hat, rfl⟩
          · exact .inl h
          · exact .inr ⟨i, l, by omega, by omega, c⟩
        · rintro (h | ⟨i, l, a, b, c, e⟩)
          · exact .inl (.inr h)
          · rcases Nat.eq_or_lt_of_le a with rfl | a
            · rw [hat] at c
              cases c
              exact .inl (.inl e.symm)
            · exact .inr ⟨i, l, a, by omega, c, e⟩

theorem verifyLeavesLoop_complete {pr : Prims} {ctx : GroupContext} {now : GoTime} {creds : List UInt16} {t : VTree}
    {d : Nat} {s : Ratchet ParentNode d} (hd : d ≤ 31) (ht : t = s.flat .leaf .parent) {k li : Nat}
    {sigs encs : List Bytes} (hk : li + k ≤ 2 ^ d) (h : LeavesOk pr ctx now creds t k li sigs encs) :
    ∃ E, verifyLeavesLoop pr ctx now creds t k li sigs encs = .ok E := by
  induction k generalizing li sigs encs with
  | zero => exact ⟨_, rfl⟩
  | succ k ih =>
    obtain ⟨o, ho, hat, _⟩ := getLeaf_at hd ht (i := li) (by omega)
    rw [verifyLeavesLoop, ho, Res.ok_bind]
    cases o with
    | none =>
      refine ih (by omega) fun i l hi hlt hl => ?_
      obtain ⟨a, b, c, e⟩ := h i l (by omega) (by omega) hl
      exact ⟨a, b, c, fun j l' hj hji hl' => e j l' (by omega) hji hl'⟩
    | some l0 =>
      obtain ⟨a, b, c, _⟩ := h li l0 (Nat.le_refl _) (by omega) hat
      dsimp only
      rw [leafVerify_iff.2 ⟨a, b, c⟩, Res.ok_bind]
      refine ih (by omega) fun i l hi hlt hl => ?_
      obtain ⟨a, b, c, e⟩ := h i l (by omega) (by omega) hl
      obtain ⟨e1, e2⟩ := e li l0 (Nat.le_refl _) (by omega) hat
      refine ⟨a, ?_, ?_, fun j l' hj hji hl' => e j l' (by omega) hji hl'⟩
      · simp only [List.mem_cons, not_or]; exact ⟨fun he => e1 he.symm, b⟩
      · simp only [List.mem_cons, not_or]; exact ⟨fun he => e2 he.symm, c⟩

/-! ### Parents -/

theorem unmergedLoop_iff {t : VTree} {d : Nat} {s : Ratchet ParentNode d} (hd : d ≤ 31)
    (ht : t = s.flat .leaf .parent) {p : Nat} {li : UInt32} (n : Nat) {k j fuel : Nat} (hn : k + n = d)
    (hj : j / 2 ^ (d - k) = 0) (hf : n < fuel) :
    unmergedLoop t (2 ^ d) p li fuel (idx k j) = .ok () ↔
      ∃ below above, upPath n k j = below ++ p :: above ∧
        ∀ y ∈ below, ∀ q, nodeAt t y = some (.parent q) → li ∈ q.unmergedLeaves := by
  induction n generalizing k j fuel with
  | zero =>
    obtain ⟨fuel, rfl⟩ : ∃ f, fuel = f + 1 := ⟨fuel - 1, by omega⟩
    obtain rfl : k = d := by omega
    obtain rfl : j = 0 := by simpa using hj
    rw [unmergedLoop, parent_root hd]
    simp [upPath]
  | succ n ih =>
    obtain ⟨fuel, rfl⟩ : ∃ f, fuel = f + 1 := ⟨fuel - 1, by omega⟩
    have hb : Below d 0 (k + 1) (j / 2) := by
      refine ⟨by omega, ?_⟩
      rw [← div_half, show d - (k + 1) + 1 = d - k from by omega, hj]
    rw [unmergedLoop, parent_idx hd (by omega) hj, upPath]
    dsimp only
    by_cases hp : idx (k + 1) (j / 2) = p
    · rw [if_pos hp]
      exact ⟨fun _ => ⟨[], upPath n (k + 1) (j / 2), by rw [hp]; rfl, by simp⟩, fun _ => rfl⟩
    · rw [if_neg hp]
      have hih := ih (k := k + 1) (j := j / 2) (fuel := fuel) (by omega) hb.2 (by omega)
      obtain ⟨s', hs'⟩ := at_sub (at_flat Node.leaf Node.parent s) hb
      rw [← ht] at hs'
      cases s' with
      | node o a b =>
        have hx := hs'.1
        rw [(Res.idx_ok_iff.2 hx : Res.idx t _ = .ok _), Res.ok_bind]
        cases o with
        | none =>
          dsimp only [Option.map_none]
          rw [hih]
          constructor
          · rintro ⟨below, above, e, hq⟩
            refine ⟨_ :: below, above, by rw [e]; rfl, fun y hy q hy' => ?_⟩
            rcases List.mem_cons.1 hy with rfl | hy
            · rw [nodeAt_eq hx] at hy'
              cases hy'
            · exact hq y hy q hy'
          · rintro ⟨below, above, e, hq⟩
            cases below with
            | nil => cases e; exact absurd rfl hp
            | cons z below =>
              obtain ⟨rfl, e'⟩ := List.cons.inj e
              exact ⟨below, above, e', fun y hy => hq y (List.mem_cons_of_mem _ hy)⟩
        | some r =>
          dsimp only [Option.map_some]
          rw [Res.bind_ok_iff]
          simp only [Res.guardErr_ok_iff, List.contains_iff_mem, exists_const, hih]
          constructor
          · rintro ⟨hr, below, above, e, hq⟩
            refine ⟨_ :: below, above, by rw [e]; rfl, fun y hy q hy' => ?_⟩
            rcases List.mem_cons.1 hy with rfl | hy
            · rw [nodeAt_eq hx] at hy'
              cases hy'
              exact hr
            · exact hq y hy q hy'
          · rintro ⟨below, above, e, hq⟩
            cases below with
            | nil => cases e; exact absurd rfl hp
            | cons z below =>
              obtain ⟨rfl, e'⟩ := List.cons.inj e
              exact ⟨hq _ (List.mem_cons_self ..) r (nodeAt_eq hx), below, above, e',
                fun y hy => hq y (List.mem_cons_of_mem _ hy)⟩

/-- One unmerged leaf. -/
theorem unmergedLoop_valid {t : VTree} {d : Nat} {s : Ratchet ParentNode d} (hd : d ≤ 31)
    (ht : t = s.flat .leaf .parent) {p : Nat} (hp : p < t.length) {li : UInt32} :
    unmergedLoop t (2 ^ d) p li 64 (nodeOfLeaf li.toNat) = .ok () ↔
      ∃ below above, (ITree.perfect d 0).ancestors (Spec.leafNumber li) = some (below ++ p :: above) ∧
        ∀ y ∈ below, ∀ q, nodeAt t y = some (.parent q) → li ∈ q.unmergedLeaves := by
  have hlen : t.length = 2 ^ (d + 1) - 1 := by rw [ht]; exact flat_length _ _ _
  have hx : nodeOfLeaf li.toNat = Spec.leafNumber li := rfl
  have hlt : Spec.leafNumber li < 2 ^ 32 := Nat.mod_lt _ (by decide)
  rw [hx]
  by_cases hin : Spec.leafNumber li < 2 ^ (d + 1) - 1
  · have hev : Spec.leafNumber li = idx 0 (Spec.leafNumber li / 2) := by
      rw [idx_zero]
      unfold Spec.leafNumber
      omega
    have hj : Spec.leafNumber li / 2 / 2 ^ (d - 0) = 0 := by
      rw [Nat.sub_zero]
      apply Nat.div_eq_of_lt
      rw [Nat.pow_succ] at hin
      omega
    have ha := ancestors_perfect (d := d) (i := 0) (k := 0) (j := Spec.leafNumber li / 2) (Nat.zero_le _) hj
    rw [Nat.zero_mul, Nat.sub_zero] at ha
    rw [hev, ha, unmergedLoop_iff hd ht d (by omega) hj (by omega)]
    simp
  · have hno : ¬ ITree.Mem (Spec.leafNumber li) (ITree.perfect d 0) := by
      have := mem_perfect_range d 0 (Spec.leafNumber li)
      rw [Nat.zero_mul] at this
      rw [this]
      omega
    rw [ancestors_none hno]
    obtain ⟨x', h1, h2, h3⟩ := parent_outside hd hlt (by omega)
    constructor
    · intro h
      rw [unmergedLoop, h1] at h
      dsimp only at h
      rw [if_neg (by omega), Res.bind_ok_iff] at h
      obtain ⟨o, ho, _⟩ := h
      rw [Res.idx_ok_iff] at ho
      have := (List.getElem?_eq_some_iff.1 ho).1
      omega
    · rintro ⟨_, _, h, _⟩
      cases h

theorem unmergedListLoop_iff {t : VTree} {d : Nat} {s : Ratchet ParentNode d} (hd : d ≤ 31)
    (ht : t = s.flat .leaf .parent) {p : Nat} (hp : p < t.length) {lis : List UInt32} :
    unmergedListLoop t (2 ^ d) p lis = .ok () ↔ Spec.UnmergedValid t d p lis := by
  induction lis with
  | nil => simp [unmergedListLoop, Spec.UnmergedValid]
  | cons li lis ih =>
    rw [unmergedListLoop, Res.bind_ok_iff]
    simp only [ih, unmergedLoop_valid hd ht hp, Spec.UnmergedValid, List.forall_mem_cons, exists_const]

/-- The condition established by the loop over the parent nodes. -/
def ParentsOk (t : VTree) (d i : Nat) (ns : List (Option Node)) (encs : List Bytes) : Prop :=
  ∀ (m : Nat) p, ns[m]? = some (some (.parent p)) →
    Spec.UnmergedValid t d (i + m) p.unmergedLeaves ∧ p.encryptionKey ∉ encs ∧
    ∀ (m' : Nat) p', m' < m → ns[m']? = some (some (.parent p')) → p'.encryptionKey ≠ p.encryptionKey

theorem parentsOk_skip {t : VTree} {d i : Nat} {o : Option Node} {ns : List (Option Node)} {encs : List Bytes}
    (ho : ∀ p, o ≠ some (.parent p)) : ParentsOk t d (i + 1) ns encs ↔ ParentsOk t d i (o :: ns) encs := by
  constructor
  · intro h m p hm
    cases m with
    | zero => exact absurd (by simpa using hm) (ho p)
    | succ m =>
      obtain ⟨a, b, c⟩ := h m p hm
      refine ⟨by rwa [show i + (m + 1) = i + 1 + m from by omega], b, fun m' p' hlt hm' => ?_⟩
      cases m' with
      | zero => exact absurd (by simpa using hm') (ho p')
      | succ m' => exact c m' p' (by omega) hm'
  · intro h m p hm
    obtain ⟨a, b, c⟩ := h (m + 1) p hm
    exact ⟨by rwa [show i + 1 + m = i + (m + 1) from by omega], b, fun m' p' hlt hm' => c (m' + 1) p' (by omega) hm'⟩

theorem verifyParentsLoop_iff {t : VTree} {d : Nat} {s : Ratchet ParentNode d} (hd : d ≤ 31)
    (ht : t = s.flat .leaf .parent) {i : Nat} {ns : List (Option Node)} {encs : List Bytes}
    (hi : i + ns.length ≤ t.length) :
    verifyParentsLoop t (2 ^ d) i ns encs = .ok () ↔ ParentsOk t d i ns encs := by
  have hlen : t.length < 2 ^ 32 := by rw [ht]; exact vflat_lt hd s
  induction ns generalizing i encs with
  | nil => simp [verifyParentsLoop, ParentsOk]
  | cons o ns ih =>
    rw [List.length_cons] at hi
    have hskip : (∀ p, o ≠ some (.parent p)) →
        verifyParentsLoop t (2 ^ d) i (o :: ns) encs = verifyParentsLoop t (2 ^ d) (i + 1) ns encs := by
      intro ho
      cases o with
      | none => simp [verifyParentsLoop]
      | some n =>
        cases n with
        | leaf l => simp [verifyParentsLoop]
        | parent p => exact absurd rfl (ho p)
    by_cases ho : ∀ p, o ≠ some (.parent p)
    · have hih := ih (i := i + 1) (encs := encs) (by omega)
      rw [hskip ho, ← parentsOk_skip ho]
      exact hih
    · push Not at ho
      obtain ⟨p, rfl⟩ := ho
      rw [verifyParentsLoop, Nat.mod_eq_of_lt (by omega), Res.bind_ok_iff]
      simp only [unmergedListLoop_iff hd ht (show i < t.length by omega), Res.bind_ok_iff, Res.guardErr_ok_iff, exists_const,
        ih (show i + 1 + ns.length ≤ t.length by omega), Bool.not_eq_true', List.contains_eq_mem, decide_eq_false_iff_not]
      constructor
      · rintro ⟨a, b, c⟩ m q hm
        cases m with
        | zero =>
          obtain rfl : p = q := by simpa using hm
          exact ⟨a, b, fun m' _ hlt => by omega⟩
        | succ m =>
          obtain ⟨a', b', c'⟩ := c m q hm
          simp only [List.mem_cons, not_or] at b'
          refine ⟨by rwa [show i + (m + 1) = i + 1 + m from by omega], b'.2, fun m' q' hlt hm' => ?_⟩
          cases m' with
          | zero =>
            obtain rfl : p = q' := by simpa using hm'
            exact fun e => b'.1 e.symm
          | succ m' => exact c' m' q' (by omega) hm'
      · intro h
        obtain ⟨a, b, _⟩ := h 0 p rfl
        refine ⟨a, b, fun m q hm => ?_⟩
        obtain ⟨a', b', c'⟩ := h (m + 1) q hm
        refine ⟨by rwa [show i + 1 + m = i + (m + 1) from by omega], ?_, fun m' q' hlt hm' => c' (m' + 1) q' (by omega) hm'⟩
        simp only [List.mem_cons, not_or]
        exact ⟨fun e => c' 0 p (by omega) rfl e.symm, b'⟩

/-! ### Members and their capabilities -/

theorem membersLoop_eq {t : VTree} {d : Nat} {s : Ratchet ParentNode d} (hd : d ≤ 31) (ht : t = s.flat .leaf .parent)
    {k li : Nat} (hk : li + k ≤ 2 ^ d) :
    membersLoop t k li = .ok (((s.leaves.drop li).take k).filterMap id) := by
  induction k generalizing li with
  | zero => simp [membersLoop]
  | succ k ih =>
    obtain ⟨o, ho, hat, hl⟩ := getLeaf_at hd ht (i := li) (by omega)
    rw [membersLoop, ho, Res.ok_bind, ih (by omega), Res.ok_bind]
    have hlt : li < s.leaves.length := by rw [leaves_length]; omega
    rw [List.drop_eq_getElem_cons hlt, List.take_succ_cons]
    rw [List.getElem?_eq_getElem hlt, Option.some.injEq] at hl
    rw [hl]
    cases o <;> rfl

theorem members_eq {t : VTree} {d : Nat} {s : Ratchet ParentNode d} (hd : d ≤ 31) (ht : t = s.flat .leaf .parent) :
    members t = .ok (s.leaves.filterMap id) := by
  unfold members
  have : treeNumLeaves t = 2 ^ d := by rw [ht]; exact vflat_numLeaves hd s
  rw [this, membersLoop_eq hd ht (by omega), List.drop_zero, List.take_of_length_le (by rw [leaves_length])]

end Mls
