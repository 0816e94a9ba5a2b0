import Verif.Proofs.FineGroup
import Verif.Props.PathSecret
/-
Joining and sending: which calls cannot panic.
-/
namespace Mls

open Spec (Ratchet nodeAt IsAncestor)

variable {pr : Prims}

/-! ### The integrity check -/

theorem findParentHash_fine {t : VTree} {b : Bytes} : ∀ xs : List Nat, (∀ x ∈ xs, x < t.length) → (findParentHash t b xs).Fine := by
  intro xs
  induction xs with
  | nil => intro _; exact Res.fine_ok _
  | cons x xs ih =>
    intro h
    unfold findParentHash
    refine (idx_fine (h x (List.mem_cons_self ..))).bind fun n _ => ?_
    have ih := ih fun y hy => h y (List.mem_cons_of_mem _ hy)
    cases n with
    | none => exact ih
    | some n =>
      cases n <;> dsimp only <;> split
      any_goals exact Res.fine_ok _
      all_goals exact ih

/-- The unmerged leaves of the tree are inside it. -/
def UnmergedInside (t : VTree) : Prop :=
  ∀ x q, nodeAt t x = some (.parent q) → ∀ u ∈ q.unmergedLeaves, nodeOfLeaf u.toNat < t.length

theorem resolve_fine {t : VTree} (ht : Spec.IsTree t) (hu : UnmergedInside t) {x : Nat} (hx : x < t.length) :
    (resolve t x).Fine ∧ ∀ r, resolve t x = .ok r → ∀ y ∈ r, y < t.length := by
  obtain ⟨d, hd, s, hs⟩ := isTree_iff.1 ht
  have hlen : t.length = 2 ^ (d + 1) - 1 := by rw [hs, flat_length]
  obtain ⟨m, y, hb, rfl⟩ := exists_below (hlen ▸ hx)
  obtain ⟨s', hs'⟩ := at_sub (at_flat Node.leaf Node.parent s) hb
  rw [← hs] at hs'
  have hres := resolve_spec (by rw [hlen]; exact pow_tree_lt hd) hs' (by have := hb.1; omega)
  refine ⟨.of_ok hres, fun r hr y' hy' => ?_⟩
  rw [hres] at hr
  cases hr
  rcases mem_resolution hs' hy' with ⟨m', y, hb', e, _⟩ | ⟨m', y, q, u, hb', hq, hm, rfl⟩
  · rw [e, hlen]
    exact (hb.trans hb').lt
  · exact hu _ _ hq u hm

theorem verifyParentHashesLoop_fine {cs : UInt16} {sd : SuiteDesc} (hsd : suite cs = .ok sd) {t : VTree} (ht : Spec.IsTree t)
    (hk : KnownTree t) (hu : UnmergedInside t) : ∀ (ns : List (Option Node)) (i : Nat), t.drop i = ns →
    (verifyParentHashesLoop pr cs t i ns).Fine := by
  intro ns
  induction ns with
  | nil => intro i _; exact Res.fine_ok _
  | cons n ns ih =>
    intro i hi
    have hlt : i < t.length := by
      rcases Nat.lt_or_ge i t.length with h | h
      · exact h
      · rw [List.drop_of_length_le h] at hi; cases hi
    have hget : t[i]? = some n := by
      rw [← Nat.add_zero i, ← List.getElem?_drop, hi]; rfl
    have hnext : t.drop (i + 1) = ns := by
      rw [← List.drop_drop, hi]; rfl
    have ih := ih (i + 1) hnext
    obtain ⟨d, hd, hlen⟩ := ht.1
    have h32 : i % 2 ^ 32 = i := Nat.mod_eq_of_lt (by have := pow_tree_lt hd; omega)
    cases n with
    | none => exact ih
    | some n =>
      unfold verifyParentHashesLoop
      rw [h32]
      cases n with
      | leaf l =>
        have hev := ht.2.1 i l hget
        have : children i = none := by
          have : i = idx 0 (i / 2) := by rw [idx_zero]; omega
          rw [this]
          exact children_idx_zero _
        rw [this]
        exact ih
      | parent p =>
        obtain ⟨l, r, hch, hl, hr⟩ := children_inside hd (hlen ▸ hlt) (ht.2.2 i p hget)
        rw [← hlen] at hl hr
        rw [hch]
        dsimp only
        obtain ⟨l1, l2⟩ := resolve_fine ht hu hl
        obtain ⟨r1, r2⟩ := resolve_fine ht hu hr
        refine orFalse_fine (computeTreeHash_fine hsd ht hk hl _) fun _ _ => orFalse_fine (computeTreeHash_fine hsd ht hk hr _) fun _ _ =>
          orFalse_fine (computeParentHash_fine hsd _ _) fun _ _ => orFalse_fine (computeParentHash_fine hsd _ _) fun _ _ => ?_
        refine l1.bind fun a ha => (findParentHash_fine a (l2 a ha)).bind fun _ _ => r1.bind fun b hb =>
          (findParentHash_fine b (r2 b hb)).bind fun _ _ => ?_
        split
        · exact Res.fine_ok _
        · exact ih

theorem verifyLeavesLoop_fine {ctx : GroupContext} {sd : SuiteDesc} (hsd : suite ctx.cipherSuite = .ok sd) {now : GoTime}
    {creds : List UInt16} {t : VTree} (ht : Spec.IsTree t) (hk : KnownTree t) (hr : ReadableTree pr ctx.cipherSuite t) : ∀ (k li : Nat) (sk ek : List Bytes),
    li + k ≤ treeNumLeaves t → (verifyLeavesLoop pr ctx now creds t k li sk ek).Fine := by
  intro k
  induction k with
  | zero => intro li sk ek _; exact Res.fine_ok _
  | succ k ih =>
    intro li sk ek h
    unfold verifyLeavesLoop
    obtain ⟨d, hd, hlen⟩ := ht.1
    have hnum := numLeaves_pow hd hlen
    have hp : 2 ^ d ≤ 2 ^ 31 := Nat.pow_le_pow_right (by decide) hd
    have hin : nodeOfLeaf li < t.length := by
      rw [nodeOfLeaf_idx (by omega), idx_zero, hlen, Nat.pow_succ]
      omega
    refine (getLeaf_fine ht hin).bind fun n hn => ?_
    cases n with
    | none => exact ih _ _ _ (by omega)
    | some l =>
      dsimp only
      refine (leafNode_verify_fine hsd (hk _ l (getLeaf_ok_some_iff.1 hn)) (hr _ l (getLeaf_ok_some_iff.1 hn)) rfl).bind fun _ _ => ih _ _ _ (by omega)

theorem unmergedLoop_fine {t : VTree} {d : Nat} {s : Ratchet ParentNode d} (hd : d ≤ 31)
    (ht : t = s.flat .leaf .parent) {p : Nat} {li : UInt32} (n : Nat) {k j fuel : Nat} (hn : k + n = d)
    (hj : j / 2 ^ (d - k) = 0) (hf : n < fuel) : (unmergedLoop t (2 ^ d) p li fuel (idx k j)).Fine := by
  induction n generalizing k j fuel with
  | zero =>
    obtain ⟨fuel, rfl⟩ : ∃ f, fuel = f + 1 := ⟨fuel - 1, by omega⟩
    obtain rfl : k = d := by omega
    obtain rfl : j = 0 := by simpa using hj
    rw [unmergedLoop, parent_root hd]
    exact Res.fine_err
  | succ n ih =>
    obtain ⟨fuel, rfl⟩ : ∃ f, fuel = f + 1 := ⟨fuel - 1, by omega⟩
    have hb : Below d 0 (k + 1) (j / 2) := by
      refine ⟨by omega, ?_⟩
      rw [← div_half, show d - (k + 1) + 1 = d - k from by omega, hj]
    rw [unmergedLoop, parent_idx hd (by omega) hj]
    dsimp only
    split
    · exact Res.fine_ok _
    · have hih := ih (k := k + 1) (j := j / 2) (fuel := fuel) (by omega) hb.2 (by omega)
      obtain ⟨s', hs'⟩ := at_sub (at_flat Node.leaf Node.parent s) hb
      rw [← ht] at hs'
      cases s' with
      | node o a b =>
        have hx := hs'.1
        rw [(Res.idx_ok_iff.2 hx : Res.idx t _ = .ok _), Res.ok_bind]
        cases o with
        | none => exact hih
        | some r => exact (Res.fine_guardErr _).bind fun _ _ => hih

theorem unmergedListLoop_fine {t : VTree} (ht : Spec.IsTree t) {p : Nat} : ∀ lis : List UInt32,
    (∀ u ∈ lis, nodeOfLeaf u.toNat < t.length) → (unmergedListLoop t (treeNumLeaves t) p lis).Fine := by
  obtain ⟨d, hd, s, hs⟩ := isTree_iff.1 ht
  have hlen : t.length = 2 ^ (d + 1) - 1 := by rw [hs, flat_length]
  intro lis
  induction lis with
  | nil => intro _; exact Res.fine_ok _
  | cons u us ih =>
    intro h
    unfold unmergedListLoop
    refine Res.Fine.bind ?_ fun _ _ => ih fun v hv => h v (List.mem_cons_of_mem _ hv)
    have hu := h u (List.mem_cons_self ..)
    rw [nodeOfLeaf_mod, nodeOfLeaf_idx (Nat.mod_lt _ (by decide)), hlen, idx_zero, Nat.pow_succ] at hu
    rw [nodeOfLeaf_mod, nodeOfLeaf_idx (Nat.mod_lt _ (by decide)), numLeaves_pow hd hlen]
    refine unmergedLoop_fine hd hs d (by omega) ?_ (by omega)
    rw [Nat.sub_zero]
    exact Nat.div_eq_of_lt (by omega)

theorem verifyParentsLoop_fine {t : VTree} (ht : Spec.IsTree t) (hu : UnmergedInside t) : ∀ (ns : List (Option Node)) (i : Nat)
    (ek : List Bytes), t.drop i = ns → (verifyParentsLoop t (treeNumLeaves t) i ns ek).Fine := by
  intro ns
  induction ns with
  | nil => intro i ek _; exact Res.fine_ok _
  | cons n ns ih =>
    intro i ek hi
    have hget : t[i]? = some n := by
      rw [← Nat.add_zero i, ← List.getElem?_drop, hi]; rfl
    have hnext : t.drop (i + 1) = ns := by
      rw [← List.drop_drop, hi]; rfl
    match n, hget with
    | none, _ => exact ih _ _ hnext
    | some (.leaf _), _ => exact ih _ _ hnext
    | some (.parent p), hget =>
      unfold verifyParentsLoop
      exact (unmergedListLoop_fine ht _ (hu i p (nodeAt_eq hget))).bind fun _ _ => (Res.fine_guardErr _).bind fun _ _ => ih _ _ hnext

theorem verifyIntegrity_fine {ctx : GroupContext} {sd : SuiteDesc} (hsd : suite ctx.cipherSuite = .ok sd) {t : VTree} (ht : Spec.IsTree t)
    (hk : KnownTree t) (hr : ReadableTree pr ctx.cipherSuite t) (hu : UnmergedInside t) (now : GoTime) : (verifyIntegrity pr t ctx now).Fine := by
  unfold verifyIntegrity
  refine (computeRootTreeHash_fine hsd ht hk).bind fun _ _ => (Res.fine_guardErr _).bind fun _ _ => ?_
  refine (verifyParentHashesLoop_fine hsd ht hk hu t 0 rfl).bind fun _ _ => (Res.fine_guardErr _).bind fun _ _ => ?_
  refine (supportedCreds_fine ht).bind fun _ _ => (verifyLeavesLoop_fine hsd ht hk hr _ _ _ _ (by omega)).bind fun _ _ => ?_
  exact verifyParentsLoop_fine ht hu t 0 _ rfl

/-! ### Joining -/

theorem findLeafLoop_fine {t : VTree} (ht : Spec.IsTree t) (hk : KnownTree t) {n : LeafNode} (hn : n.credential.Known) :
    ∀ (k li : Nat), li + k ≤ treeNumLeaves t → (findLeafLoop t n k li).Fine := by
  intro k
  induction k with
  | zero => intro li _; exact Res.fine_ok _
  | succ k ih =>
    intro li h
    unfold findLeafLoop
    obtain ⟨d, hd, hlen⟩ := ht.1
    have hnum := numLeaves_pow hd hlen
    have hp : 2 ^ d ≤ 2 ^ 31 := Nat.pow_le_pow_right (by decide) hd
    have hin : nodeOfLeaf li < t.length := by
      rw [nodeOfLeaf_idx (by omega), idx_zero, hlen, Nat.pow_succ]
      omega
    refine (getLeaf_fine ht hin).bind fun o ho => ?_
    cases o with
    | none => exact ih _ (by omega)
    | some l =>
      dsimp only
      split
      · exact ih _ (by omega)
      · have h1 : Res.Fine (n.enc : Res Bytes) := leafNode_enc_fine hn
        have h2 : Res.Fine (l.enc : Res Bytes) := leafNode_enc_fine (hk _ l (getLeaf_ok_some_iff.1 ho))
        split
        · exact Res.fine_ok _
        · next h => exact absurd h h1.1
        · next h => exact absurd h h1.2
        · exact absurd ‹(l.enc : Res Bytes) = .panic› h2.1
        · exact absurd ‹(l.enc : Res Bytes) = .hang› h2.2
        · exact Res.fine_ok _

theorem joinerPrivTree_fine (hc : pr.Correct) {cs : UInt16} {sd : SuiteDesc} (hsd : suite cs = .ok sd) {v : VTree} {d r : Nat}
    (hd : d ≤ 31) (hl : v.length = 2 ^ (d + 1) - 1) (hr : r < 2 ^ d) {l : LeafNode} (hleaf : getLeaf v r = .ok (some l)) {signer : UInt32}
    (hsg : nodeOfLeaf signer.toNat < v.length) (ek : Bytes) {ps : Option Bytes}
    (hps : ps.isSome → supported cs = .ok true ∧ ∀ x, IsAncestor d r x → IsAncestor d (signer.toNat % 2 ^ 31) x → ∃ n, nodeAt v x = some n) :
    (joinerPrivTree pr cs v r signer ek ps).Fine := by
  unfold joinerPrivTree
  have h31 : 2 ^ d ≤ 2 ^ 31 := Nat.pow_le_pow_right (by decide) hd
  have hin : nodeOfLeaf r < v.length := by
    rw [nodeOfLeaf_idx (by omega), idx_zero, hl, Nat.pow_succ]
    omega
  refine (setIdx_fine (by rw [List.length_replicate]; exact hin)).bind fun pt hpt => ?_
  have hlen : pt.length = v.length := by rw [(Res.setIdx_ok_iff.1 hpt).2, List.length_set, List.length_replicate]
  cases ps with
  | none => exact Res.fine_ok _
  | some ps =>
    obtain ⟨hs, hq⟩ := hps rfl
    dsimp only
    rw [nodeOfLeaf_mod signer.toNat] at hsg ⊢
    generalize hj : signer.toNat % 2 ^ 31 = i at *
    have hi31 : i < 2 ^ 31 := by rw [← hj]; exact Nat.mod_lt _ (by decide)
    rw [nodeOfLeaf_idx hi31, idx_zero, hl, Nat.pow_succ] at hsg
    have hi : i < 2 ^ d := by omega
    obtain ⟨m, hmeet, hmin, hca⟩ := commonAncestor_leaves (show r < 2 ^ 31 by omega) hi31
    have hmd : m ≤ d := hmin d (by rw [Nat.div_eq_of_lt hr, Nat.div_eq_of_lt hi])
    rw [nodeOfLeaf_idx (by omega), nodeOfLeaf_idx hi31, hca]
    have hq' : ∀ j, m ≤ j → j ≤ d → ∃ q, nodeAt v (idx j (r / 2 ^ j)) = some q := by
      intro j hj hjd
      rcases Nat.eq_zero_or_pos j with rfl | h0
      · rw [getLeaf_ok_some_iff, nodeOfLeaf_idx (by omega)] at hleaf
        exact ⟨.leaf l, nodeAt_eq (by simpa using hleaf)⟩
      · refine hq _ ((isAncestor_iff hr).2 (mem_path.2 ⟨j, h0, hjd, rfl⟩)) ((isAncestor_iff hi).2 (mem_path.2 ⟨j, h0, hjd, ?_⟩))
        rw [div_pow_congr hmeet hj]
    unfold processPathSecret
    obtain ⟨n, hn⟩ := hq' m (Nat.le_refl _) hmd
    have hlt := nodeAt_lt hn
    refine (nodeKey_fine hn).bind fun _ _ => (nodePriv_fine hc hs _ _).bind fun _ _ =>
        (setIdx_fine (by omega)).bind fun pt' hpt' => ?_
    refine (?_ : (processPathSecretLoop pr cs v ps 64 (idx m (r / 2 ^ m)) pt').Fine)
    have hlen' : pt'.length = v.length := by rw [(Res.setIdx_ok_iff.1 hpt').2, List.length_set, hlen]
    clear hpt' hpt
    -- from level m on
    have main : ∀ (fuel k : Nat) (pt : List (Option Bytes)), m ≤ k → k ≤ d → d - k < fuel → pt.length = v.length →
        (processPathSecretLoop pr cs v ps fuel (idx k (r / 2 ^ k)) pt).Fine := by
      intro fuel
      induction fuel with
      | zero => intro k pt _ _ h; omega
      | succ fuel ih =>
        intro k pt hmk hk hf hp
        unfold processPathSecretLoop
        rw [numLeaves_pow hd hl]
        rcases Nat.lt_or_ge k d with hkd | hkd
        · have hz : r / 2 ^ k / 2 ^ (d - k) = 0 := by
            rw [Nat.div_div_eq_div_mul, ← Nat.pow_add, show k + (d - k) = d from by omega]
            exact Nat.div_eq_of_lt hr
          have hpar := parent_idx hd hkd hz
          rw [Nat.div_div_eq_div_mul, ← Nat.pow_succ] at hpar
          rw [hpar]
          dsimp only
          obtain ⟨q, h1⟩ := hq' (k + 1) (by omega) (by omega)
          have hlt := nodeAt_lt h1
          refine (deriveSecret_fine hsd _ _).bind fun _ _ => (nodeKey_fine h1).bind fun _ _ => (nodePriv_fine hc hs _ _).bind fun _ _ =>
            (setIdx_fine (hp.symm ▸ hlt)).bind fun pt' hpt => ih _ _ (by omega) (by omega) (by omega) ?_
          rw [(Res.setIdx_ok_iff.1 hpt).2, List.length_set, hp]
        · obtain rfl : k = d := by omega
          rw [Nat.div_eq_of_lt hr, parent_root hd]
          exact Res.fine_ok _
    exact main 64 m pt' (Nat.le_refl _) hmd (by omega) hlen'

end Mls
