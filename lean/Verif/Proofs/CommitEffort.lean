import Verif.Model.CommitEffort
import Verif.Proofs.Effort
import Verif.Proofs.Agreement
import Verif.Proofs.FineCommit
/-
The cost of processing a message: forgetting it gives Model/Group.lean back, and what it is at most.
-/
namespace Mls

open Spec (Ratchet nodeAt)
open Spec.Ratchet (updateOpt removeOpt addOpt updatesOf removesOf addsOf applyAll)

variable {pr : Prims} {pc : Prices}

/-! ### Forgetting -/

theorem parentHashLoopE_result (cs : UInt16) (dp : List Nat) (sender : Nat) (t : RTree) : ∀ nis h prev,
    (parentHashLoopE pr pc cs dp sender t nis h prev).result = parentHashLoop pr cs dp sender t nis h prev := by
  intro nis
  induction nis with
  | nil => intro h prev; rfl
  | cons ni nis ih =>
    intro h prev
    unfold parentHashLoopE parentHashLoop
    simp only [Effort.result_bind, Effort.result_liftM]
    congr 1; funext n; congr 1; funext n
    cases children ni with
    | none => rfl
    | some c =>
      simp only [Effort.result_bind, computeTreeHashLoopE_result, computeTreeHash]
      congr 1; funext th
      cases n with
      | leaf l => rfl
      | parent p => simp only [Effort.result_bind, computeParentHashE_result, ih]

theorem mergeUpdatePathE_result (cs : UInt16) (h : Heap) (t : RTree) (i : Nat) (path : UpdatePath) :
    (mergeUpdatePathE pr pc cs h t i path).result = mergeUpdatePath pr cs h t i path := by
  simp only [mergeUpdatePathE, mergeUpdatePath, Effort.result_bind, Effort.result_liftM, parentHashLoopE_result, Effort.result_pure]
  rfl

theorem pathSecretLoopE_result (cs : UInt16) (t : VTree) : ∀ nis ps pt,
    (pathSecretLoopE pr pc cs t nis ps pt).result = pathSecretLoop pr cs t nis ps pt := by
  intro nis
  induction nis with
  | nil => intro ps pt; rfl
  | cons ni nis ih =>
    intro ps pt
    unfold pathSecretLoopE pathSecretLoop
    simp only [Effort.result_bind, Effort.result_liftM, Effort.result_spend, Res.ok_bind, ih]

theorem decryptPathSecretsE_result (cs : UInt16) (t : VTree) (ctx : GroupContext) (i r : Nat) (path : UpdatePath) (pt : List (Option Bytes)) :
    (decryptPathSecretsE pr pc cs t ctx i r path pt).result = decryptPathSecrets pr cs t ctx i r path pt := by
  unfold decryptPathSecretsE decryptPathSecrets
  simp only [Effort.result_bind, Effort.result_liftM]
  congr 1; funext fdp; congr 1; funext _
  cases fdp.idxOf? (commonAncestor (nodeOfLeaf i) (nodeOfLeaf r)) with
  | none => rfl
  | some k =>
    simp only [Effort.result_bind, Effort.result_liftM]
    congr 1; funext pn; congr 1; funext cn; congr 1; funext cr; congr 1; funext _; congr 1; funext f
    cases f with
    | none => rfl
    | some f =>
      simp only [Effort.result_bind, Effort.result_liftM, Effort.result_spend, Res.ok_bind, pathSecretLoopE_result, Effort.result_pure]
      rfl

theorem verifyAddsE_result (ctx : GroupContext) : ∀ ps, (verifyAddsE pr pc ctx ps).result = verifyAdds pr ctx ps := by
  intro ps
  induction ps with
  | nil => rfl
  | cons p ps ih =>
    cases p <;> simp [verifyAddsE, verifyAdds, ih]

theorem checkProposalsE_result (g : Group) (li : UInt32) (c : Commit) :
    (checkProposalsE pr pc g li c).result = checkProposals pr g li c := by
  simp only [checkProposalsE, checkProposals, Effort.result_bind, Effort.result_liftM, verifyAddsE_result, Effort.result_pure]
  rfl

theorem commitPathE_result (ctx nctx : GroupContext) (h : Heap) (t : RTree) (sender me : UInt32) (pt : List (Option Bytes)) (path : UpdatePath)
    (now : GoTime) : (commitPathE pr pc ctx nctx h t sender me pt path now).result = commitPath pr ctx nctx h t sender me pt path now := by
  simp only [commitPathE, commitPath, Effort.result_bind, Effort.result_liftM, Effort.result_spend, Res.ok_bind, mergeUpdatePathE_result,
    computeTreeHashLoopE_result, decryptPathSecretsE_result, Effort.result_pure, computeRootTreeHash, computeTreeHash]
  rfl

theorem confirmedTranscriptHashE_result (cs : UInt16) (wf : WireFormat) (c : FramedContent) (s i : Bytes) :
    (confirmedTranscriptHashE pr pc cs wf c s i).result = confirmedTranscriptHash pr cs wf c s i := by
  simp [confirmedTranscriptHashE, confirmedTranscriptHash, hashE_result]

theorem nextInterimTranscriptHashE_result (cs : UInt16) (c t : Bytes) :
    (nextInterimTranscriptHashE pr pc cs c t).result = nextInterimTranscriptHash pr cs c t := by
  simp [nextInterimTranscriptHashE, nextInterimTranscriptHash, hashE_result]

theorem finishCommitE_result (g : Group) (h : Heap) (t : RTree) (a : AuthenticatedContent) (c : Commit) (ids : List PreSharedKeyID)
    (psks : List Bytes) (now : GoTime) : (finishCommitE pr pc g h t a c ids psks now).result = finishCommit pr g h t a c ids psks now := by
  simp only [finishCommitE, finishCommit, Effort.result_bind, Effort.result_liftM, confirmedTranscriptHashE_result,
    nextInterimTranscriptHashE_result, Effort.result_pure]
  congr 1; funext pt; congr 1; funext d
  cases c.path with
  | none =>
    simp only [Effort.result_bind, computeTreeHashLoopE_result, Effort.result_pure, computeRootTreeHash, computeTreeHash]
    rfl
  | some path =>
    simp only [commitPathE_result]
    rfl

theorem processCommitE_result (st : GroupState) (a : AuthenticatedContent) (ids : List PreSharedKeyID) (psks : List Bytes) (now : GoTime) :
    (processCommitE pr pc st a ids psks now).1 = processCommit pr st a ids psks now := by
  unfold processCommitE processCommit
  cases a.content.content with
  | commit c =>
    simp only [checkProposalsE_result]
    cases checkProposals pr st.group a.content.sender.leafIndex c with
    | ok ps =>
      simp only
      cases treeApply st.heap st.group.tree ps.1 ps.2 with
      | ok ht =>
        simp only [finishCommitE_result]
        cases finishCommit pr st.group ht.1 ht.2 a c ids psks now <;> rfl
      | _ => rfl
    | _ => rfl
  | _ => rfl

theorem generateProposalRefE_result (cs : UInt16) (a : AuthenticatedContent) :
    (generateProposalRefE pr pc cs a).result = a.generateProposalRef pr cs := by
  unfold generateProposalRefE AuthenticatedContent.generateProposalRef
  split
  · rfl
  · simp [hashE_result, refHash]

theorem processProposalE_result (st : GroupState) (a : AuthenticatedContent) :
    (processProposalE pr pc st a).1 = processProposal pr st a := by
  unfold processProposalE processProposal
  cases a.content.content with
  | proposal p =>
    simp only [generateProposalRefE_result]
    cases a.generateProposalRef pr st.group.groupContext.cipherSuite <;> rfl
  | _ => rfl

theorem verifyPublicMessageE_result (st : GroupState) (m : PublicMessage) :
    (verifyPublicMessageE pr pc st m).result = verifyPublicMessage pr st m := by
  unfold verifyPublicMessageE verifyPublicMessage
  simp only [Effort.result_bind, Effort.result_liftM]
  congr 1; funext _; congr 1; funext _
  cases m.content.sender with
  | member li => simp only [Effort.result_bind, Effort.result_liftM, Effort.result_spend, Res.ok_bind, Effort.result_pure]; rfl
  | _ => rfl

theorem decryptPrivateMessageE_result (st : GroupState) (m : PrivateMessage) :
    (decryptPrivateMessageE pr pc st m).result = decryptPrivateMessage pr st m := by
  simp only [decryptPrivateMessageE, decryptPrivateMessage, Effort.result_bind, Effort.result_liftM, Effort.result_spend, Res.ok_bind, Effort.result_pure]
  rfl

theorem dispatchE_result (st : GroupState) (a : AuthenticatedContent) (now : GoTime) (e : Bool) :
    (dispatchE pr pc st a now e).1 = dispatch pr st a now e := by
  unfold dispatchE dispatch
  cases a.content.content with
  | proposal p => simp only [processProposalE_result]
  | commit c => simp only [processCommitE_result]
  | application data => cases e <;> rfl

theorem messageE_result (st : GroupState) (raw : Bytes) (now : GoTime) :
    (messageE pr pc st raw now).1 = unmarshalAndProcessMessage pr st raw now := by
  unfold messageE unmarshalAndProcessMessage authenticateE
  simp only [Effort.result_bind, Effort.result_liftM]
  cases unmarshal MlsMessage.dec raw with
  | ok msg =>
    simp only [Res.ok_bind]
    cases msg.body with
    | publicMessage m =>
      simp only [Effort.result_bind, verifyPublicMessageE_result, processPublicMessage]
      cases verifyPublicMessage pr st m with
      | ok a => exact dispatchE_result st a now false
      | _ => rfl
    | privateMessage m =>
      simp only [Effort.result_bind, decryptPrivateMessageE_result, processPrivateMessage]
      cases decryptPrivateMessage pr st m with
      | ok a => exact dispatchE_result st a now true
      | _ => rfl
    | _ => rfl
  | _ => rfl

/-! ### Costs -/

theorem Effort.cost_bind_free {α β : Type} {p : Effort α} {f : α → Effort β} {a : Nat} (h1 : p.cost ≤ a) (h2 : ∀ x, p.result = .ok x → (f x).cost ≤ 0) :
    (p >>= f).cost ≤ a := Effort.cost_bind (b := 0) h1 h2

/-- Prices at which neither bytes nor steps are counted. -/
structure Coarse (pc : Prices) : Prop where
  byte : pc.byte = 0
  step : pc.step = 0

theorem hashE_call (hp : Coarse pc) (cs : UInt16) (input : Bytes) : (hashE pr pc cs input).cost ≤ pc.call := by
  have := hashE_cost (pr := pr) (pc := pc) cs input
  rw [hp.byte] at this
  omega

theorem parentHashE_call (hp : Coarse pc) (cs : UInt16) (n : ParentNode) (h : Bytes) : (computeParentHashE pr pc cs n h).cost ≤ pc.call :=
  Effort.cost_liftM_bind fun _ _ => hashE_call hp cs _

theorem treeHashE_calls (hp : Coarse pc) (cs : UInt16) (t : VTree) (ex : List UInt32) : ∀ k j fuel, Low k j →
    (computeTreeHashLoopE pr pc cs t ex fuel (idx k j)).cost ≤ pc.call * (2 ^ (k + 1) - 1) := by
  intro k
  induction k with
  | zero =>
    intro j fuel hlow
    cases fuel with
    | zero => exact Nat.zero_le _
    | succ fuel =>
      unfold computeTreeHashLoopE
      rw [Effort.cost_spend_bind, leafOfNode_idx_zero, hp.step, Nat.zero_add]
      refine Nat.le_trans (Effort.cost_liftM_bind (b := pc.call) fun n hn => ?_) (by simp)
      exact Effort.cost_liftM_bind fun l hl => Effort.cost_liftM_bind fun input hi => hashE_call hp cs _
  | succ k ih =>
    intro j fuel hlow
    cases fuel with
    | zero => exact Nat.zero_le _
    | succ fuel =>
      unfold computeTreeHashLoopE
      rw [Effort.cost_spend_bind, leafOfNode_idx_succ, hlow.children, hp.step, Nat.zero_add]
      have e : pc.call * (2 ^ (k + 1 + 1) - 1) = pc.call * (2 ^ (k + 1) - 1) + (pc.call * (2 ^ (k + 1) - 1) + pc.call) := by
        have hpos := Nat.two_pow_pos (k + 1)
        have : 2 ^ (k + 1 + 1) - 1 = (2 ^ (k + 1) - 1) + ((2 ^ (k + 1) - 1) + 1) := by rw [Nat.pow_succ 2 (k + 1)]; omega
        rw [this]
        ring
      rw [e]
      refine Effort.cost_liftM_bind fun n hn => ?_
      refine Effort.cost_bind (ih _ _ hlow.left) fun lh _ => ?_
      refine Effort.cost_bind (ih _ _ hlow.right) fun rh _ => ?_
      rw [Effort.cost_spend_bind, Nat.zero_mul, Nat.zero_add]
      exact Effort.cost_liftM_bind fun p hp' => Effort.cost_liftM_bind fun input hi => hashE_call hp cs _

theorem rootHash_calls (hp : Coarse pc) (cs : UInt16) {t : VTree} {d : Nat} (hd : d ≤ 31) (hl : t.length = 2 ^ (d + 1) - 1) :
    (computeTreeHashLoopE pr pc cs t [] 34 (root (treeNumLeaves t))).cost ≤ pc.call * t.length := by
  rw [numLeaves_pow hd hl, root_idx hd, hl]
  refine treeHashE_calls hp cs t [] d 0 34 ?_
  unfold Low
  rw [Nat.zero_add, Nat.one_mul]
  exact Nat.pow_le_pow_right (by decide) (by omega)

/-- A parent node of a tree. -/
def Inner (x : Nat) : Prop := ∃ k j, x = idx (k + 1) j ∧ Low (k + 1) j

/-- Half the nodes below a node, it included. -/
def half (x : Nat) : Nat := 2 ^ level x

/-- The path from a node up: its length, and the trees below its nodes. -/
theorem filtered_climb {v : VTree} {d : Nat} (hd : d ≤ 31) : ∀ fuel k j xs, k ≤ d → j / 2 ^ (d - k) = 0 →
    filteredDirectPathLoop v (2 ^ d) fuel (idx k j) = .ok xs →
    xs.length ≤ d - k ∧ (∀ x ∈ xs, Inner x) ∧ (xs.map half).sum + 2 ^ (k + 1) ≤ 2 ^ (d + 1) := by
  intro fuel
  induction fuel with
  | zero => intro k j xs _ _ h; cases h
  | succ fuel ih =>
    intro k j xs hk hj h
    unfold filteredDirectPathLoop at h
    rcases Nat.lt_or_ge k d with hlt | hge
    · rw [parent_idx hd hlt hj, sibling_idx hd hlt hj] at h
      simp only [Res.bind_ok_iff] at h
      obtain ⟨res, _, rest, hr, h⟩ := h
      have hj' : j / 2 / 2 ^ (d - (k + 1)) = 0 := by
        rw [← div_half, show d - (k + 1) + 1 = d - k by omega]
        exact hj
      obtain ⟨h1, h2, h3⟩ := ih _ _ _ (by omega) hj' hr
      have hin : Inner (idx (k + 1) (j / 2)) := by
        refine ⟨k, j / 2, rfl, ?_⟩
        have hlt' : j / 2 < 2 ^ (d - (k + 1)) := by
          rcases (Nat.div_eq_zero_iff).1 hj' with h0 | h0
          · exact absurd h0 (Nat.ne_of_gt (Nat.two_pow_pos _))
          · exact h0
        have e : 2 ^ (d - (k + 1)) * 2 ^ (k + 1 + 1) = 2 ^ (d + 1) := by rw [← Nat.pow_add]; congr 1; omega
        have := Nat.mul_le_mul_right (2 ^ (k + 1 + 1)) (show j / 2 + 1 ≤ 2 ^ (d - (k + 1)) by omega)
        rw [e] at this
        exact Nat.le_trans this (Nat.pow_le_pow_right (by decide) (by omega))
      have hw : half (idx (k + 1) (j / 2)) = 2 ^ (k + 1) := by unfold half; rw [level_idx _ _ (by omega)]
      have e2 : 2 ^ (k + 1 + 1) = 2 ^ (k + 1) + 2 ^ (k + 1) := by rw [Nat.pow_succ 2 (k + 1)]; omega
      cases h
      split
      · refine ⟨by simp only [List.length_cons]; omega, ?_, ?_⟩
        · intro x hx
          rcases List.mem_cons.1 hx with rfl | hx
          · exact hin
          · exact h2 x hx
        · rw [List.map_cons, List.sum_cons, hw]
          omega
      · exact ⟨by omega, h2, by omega⟩
    · obtain rfl : k = d := by omega
      have hj0 : j = 0 := by simpa using hj
      subst hj0
      rw [parent_root hd] at h
      cases h
      exact ⟨Nat.zero_le _, fun x hx => absurd hx (List.not_mem_nil), by simp⟩

theorem filtered_leaf {v : VTree} {d i : Nat} (hd : d ≤ 31) (hl : v.length = 2 ^ (d + 1) - 1) (hi : nodeOfLeaf i < v.length) {xs : List Nat}
    (h : filteredDirectPath v (nodeOfLeaf i) = .ok xs) :
    xs.length ≤ d ∧ (∀ x ∈ xs, Inner x) ∧ (xs.map half).sum + 2 ≤ 2 ^ (d + 1) := by
  rw [nodeOfLeaf_mod] at h hi
  have h31 : i % 2 ^ 31 < 2 ^ 31 := Nat.mod_lt _ (by decide)
  rw [nodeOfLeaf_idx h31] at h hi
  have hjd : i % 2 ^ 31 < 2 ^ d := by rw [idx_zero, hl, Nat.pow_succ] at hi; omega
  unfold filteredDirectPath at h
  rw [numLeaves_pow hd hl] at h
  have := filtered_climb hd 64 0 _ xs (Nat.zero_le _) (by simpa using Nat.div_eq_of_lt hjd) h
  simpa using this

theorem parentHashLoop_calls (hp : Coarse pc) (cs : UInt16) (dp : List Nat) (sender : Nat) (t : RTree) : ∀ nis h prev, (∀ x ∈ nis, Inner x) →
    (parentHashLoopE pr pc cs dp sender t nis h prev).cost ≤ pc.call * (nis.map half).sum := by
  intro nis
  induction nis with
  | nil => intro h prev _; exact Nat.zero_le _
  | cons ni nis ih =>
    intro h prev hin
    obtain ⟨k, j, rfl, hlow⟩ := hin ni (List.mem_cons_self ..)
    have hk := hlow.level
    have hw : half (idx (k + 1) j) = 2 ^ (k + 1) := by unfold half; rw [level_idx _ _ (by omega)]
    have hpos := Nat.two_pow_pos (k + 1)
    have e : pc.call * (((idx (k + 1) j) :: nis).map half).sum =
        pc.call * (2 ^ (k + 1) - 1) + (pc.call + pc.call * (nis.map half).sum) := by
      rw [List.map_cons, List.sum_cons, hw, Nat.mul_add]
      have : pc.call * 2 ^ (k + 1) = pc.call * (2 ^ (k + 1) - 1) + pc.call := by
        obtain ⟨q, hq⟩ : ∃ q, 2 ^ (k + 1) = q + 1 := ⟨2 ^ (k + 1) - 1, by omega⟩
        rw [hq, Nat.add_sub_cancel, Nat.mul_add, Nat.mul_one]
      omega
    rw [e]
    unfold parentHashLoopE
    rw [hlow.children]
    refine Effort.cost_liftM_bind fun n _ => Effort.cost_liftM_bind fun n _ => ?_
    refine Effort.cost_bind ?_ fun th _ => ?_
    · unfold pathSibling
      split
      · exact treeHashE_calls hp cs _ _ _ _ _ hlow.right
      · exact treeHashE_calls hp cs _ _ _ _ _ hlow.left
    · cases n with
      | leaf l => exact Nat.zero_le _
      | parent p =>
        exact Effort.cost_bind (parentHashE_call hp cs _ _) fun ph _ => ih _ _ fun x hx => hin x (List.mem_cons_of_mem _ hx)

theorem setIdx_same {α : Type} {t t' : List α} {i : Nat} {a : α} (h : Res.setIdx t i a = .ok t') : t'.length = t.length := by
  rw [Res.setIdx_ok_iff] at h
  rw [h.2, List.length_set]

theorem blankAll_same {α : Type} : ∀ {xs : List Nat} {t t' : List (Option α)}, blankAll t xs = .ok t' → t'.length = t.length := by
  intro xs
  induction xs with
  | nil => intro t t' h; cases h; rfl
  | cons x xs ih =>
    intro t t' h
    unfold blankAll at h
    rw [Res.bind_ok_iff] at h
    obtain ⟨t1, h1, h2⟩ := h
    rw [ih h2, setIdx_same h1]

theorem setPathNodes_same : ∀ {xs : List Nat} {ns : List UpdatePathNode} {h h' : Heap} {t t' : RTree},
    setPathNodes h t xs ns = .ok (h', t') → t'.length = t.length := by
  intro xs
  induction xs with
  | nil => intro ns h h' t t' hr; unfold setPathNodes at hr; cases hr; rfl
  | cons x xs ih =>
    intro ns h h' t t' hr
    cases ns with
    | nil => cases hr
    | cons n ns =>
      unfold setPathNodes at hr
      rw [Res.bind_ok_iff] at hr
      obtain ⟨t1, h1, h2⟩ := hr
      rw [ih h2, setIdx_same h1]

theorem mergeUpdatePath_same {cs : UInt16} {h h' : Heap} {t t' : RTree} {i : Nat} {path : UpdatePath}
    (hr : mergeUpdatePath pr cs h t i path = .ok (h', t')) : t'.length = t.length := by
  unfold mergeUpdatePath at hr
  simp only [Res.bind_ok_iff] at hr
  obtain ⟨dp, _, t1, h1, fdp, _, _, _, ⟨h2, t2⟩, h3, ⟨h4, prev⟩, _, _, _, t5, h5, he⟩ := hr
  cases he
  rw [setIdx_same h5, setPathNodes_same h3, blankAll_same h1]

theorem mergeUpdatePath_calls (hp : Coarse pc) (cs : UInt16) (h : Heap) {t : RTree} {d i : Nat} (hd : d ≤ 31) (hl : t.length = 2 ^ (d + 1) - 1)
    (hi : nodeOfLeaf i < t.length) (path : UpdatePath) : (mergeUpdatePathE pr pc cs h t i path).cost ≤ pc.call * t.length := by
  unfold mergeUpdatePathE
  refine Effort.cost_liftM_bind fun dp _ => Effort.cost_liftM_bind fun t1 h1 => Effort.cost_liftM_bind fun fdp hf => ?_
  refine Effort.cost_liftM_bind fun _ _ => Effort.cost_liftM_bind fun ht2 h2 => ?_
  have hl1 : (derefTree h t1).length = 2 ^ (d + 1) - 1 := by rw [derefTree_length, blankAll_same h1, hl]
  obtain ⟨_, k2, k3⟩ := filtered_leaf hd hl1 (by rw [hl1, ← hl]; exact hi) hf
  have key := parentHashLoop_calls (pr := pr) hp cs dp (nodeOfLeaf i) ht2.2 fdp.reverse ht2.1 [] fun x hx => k2 x (List.mem_reverse.1 hx)
  rw [List.map_reverse, List.sum_reverse] at key
  have : pc.call * (fdp.map half).sum ≤ pc.call * t.length := Nat.mul_le_mul_left _ (by rw [hl]; omega)
  refine Effort.cost_bind (a := pc.call * t.length) (b := 0) (Nat.le_trans key this) fun hp' _ => ?_
  exact Effort.cost_liftM_bind fun _ _ => Effort.cost_liftM_bind fun _ _ => Nat.le_refl 0

theorem pathSecretLoop_cost (cs : UInt16) (t : VTree) : ∀ nis ps pt,
    (pathSecretLoopE pr pc cs t nis ps pt).cost ≤ pc.derivation * nis.length := by
  intro nis
  induction nis with
  | nil => intro ps pt; exact Nat.zero_le _
  | cons ni nis ih =>
    intro ps pt
    unfold pathSecretLoopE
    refine Effort.cost_liftM_bind fun _ _ => Effort.cost_liftM_bind fun _ _ => ?_
    rw [Effort.cost_spend_bind, List.length_cons, Nat.mul_add, Nat.mul_one, Nat.add_comm]
    exact Nat.add_le_add_right (Effort.cost_liftM_bind fun _ _ => Effort.cost_liftM_bind fun _ _ => ih _ _) _

theorem decryptPathSecrets_cost (cs : UInt16) {t : VTree} {d i : Nat} (hd : d ≤ 31) (hl : t.length = 2 ^ (d + 1) - 1) (hi : nodeOfLeaf i < t.length)
    (ctx : GroupContext) (r : Nat) (path : UpdatePath) (pt : List (Option Bytes)) :
    (decryptPathSecretsE pr pc cs t ctx i r path pt).cost ≤ pc.opening + pc.derivation * d := by
  unfold decryptPathSecretsE
  refine Effort.cost_liftM_bind fun fdp hf => Effort.cost_liftM_bind fun _ _ => ?_
  obtain ⟨hlen, _, _⟩ := filtered_leaf hd hl hi hf
  dsimp only
  cases hk : fdp.idxOf? (commonAncestor (nodeOfLeaf i) (nodeOfLeaf r)) with
  | none => exact Nat.zero_le _
  | some k =>
    have hk' : k < fdp.length := by
      unfold List.idxOf? at hk
      obtain ⟨h1, _⟩ := List.findIdx?_eq_some_iff_getElem.1 hk
      exact h1
    dsimp only
    refine Effort.cost_liftM_bind fun _ _ => Effort.cost_liftM_bind fun _ _ => Effort.cost_liftM_bind fun _ _ => ?_
    refine Effort.cost_liftM_bind fun _ _ => Effort.cost_liftM_bind fun f _ => ?_
    cases f with
    | none => exact Nat.zero_le _
    | some f =>
      refine Effort.cost_liftM_bind fun _ _ => ?_
      rw [Effort.cost_spend_bind]
      refine Nat.add_le_add_left (Effort.cost_liftM_bind fun _ _ => Effort.cost_liftM_bind fun _ _ => ?_) _
      rw [Effort.cost_spend_bind]
      have e : pc.derivation + pc.derivation * (fdp.drop (k + 1)).length ≤ pc.derivation * d := by
        have := Nat.mul_le_mul_left pc.derivation (show 1 + (fdp.drop (k + 1)).length ≤ d by rw [List.length_drop]; omega)
        rwa [Nat.mul_add, Nat.mul_one] at this
      refine Nat.le_trans (Nat.add_le_add_left (Effort.cost_liftM_bind fun _ _ => Effort.cost_liftM_bind fun pt' _ => ?_) _) e
      exact Effort.cost_bind_free (pathSecretLoop_cost cs t _ _ _) fun x _ => Effort.cost_liftM_bind fun _ _ => Nat.le_refl 0

theorem verifyAdds_cost (ctx : GroupContext) : ∀ ps, (verifyAddsE pr pc ctx ps).cost ≤ pc.verification * (addsOf ps).length := by
  intro ps
  induction ps with
  | nil => exact Nat.zero_le _
  | cons p ps ih =>
    cases p with
    | add k =>
      have e : (addsOf (Proposal.add k :: ps)).length = (addsOf ps).length + 1 := by simp [addsOf]
      unfold verifyAddsE
      rw [Effort.cost_spend_bind, e, Nat.mul_add, Nat.mul_one, Nat.add_comm]
      exact Nat.add_le_add_right (Effort.cost_liftM_bind fun _ _ => ih) _
    | _ => unfold verifyAddsE; simpa [addsOf] using ih

theorem commitPath_cost (hp : Coarse pc) (ctx nctx : GroupContext) (h : Heap) {t : RTree} (ht : t = [] ∨ ∃ d, d ≤ 31 ∧ t.length = 2 ^ (d + 1) - 1)
    (sender me : UInt32) (pt : List (Option Bytes)) (path : UpdatePath) (now : GoTime) :
    (commitPathE pr pc ctx nctx h t sender me pt path now).cost ≤
      pc.verification + (pc.call * (2 * t.length) + (pc.opening + pc.derivation * 31)) := by
  unfold commitPathE
  refine Effort.cost_liftM_bind fun _ _ => Effort.cost_liftM_bind fun sn hsn => ?_
  have hi : nodeOfLeaf sender.toNat < t.length := by
    unfold getLeaf at hsn
    rw [Res.bind_ok_iff] at hsn
    obtain ⟨n, hn, _⟩ := hsn
    rw [Res.idx_ok_iff] at hn
    have := (List.getElem?_eq_some_iff.1 hn).1
    rwa [derefTree_length] at this
  obtain ⟨d, hd, hl⟩ : ∃ d, d ≤ 31 ∧ t.length = 2 ^ (d + 1) - 1 := by
    rcases ht with rfl | ht
    · exact absurd hi (Nat.not_lt_zero _)
    · exact ht
  refine Effort.cost_liftM_bind fun _ _ => Effort.cost_liftM_bind fun _ _ => Effort.cost_liftM_bind fun _ _ => ?_
  rw [Effort.cost_spend_bind]
  refine Nat.add_le_add_left (Effort.cost_liftM_bind fun _ _ => Effort.cost_liftM_bind fun _ _ => ?_) _
  rw [show pc.call * (2 * t.length) = pc.call * t.length + pc.call * t.length by ring, Nat.add_assoc]
  refine Effort.cost_bind (mergeUpdatePath_calls hp _ h hd hl hi path) fun ht' hm => ?_
  rw [mergeUpdatePathE_result] at hm
  have hl' : ht'.2.length = t.length := mergeUpdatePath_same (h' := ht'.1) hm
  refine Effort.cost_bind ?_ fun th _ => ?_
  · have := rootHash_calls (pr := pr) hp ctx.cipherSuite (t := derefTree ht'.1 ht'.2) hd (by rw [derefTree_length, hl', hl])
    rwa [derefTree_length, hl'] at this
  · refine Nat.le_trans (Effort.cost_bind (b := 0) (decryptPathSecrets_cost _ (d := d) hd (by rw [derefTree_length, hl', hl])
      (by rw [derefTree_length, hl']; exact hi) _ _ _ _) fun _ _ => Nat.le_refl 0) ?_
    have := Nat.mul_le_mul_left pc.derivation hd
    omega

theorem finishCommit_cost (hp : Coarse pc) (g : Group) (h : Heap) {t : RTree} (ht : t = [] ∨ ∃ d, d ≤ 31 ∧ t.length = 2 ^ (d + 1) - 1)
    (a : AuthenticatedContent) (c : Commit) (ids : List PreSharedKeyID) (psks : List Bytes) (now : GoTime) :
    (finishCommitE pr pc g h t a c ids psks now).cost ≤
      pc.verification + (pc.call * (2 * t.length) + (pc.opening + pc.derivation * 31)) + (pc.call + pc.call) := by
  unfold finishCommitE
  refine Effort.cost_liftM_bind fun _ _ => Effort.cost_liftM_bind fun sd _ => ?_
  refine Effort.cost_bind ?_ fun x _ => ?_
  · cases c.path with
    | some path => exact commitPath_cost hp _ _ h ht _ _ _ path now
    | none =>
      have : (computeTreeHashLoopE pr pc g.groupContext.cipherSuite (derefTree h t) [] 34 (root (treeNumLeaves (derefTree h t)))).cost ≤
          pc.call * t.length := by
        rcases ht with rfl | ⟨d, hd, hl⟩
        · have e : (computeTreeHashLoopE pr pc g.groupContext.cipherSuite (derefTree h []) [] 34 (root (treeNumLeaves (derefTree h [])))).cost = pc.step := rfl
          rw [e, hp.step]
          exact Nat.zero_le _
        · have := rootHash_calls (pr := pr) hp g.groupContext.cipherSuite (t := derefTree h t) hd (by rw [derefTree_length, hl])
          rwa [derefTree_length] at this
      refine Nat.le_trans (Effort.cost_bind (b := 0) this fun _ _ => Nat.le_refl 0) ?_
      have := Nat.mul_le_mul_left pc.call (show t.length ≤ 2 * t.length by omega)
      omega
  · refine Effort.cost_bind (Effort.cost_liftM_bind fun _ _ => hashE_call hp _ _) fun cth _ => ?_
    refine Effort.cost_bind_free (Effort.cost_liftM_bind fun _ _ => hashE_call hp _ _) fun i _ => ?_
    refine Effort.cost_liftM_bind fun _ _ => Effort.cost_liftM_bind fun _ _ => Effort.cost_liftM_bind fun _ _ => ?_
    exact Effort.cost_liftM_bind fun _ _ => Nat.le_refl 0

/-! ### How far the tree grows -/

/-- A tree for at most `n` members, with at most twice as many leaves. -/
def Within (n : Nat) : Option (Ratchet.Any ParentNode) → Prop
  | none => True
  | some a => a.2.size ≤ n ∧ 2 ^ a.1 ≤ 2 * n

theorem size_le_pow {d : Nat} (s : Ratchet ParentNode d) : s.size ≤ 2 ^ d := by
  unfold Ratchet.size
  rw [← leaves_length s]
  exact List.length_filterMap_le _ _

theorem Within.add {n : Nat} {t : Option (Ratchet.Any ParentNode)} (h : Within n t) (l : LeafNode) : Within (n + 1) (some (addOpt t l)) := by
  cases t with
  | none => exact ⟨by simp [addOpt, Ratchet.size, Ratchet.leaves], by show 1 ≤ 2 * (n + 1); omega⟩
  | some a =>
    obtain ⟨d, s⟩ := a
    obtain ⟨h1, h2⟩ := h
    refine ⟨?_, ?_⟩
    · show (s.add l).2.size ≤ n + 1
      rw [size_add]
      exact Nat.succ_le_succ h1
    · show 2 ^ (s.add l).1 ≤ 2 * (n + 1)
      rcases add_eq_alongPath s l with ⟨hb, he⟩ | ⟨i, _, he⟩
      · rw [he]
        have := size_le s hb
        have h1' : s.size ≤ n := h1
        show 2 ^ (d + 1) ≤ _
        rw [Nat.pow_succ]
        omega
      · rw [he]
        have : 2 ^ d ≤ 2 * n := h2
        show 2 ^ d ≤ _
        omega

theorem Within.adds : ∀ (ls : List LeafNode) {n : Nat} {t : Option (Ratchet.Any ParentNode)}, Within n t →
    Within (n + ls.length) (ls.foldl (fun t l => some (addOpt t l)) t) := by
  intro ls
  induction ls with
  | nil => intro n t h; exact h
  | cons l ls ih =>
    intro n t h
    have := ih (h.add l)
    rwa [show n + 1 + ls.length = n + (l :: ls).length by simp only [List.length_cons]; omega] at this

/-- Not deeper than. -/
def Under (d : Nat) : Option (Ratchet.Any ParentNode) → Prop
  | none => True
  | some a => a.1 ≤ d

theorem under_updates {d : Nat} : ∀ (us : List (UInt32 × LeafNode)) {t r : Option (Ratchet.Any ParentNode)}, Under d t →
    us.foldlM (fun t u => updateOpt t u.1.toNat u.2) t = some r → Under d r := by
  intro us
  induction us with
  | nil => intro t r h hr; cases hr; exact h
  | cons u us ih =>
    intro t r h hr
    rw [List.foldlM_cons] at hr
    cases hu : updateOpt t u.1.toNat u.2 with
    | none => rw [hu] at hr; cases hr
    | some t1 =>
      rw [hu] at hr
      refine ih ?_ hr
      cases t with
      | none => cases hu
      | some a =>
        obtain ⟨e, s⟩ := a
        simp only [updateOpt] at hu
        split at hu
        · cases hu; exact h
        · cases hu

theorem under_removes {d : Nat} : ∀ (us : List UInt32) {t r : Option (Ratchet.Any ParentNode)}, Under d t →
    us.foldlM (fun t i => removeOpt t i.toNat) t = some r → Under d r := by
  intro us
  induction us with
  | nil => intro t r h hr; cases hr; exact h
  | cons u us ih =>
    intro t r h hr
    rw [List.foldlM_cons] at hr
    cases hu : removeOpt t u.toNat with
    | none => rw [hu] at hr; cases hr
    | some t1 =>
      rw [hu] at hr
      refine ih ?_ hr
      cases t with
      | none => cases hu
      | some a =>
        obtain ⟨e, s⟩ := a
        simp only [removeOpt] at hu
        split at hu
        · replace hu := Option.some.inj hu
          cases t1 with
          | none => trivial
          | some b => exact Nat.le_trans (shrink_depth _ hu) h
        · cases hu

theorem Under.within {d : Nat} {t : Option (Ratchet.Any ParentNode)} (h : Under d t) : Within (2 ^ d) t := by
  cases t with
  | none => trivial
  | some a =>
    have : 2 ^ a.1 ≤ 2 ^ d := Nat.pow_le_pow_right (by decide) h
    exact ⟨Nat.le_trans (size_le_pow a.2) this, by omega⟩

theorem addsOf_low (l : List (Proposal × UInt32)) : (addsOf (l.map fun p => p.1.low)).length = (addsOf (l.map (·.1))).length := by
  induction l with
  | nil => rfl
  | cons p l ih =>
    obtain ⟨p, s⟩ := p
    cases p <;> simp_all [addsOf, Proposal.low]

/-- The tree after the proposals of a commit. -/
theorem applied_within {h h' : Heap} {t t' : RTree} (hv : ValidTree h t) {l : List (Proposal × UInt32)}
    (hr : treeApply h t (l.map (·.1)) (l.map (·.2)) = .ok (h', t')) :
    t' = [] ∨ ∃ d, d ≤ 31 ∧ t'.length = 2 ^ (d + 1) - 1 ∧ 2 ^ d ≤ 2 * (treeNumLeaves t + (addsOf (l.map (·.1))).length) := by
  obtain ⟨d, hd, s, hs⟩ := hv.holds
  obtain ⟨r, h1, h2, h3⟩ := treeApply_proposals (s := some ⟨d, s⟩) hd hs hr
  rw [numLeaves_pow hd hs.length, ← addsOf_low]
  unfold Spec.applyProposals applyAll at h1
  rw [Option.map_eq_some_iff] at h1
  obtain ⟨r1, h4, h5⟩ := h1
  rw [Option.bind_eq_some_iff] at h4
  obtain ⟨r0, h6, h7⟩ := h4
  have hu : Under d r1 := under_removes _ (under_updates _ (t := some ⟨d, s⟩) (Nat.le_refl d) h6) h7
  have hw := Within.adds (addsOf (l.map fun p => p.1.low)) hu.within
  rw [h5] at hw
  match r, h2, h3, hw with
  | none, _, h3, _ => exact .inl h3
  | some ⟨e, s'⟩, h2, h3, hw => exact .inr ⟨e, h2, Holds.length (s := s') h3, hw.2⟩

end Mls
