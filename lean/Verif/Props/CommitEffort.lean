import Verif.Proofs.CommitEffort
import Verif.Proofs.Invariant
import Verif.Spec.ToyHistory
/-
What processing a message costs.
-/
namespace Mls

open Spec.Ratchet (addsOf)

variable {pr : Prims} {pc : Prices}

/-- The content of a message that comes from a member of the group. -/
def Spec.FromMember (pr : Prims) (st : GroupState) (raw : Bytes) (a : AuthenticatedContent) : Prop :=
  ∃ msg, unmarshal MlsMessage.dec raw = .ok msg ∧
    ((∃ m, msg.body = .publicMessage m ∧ verifyPublicMessage pr st m = .ok a) ∨
      ∃ m, msg.body = .privateMessage m ∧ decryptPrivateMessage pr st m = .ok a)

theorem authenticate_cost (st : GroupState) (raw : Bytes) : (authenticateE pr pc st raw).cost ≤ pc.verification := by
  unfold authenticateE
  refine Effort.cost_liftM_bind fun msg _ => ?_
  cases msg.body with
  | publicMessage m =>
    refine Effort.cost_bind_free ?_ fun _ _ => Nat.le_refl 0
    unfold verifyPublicMessageE
    refine Effort.cost_liftM_bind fun _ _ => Effort.cost_liftM_bind fun _ _ => ?_
    cases m.content.sender with
    | member li =>
      refine Effort.cost_liftM_bind fun _ _ => Effort.cost_liftM_bind fun _ _ => ?_
      rw [Effort.cost_spend_bind]
      refine Nat.add_le_add_left (m := 0) (Effort.cost_liftM_bind fun _ _ => Effort.cost_liftM_bind fun _ _ => ?_) _
      exact Effort.cost_liftM_bind fun _ _ => Effort.cost_liftM_bind fun _ _ => Effort.cost_liftM_bind fun _ _ => Nat.le_refl 0
    | _ => exact Nat.zero_le _
  | privateMessage m =>
    refine Effort.cost_bind_free ?_ fun _ _ => Nat.le_refl 0
    unfold decryptPrivateMessageE
    refine Effort.cost_liftM_bind fun _ _ => Effort.cost_liftM_bind fun _ _ => Effort.cost_liftM_bind fun _ _ => ?_
    refine Effort.cost_liftM_bind fun _ _ => Effort.cost_liftM_bind fun _ _ => Effort.cost_liftM_bind fun _ _ => ?_
    refine Effort.cost_liftM_bind fun _ _ => Effort.cost_liftM_bind fun _ _ => Effort.cost_liftM_bind fun _ _ => ?_
    refine Effort.cost_liftM_bind fun _ _ => Effort.cost_liftM_bind fun _ _ => ?_
    rw [Effort.cost_spend_bind]
    exact Nat.add_le_add_left (m := 0) (Effort.cost_liftM_bind fun _ _ => Effort.cost_liftM_bind fun _ _ => Nat.le_refl 0) _
  | _ => exact Nat.zero_le _

theorem authenticate_fromMember {st : GroupState} {raw : Bytes} {a : AuthenticatedContent} {e : Bool}
    (h : (authenticateE pr pc st raw).result = .ok (a, e)) : Spec.FromMember pr st raw a := by
  unfold authenticateE at h
  simp only [Effort.result_bind, Effort.result_liftM, Res.bind_ok_iff] at h
  obtain ⟨msg, h1, h⟩ := h
  refine ⟨msg, h1, ?_⟩
  cases hb : msg.body with
  | publicMessage m =>
    rw [hb] at h
    simp only [Effort.result_bind, verifyPublicMessageE_result, Res.bind_ok_iff] at h
    obtain ⟨a', h2, h⟩ := h
    cases h
    exact .inl ⟨m, rfl, h2⟩
  | privateMessage m =>
    rw [hb] at h
    simp only [Effort.result_bind, decryptPrivateMessageE_result, Res.bind_ok_iff] at h
    obtain ⟨a', h2, h⟩ := h
    cases h
    exact .inr ⟨m, rfl, h2⟩
  | _ => rw [hb] at h; cases h

theorem processCommit_cost (hp : Coarse pc) {st : GroupState} (hv : GroupInv pr st) {a : AuthenticatedContent} {c : Commit}
    (hk : a.content.content = .commit c) (ids : List PreSharedKeyID) (psks : List Bytes) (now : GoTime) :
    (processCommitE pr pc st a ids psks now).2 ≤ pc.verification * (1 + c.proposals.length) +
      pc.call * (8 * (treeNumLeaves st.group.tree + c.proposals.length) + 2) + pc.opening + pc.derivation * 31 := by
  unfold processCommitE
  rw [hk]
  dsimp only
  have hadds : ∀ ps ss, resolveProposals a.content.sender.leafIndex st.group.pendingProposals c.proposals = .ok (ps, ss) →
      ps.length = ss.length ∧ (addsOf ps).length ≤ c.proposals.length := by
    intro ps ss h
    obtain ⟨h1, h2, _⟩ := resolveProposals_spec _ _ _ h
    exact ⟨by omega, h1 ▸ List.length_filterMap_le _ _⟩
  have hcheck : (checkProposalsE pr pc st.group a.content.sender.leafIndex c).cost ≤ pc.verification * c.proposals.length := by
    unfold checkProposalsE
    refine Effort.cost_liftM_bind fun x hx => Effort.cost_liftM_bind fun _ _ => ?_
    refine Effort.cost_bind_free (Nat.le_trans (verifyAdds_cost _ x.1) ?_) fun _ _ => Effort.cost_liftM_bind fun _ _ => Nat.le_refl 0
    exact Nat.mul_le_mul_left _ (hadds _ _ hx).2
  have hle : pc.verification * c.proposals.length ≤ pc.verification * (1 + c.proposals.length) := Nat.mul_le_mul_left _ (by omega)
  cases hr : (checkProposalsE pr pc st.group a.content.sender.leafIndex c).result with
  | ok x =>
    obtain ⟨ps, ss⟩ := x
    dsimp only
    rw [checkProposalsE_result] at hr
    unfold checkProposals at hr
    simp only [Res.bind_ok_iff] at hr
    obtain ⟨⟨ps', ss'⟩, h1, _, _, _, _, _, _, h2⟩ := hr
    cases h2
    obtain ⟨hlen, hk'⟩ := hadds _ _ h1
    rename' ps' => ps, ss' => ss
    cases ha : treeApply st.heap st.group.tree ps ss with
    | ok ht =>
      obtain ⟨h, t⟩ := ht
      dsimp only
      have e1 : (ps.zip ss).map (·.1) = ps := List.map_fst_zip (by omega)
      have e2 : (ps.zip ss).map (·.2) = ss := List.map_snd_zip (by omega)
      have hw := applied_within (l := ps.zip ss) hv.tree (by rw [e1, e2]; exact ha)
      rw [e1] at hw
      have hl : 2 * t.length ≤ 8 * (treeNumLeaves st.group.tree + c.proposals.length) := by
        rcases hw with rfl | ⟨d, _, h3, h4⟩
        · simp
        · rw [h3, Nat.pow_succ]
          omega
      have hf := finishCommit_cost (pr := pr) hp st.group h (t := t)
        (hw.imp_right fun ⟨d, h3, h4, _⟩ => ⟨d, h3, h4⟩) a c ids psks now
      have hm := Nat.mul_le_mul_left pc.call hl
      have e3 : pc.verification * (1 + c.proposals.length) = pc.verification + pc.verification * c.proposals.length := by ring
      have e4 : pc.call * (8 * (treeNumLeaves st.group.tree + c.proposals.length) + 2) =
          pc.call * (8 * (treeNumLeaves st.group.tree + c.proposals.length)) + (pc.call + pc.call) := by ring
      rw [e3, e4]
      cases (finishCommitE pr pc st.group h t a c ids psks now).result <;> dsimp only <;> omega
    | _ => dsimp only; omega
  | _ => dsimp only; omega

/-- **C124.** Forgetting what it costs gives the function that the rest of the model is about. -/
theorem C124_same (st : GroupState) (raw : Bytes) (now : GoTime) :
    (messageE pr pc st raw now).1 = unmarshalAndProcessMessage pr st raw now := messageE_result st raw now

/-- **C124.** Whatever a message consists of, and whatever comes of it: what it costs beyond the verification of one signature is owed to its being a commit or a proposal
of a member. A commit with `k` proposals in a group with `n` leaves takes `k + 1` further signatures, `8(n + k) + 2` hashes, one decryption and 31 key pairs at most; a proposal takes one hash. -/
theorem C124_work (hc : pr.Correct) {st : GroupState} (hr : Reachable pr st) (hb : pc.byte = 0) (hs : pc.step = 0) (raw : Bytes) (now : GoTime) :
    (messageE pr pc st raw now).2 ≤ pc.verification ∨
    (∃ a p, Spec.FromMember pr st raw a ∧ a.content.content = .proposal p ∧ (messageE pr pc st raw now).2 ≤ pc.verification + pc.call) ∨
    ∃ a c, Spec.FromMember pr st raw a ∧ a.content.content = .commit c ∧ (messageE pr pc st raw now).2 ≤ pc.verification * (2 + c.proposals.length) +
      pc.call * (8 * (treeNumLeaves st.group.tree + c.proposals.length) + 2) + pc.opening + pc.derivation * 31 := by
  have hp : Coarse pc := ⟨hb, hs⟩
  have hauth := authenticate_cost (pr := pr) (pc := pc) st raw
  unfold messageE
  dsimp only
  cases ha : (authenticateE pr pc st raw).result with
  | ok x =>
    obtain ⟨a, e⟩ := x
    have hrec := authenticate_fromMember ha
    dsimp only
    unfold dispatchE
    cases hk : a.content.content with
    | application d => left; dsimp only; cases e <;> simpa using hauth
    | proposal p =>
      refine .inr (.inl ⟨a, p, hrec, hk, ?_⟩)
      dsimp only
      refine Nat.add_le_add hauth ?_
      unfold processProposalE
      rw [hk]
      dsimp only
      have : (generateProposalRefE pr pc st.group.groupContext.cipherSuite a).cost ≤ pc.call := by
        unfold generateProposalRefE
        split
        · exact Nat.zero_le _
        · exact Effort.cost_liftM_bind fun _ _ => Effort.cost_liftM_bind fun _ _ => hashE_call hp _ _
      cases (generateProposalRefE pr pc st.group.groupContext.cipherSuite a).result <;> exact this
    | commit c =>
      refine .inr (.inr ⟨a, c, hrec, hk, ?_⟩)
      dsimp only
      have := processCommit_cost hp (hr.inv hc) hk [] [] now
      have e3 : pc.verification * (2 + c.proposals.length) = pc.verification + pc.verification * (1 + c.proposals.length) := by ring
      rw [e3]
      omega
  | _ => left; exact hauth

/-- **C124.** A message that does not come from a member costs at most one verification of a signature. -/
theorem C124_stranger (hc : pr.Correct) {st : GroupState} (hr : Reachable pr st) (hb : pc.byte = 0) (hs : pc.step = 0) {raw : Bytes}
    (hn : ∀ a, ¬ Spec.FromMember pr st raw a) (now : GoTime) : (messageE pr pc st raw now).2 ≤ pc.verification := by
  rcases C124_work hc hr hb hs raw now with h | ⟨a, _, h, _⟩ | ⟨a, _, h, _⟩
  · exact h
  · exact absurd h (hn a)
  · exact absurd h (hn a)

/-- **C124.** At most one decryption with the private key of a node, whatever the message. -/
theorem C124_decryptions (hc : pr.Correct) {st : GroupState} (hr : Reachable pr st) (raw : Bytes) (now : GoTime) :
    (messageE pr { call := 0, byte := 0, verification := 0, step := 0, opening := 1 } st raw now).2 ≤ 1 := by
  rcases C124_work (pc := { call := 0, byte := 0, verification := 0, step := 0, opening := 1 }) hc hr rfl rfl raw now with
    h | ⟨_, _, _, _, h⟩ | ⟨_, _, _, _, h⟩ <;> simp only at h <;> omega

/-- **C124.** At most 31 key pairs derived, whatever the message. -/
theorem C124_keyPairs (hc : pr.Correct) {st : GroupState} (hr : Reachable pr st) (raw : Bytes) (now : GoTime) :
    (messageE pr { call := 0, byte := 0, verification := 0, step := 0, derivation := 1 } st raw now).2 ≤ 31 := by
  rcases C124_work (pc := { call := 0, byte := 0, verification := 0, step := 0, derivation := 1 }) hc hr rfl rfl raw now with
    h | ⟨_, _, _, _, h⟩ | ⟨_, _, _, _, h⟩ <;> simp only at h <;> omega

/-- **C124.** Two signatures for each message and one for each proposal in it, at most. -/
theorem C124_signatures (hc : pr.Correct) {st : GroupState} (hr : Reachable pr st) {raw : Bytes} {k : Nat}
    (hk : ∀ a c, Spec.FromMember pr st raw a → a.content.content = .commit c → c.proposals.length ≤ k) (now : GoTime) :
    (messageE pr { call := 0, byte := 0, verification := 1, step := 0 } st raw now).2 ≤ 2 + k := by
  rcases C124_work (pc := { call := 0, byte := 0, verification := 1, step := 0 }) hc hr rfl rfl raw now with
    h | ⟨_, _, _, _, h⟩ | ⟨a, c, h1, h2, h⟩
  · simp only at h; omega
  · simp only at h; omega
  · have := hk a c h1 h2; simp only at h; omega

/-- **C124.** Eight calls of the hash function for each leaf of the tree and each proposal, and two more, at most. -/
theorem C124_hashes (hc : pr.Correct) {st : GroupState} (hr : Reachable pr st) {raw : Bytes} {k : Nat}
    (hk : ∀ a c, Spec.FromMember pr st raw a → a.content.content = .commit c → c.proposals.length ≤ k) (now : GoTime) :
    (messageE pr { call := 1, byte := 0, verification := 0, step := 0 } st raw now).2 ≤ 8 * (treeNumLeaves st.group.tree + k) + 2 := by
  rcases C124_work (pc := { call := 1, byte := 0, verification := 0, step := 0 }) hc hr rfl rfl raw now with
    h | ⟨_, _, _, _, h⟩ | ⟨a, c, h1, h2, h⟩
  · simp only at h; omega
  · simp only at h; omega
  · have := hk a c h1 h2; simp only at h; omega

/-- What processing a message costs at four prices: hashes, signatures, decryptions and key pairs. -/
def toyBill (st : GroupState) (raw : Bytes) : List Nat :=
  [(messageE toyPrims { call := 1, byte := 0, verification := 0, step := 0 } st raw toyLater).2,
   (messageE toyPrims { call := 0, byte := 0, verification := 1, step := 0 } st raw toyLater).2,
   (messageE toyPrims { call := 0, byte := 0, verification := 0, step := 0, opening := 1 } st raw toyLater).2,
   (messageE toyPrims { call := 0, byte := 0, verification := 0, step := 0, derivation := 1 } st raw toyLater).2]

/-- Of three members, with four leaves: one follows a commit with a path of another that adds a fourth member. 15 hashes, three signatures, one decryption, two key pairs. A message of nobody costs nothing; the
same commit under the signature of a third member costs one signature. -/
example : ∃ x, toyThree = .ok x ∧ toyBill x.1 (toyCommit x.1 1 1 [.add (toyMember 3).pub] (List.replicate 32 9) [6]) = [15, 3, 1, 2] ∧
    toyBill x.1 [1, 2, 3] = [0, 0, 0, 0] ∧ toyBill x.1 (toyCommit x.1 1 2 [.add (toyMember 3).pub] (List.replicate 32 9) [6]) = [0, 1, 0, 0] := by
  obtain ⟨x, h1, h2⟩ := Res.holds_ok (x := toyThree)
    (f := fun x => decide (toyBill x.1 (toyCommit x.1 1 1 [.add (toyMember 3).pub] (List.replicate 32 9) [6]) = [15, 3, 1, 2] ∧
      toyBill x.1 [1, 2, 3] = [0, 0, 0, 0] ∧ toyBill x.1 (toyCommit x.1 1 2 [.add (toyMember 3).pub] (List.replicate 32 9) [6]) = [0, 1, 0, 0]))
    (by decide +kernel)
  exact ⟨x, h1, of_decide_eq_true h2⟩

end Mls
