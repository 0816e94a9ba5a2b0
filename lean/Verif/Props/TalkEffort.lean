import Verif.Proofs.TalkEffort
import Verif.Props.Work
/-
How often the KDF is called for a message, exactly.
-/
namespace Mls

open Effort

variable {pr : Prims} {pc : Prices}

/-- **C126.** Forgetting what it costs gives the functions that the rest of the model is about. -/
theorem C126_same (st : GroupState) (data rand : Bytes) (guard : Bytes4) (m : PrivateMessage) :
    (createApplicationMessageK pr pc st data rand guard).result = createApplicationMessage pr st data rand guard ∧
    (decryptPrivateMessageK pr pc st m).result = decryptPrivateMessage pr st m :=
  ⟨createApplicationMessageK_result st data rand guard, decryptPrivateMessageK_result st m⟩

/-- **C126.** Saying something in a group with `n` leaves takes one signature and `2n + 5` calls of the KDF: at most if it fails, exactly if it does not. -/
theorem C126_say (hc : pr.Correct) {st : GroupState} (hr : Reachable pr st) (data rand : Bytes) (guard : Bytes4) :
    (createApplicationMessageK pr pc st data rand guard).cost ≤ pc.signing + pc.expansion * (2 * treeNumLeaves st.group.tree + 5) ∧
    ∀ raw, createApplicationMessage pr st data rand guard = .ok raw →
      (createApplicationMessageK pr pc st data rand guard).cost = pc.signing + pc.expansion * (2 * treeNumLeaves st.group.tree + 5) := by
  obtain ⟨d, hd, hlen⟩ := (hr.inv hc).tree.complete
  have hn := numLeaves_pow hd hlen
  have : (createApplicationMessageK pr pc st data rand guard).Costs (pc.signing + pc.expansion * (2 * treeNumLeaves st.group.tree + 5)) := by
    rw [hn]
    exact Costs.bind (Costs.bind (b := 0) (Costs.spend _) fun _ _ => Costs.free _) fun _ _ => sealMessage_costs hd hn _ _ _
  exact ⟨this.1, fun raw h => this.2 raw (by rw [createApplicationMessageK_result]; exact h)⟩

theorem hear_costs {st : GroupState} {d : Nat} (hd : d ≤ 31) (hn : treeNumLeaves st.group.tree = 2 ^ d) (m : PrivateMessage) :
    (decryptPrivateMessageK pr pc st m).Costs (pc.expansion * (2 * 2 ^ d + 5 + privateMessageSteps pr st m) + pc.verification) := by
  have e : pc.expansion * (2 * 2 ^ d + 5 + privateMessageSteps pr st m) + pc.verification = pc.expansion + ((pc.expansion + pc.expansion) + (pc.expansion +
      (pc.expansion * (2 * (2 ^ d - 1)) + (pc.expansion + (pc.expansion * privateMessageSteps pr st m + ((pc.expansion + pc.expansion) + pc.verification)))))) := by
    have := Nat.two_pow_pos d
    rw [show 2 * 2 ^ d + 5 + privateMessageSteps pr st m = 2 * (2 ^ d - 1) + 7 + privateMessageSteps pr st m by omega]
    ring
  unfold decryptPrivateMessageK
  rw [e, hn]
  refine Costs.step fun _ h1 => Costs.step fun _ h2 => Costs.bind (deriveSecret_costs ..) fun s h3 => Costs.bind (decryptSenderData_costs ..) fun sd h4 => ?_
  refine Costs.bind (deriveSecret_costs ..) fun es h5 => Costs.bind (deriveSecretTree_costs _ hd _) fun tree h6 => Costs.bind (ratchetRoot_costs ..) fun rs h7 => ?_
  rw [deriveSecretK_result] at h3 h5
  rw [decryptSenderDataK_result] at h4
  rw [deriveSecretTreeK_result, ← hn] at h6
  rw [deriveRatchetRootK_result] at h7
  have hs : ratchetStart pr st m = .ok (sd, rs) := by
    unfold ratchetStart
    simp only [h1, h2, h3, h4, h5, h6, h7, Res.ok_bind, Res.pure_eq]
  have hg := (ratchetStart_generation hs).1
  rw [C90_count st m sd rs hs]
  refine Costs.bind (fastForward_costs _ _ _ _ rs (by rw [hg]; simp)) fun rs' _ => Costs.bind (decryptContent_costs ..) fun c _ => ?_
  refine Costs.step fun _ _ => Costs.step fun _ _ => Costs.bind (b := 0) (Costs.spend _) fun _ _ => ?_
  exact Costs.step fun _ _ => Costs.step fun _ _ => Costs.pure _

/-- **C126.** Making out a private message of generation `g` (`privateMessageSteps` is `g` by C90_count if the sender's ratchet can be reached, and 0 otherwise) takes one verification of a signature and `2n + 5 + g` calls of the KDF:
at most if it fails, exactly if it does not. -/
theorem C126_hear (hc : pr.Correct) {st : GroupState} (hr : Reachable pr st) (m : PrivateMessage) :
    (decryptPrivateMessageK pr pc st m).cost ≤ pc.verification + pc.expansion * (2 * treeNumLeaves st.group.tree + 5 + privateMessageSteps pr st m) ∧
    ∀ a, decryptPrivateMessage pr st m = .ok a →
      (decryptPrivateMessageK pr pc st m).cost = pc.verification + pc.expansion * (2 * treeNumLeaves st.group.tree + 5 + privateMessageSteps pr st m) := by
  obtain ⟨d, hd, hlen⟩ := (hr.inv hc).tree.complete
  have hn := numLeaves_pow hd hlen
  have := hear_costs (pr := pr) (pc := pc) hd hn m
  rw [← hn, Nat.add_comm] at this
  exact ⟨this.1, fun a h => this.2 a (by rw [decryptPrivateMessageK_result]; exact h)⟩

/-- **C126.** A private message whose sender data do not open under the secret of the epoch takes three calls of the KDF at most, and no verification. -/
theorem C126_stranger {st : GroupState} {m : PrivateMessage}
    (hn : ∀ s sd, deriveSecret pr st.group.groupContext.cipherSuite st.group.epochSecret lblSenderData = .ok s →
      m.decryptSenderData pr st.group.groupContext.cipherSuite s ≠ .ok sd) :
    (decryptPrivateMessageK pr pc st m).cost ≤ pc.expansion * 3 := by
  unfold decryptPrivateMessageK
  refine Effort.cost_liftM_bind fun _ _ => Effort.cost_liftM_bind fun _ _ => ?_
  refine Nat.le_trans (Effort.cost_bind (b := pc.expansion + pc.expansion) (deriveSecret_costs ..).1 fun s hs => ?_) (by omega)
  refine Effort.cost_bind_free (decryptSenderData_costs ..).1 fun sd hsd => ?_
  rw [deriveSecretK_result] at hs
  rw [decryptSenderDataK_result] at hsd
  exact absurd hsd (hn s sd hs)

/-- **C126.** Whatever application data a member is given, the message took one verification and `2n + 5 + g` calls of the KDF. -/
theorem C126_listen (hc : pr.Correct) {st st' : GroupState} (hr : Reachable pr st) {raw data : Bytes} {now : GoTime}
    (h : unmarshalAndProcessMessage pr st raw now = (.ok (some data), st')) :
    ∃ v m, unmarshal MlsMessage.dec raw = .ok ⟨v, .privateMessage m⟩ ∧
      (decryptPrivateMessageK pr pc st m).cost = pc.verification + pc.expansion * (2 * treeNumLeaves st.group.tree + 5 + messageSteps pr st raw) := by
  unfold unmarshalAndProcessMessage at h
  cases hu : unmarshal MlsMessage.dec raw with
  | ok msg =>
    obtain ⟨v, body⟩ := msg
    rw [hu] at h
    cases body with
    | privateMessage m =>
      refine ⟨v, m, rfl, ?_⟩
      have e : messageSteps pr st raw = privateMessageSteps pr st m := by unfold messageSteps; rw [hu]
      rw [e]
      dsimp only at h
      unfold processPrivateMessage at h
      cases hp : decryptPrivateMessage pr st m with
      | ok a => exact (C126_hear hc hr m).2 a hp
      | _ => rw [hp] at h; cases h
    | publicMessage m =>
      dsimp only at h
      unfold processPublicMessage at h
      cases hp : verifyPublicMessage pr st m with
      | ok a =>
        rw [hp] at h
        dsimp only at h
        unfold dispatch at h
        cases hk : a.content.content with
        | application d => rw [hk] at h; cases h
        | proposal p =>
          rw [hk] at h
          dsimp only at h
          rcases hx : processProposal pr st a with ⟨_ | _ | _ | _, _⟩ <;> rw [hx] at h <;> cases h
        | commit c =>
          rw [hk] at h
          dsimp only at h
          rcases hx : processCommit pr st a [] [] now with ⟨_ | _ | _ | _, _⟩ <;> rw [hx] at h <;> cases h
      | _ => rw [hp] at h; cases h
    | _ => cases h
  | _ => rw [hu] at h; cases h

/-- **C126.** What a member says costs everyone who sees the same group as many calls of the KDF as it cost the member: nothing of one message is kept for the next. -/
theorem C126_conversation (hc : pr.Correct) {st st2 : GroupState} (hr : Reachable pr st) (hv : SameView st st2) (hr2 : Reachable pr st2) {data rand raw : Bytes} {guard : Bytes4}
    (h : createApplicationMessage pr st data rand guard = .ok raw) :
    (createApplicationMessageK pr pc st data rand guard).cost = pc.signing + pc.expansion * (2 * treeNumLeaves st.group.tree + 5) ∧
    ∃ v m, unmarshal MlsMessage.dec raw = .ok ⟨v, .privateMessage m⟩ ∧
      (decryptPrivateMessageK pr pc st2 m).cost ≤ pc.verification + pc.expansion * (2 * treeNumLeaves st.group.tree + 5) ∧
      ∀ a, decryptPrivateMessage pr st2 m = .ok a →
        (decryptPrivateMessageK pr pc st2 m).cost = pc.verification + pc.expansion * (2 * treeNumLeaves st.group.tree + 5) := by
  refine ⟨(C126_say hc hr data rand guard).2 raw h, ?_⟩
  have hi := hr.inv hc
  obtain ⟨d, hd⟩ := hi.suite
  obtain ⟨depth, hdep, hlen⟩ := hi.tree.complete
  have hown := hi.own
  have hpos : 0 < 2 ^ depth := Nat.two_pow_pos _
  have hin : st.group.myLeafIndex.toNat < 2 ^ depth := by
    rw [hlen, Nat.pow_succ] at hown; omega
  have hpow : 2 ^ depth ≤ 2 ^ 31 := Nat.pow_le_pow_right (by decide) hdep
  have hmod : st.group.myLeafIndex.toNat % 2 ^ 31 = st.group.myLeafIndex.toNat := Nat.mod_eq_of_lt (by omega)
  have hl2 : st2.group.tree.length = st.group.tree.length := by
    have := congrArg List.length hv.tree
    simp only [GroupState.vtree, derefTree_length] at this
    omega
  have hlen' : st2.group.tree.length = 2 ^ (depth + 1) - 1 := by omega
  have hd' : suite st2.group.groupContext.cipherSuite = .ok d := by rw [← hv.context]; exact hd
  unfold createApplicationMessage at h
  simp only [Res.bind_ok_iff] at h
  obtain ⟨c, _, h⟩ := h
  obtain ⟨m, pt, hum, _, hct, _, hgl, ho, _, hsd⟩ := encrypt_opens hc hd hdep hlen hin h
  obtain ⟨s, hs⟩ := ratchetStart_of (pr := pr) (st := st2) (m := m) hd' hdep hlen'
    (sd := ⟨st.group.myLeafIndex, 0, guard⟩) (by rw [← hv.context]; exact ho.group) (by rw [← hv.context]; exact ho.epoch)
    hgl (by rw [← hv.epochSecret]; exact ho.sender) (by simp only; omega)
  have h0 : privateMessageSteps pr st2 m = 0 := C90_count st2 m _ s hs
  have := C126_hear (pc := pc) hc hr2 m
  rw [h0, numLeaves_pow hdep hlen', ← numLeaves_pow hdep hlen] at this
  exact ⟨_, m, hum, this⟩

/-- Three members with four leaves: thirteen calls of the KDF to say something, and as many to hear it. A message to another group takes none; with other sender data it takes three. -/
example : toyThree.holds (fun (a, b, _) => decide (SameView a b) &&
    (createApplicationMessage toyPrims a [7, 8] [] ⟨1, 2, 3, 4⟩).holds fun raw =>
      match unmarshal MlsMessage.dec raw with
      | .ok ⟨_, .privateMessage m⟩ =>
        let pc : Prices := { call := 0, byte := 0, verification := 0, step := 0, expansion := 1 }
        decide ((createApplicationMessageK toyPrims pc a [7, 8] [] ⟨1, 2, 3, 4⟩).cost = 13) &&
        decide ((decryptPrivateMessageK toyPrims pc b m).cost = 13) && (decryptPrivateMessage toyPrims b m).holds (fun _ => true) &&
        decide ((decryptPrivateMessageK toyPrims pc b { m with groupID := [] }).cost = 0) &&
        decide ((decryptPrivateMessageK toyPrims pc b { m with encryptedSenderData := [1] }).cost = 3)
      | _ => false) = true := by decide +kernel

end Mls
