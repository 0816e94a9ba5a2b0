import Verif.Model.JoinEffort
import Verif.Proofs.CommitEffort
import Verif.Props.Effort
import Verif.Props.TreeCodec
import Verif.Props.Invitation
/-
The cost of joining, inviting and speaking: forgetting it gives Model/Group.lean back, and what it is at most.
-/
namespace Mls

open Spec.Ratchet (addsOf)

variable {pr : Prims} {pc : Prices}

/-! ### Forgetting -/

theorem generateRefE_result (k : KeyPackage) : (generateRefE pr pc k).result = k.generateRef pr := by
  simp only [generateRefE, KeyPackage.generateRef, refHash, Effort.result_bind, Effort.result_liftM, hashE_result]

theorem decryptGroupSecretsE_result (w : Welcome) (ref key : Bytes) :
    (decryptGroupSecretsE pr pc w ref key).result = w.decryptGroupSecrets pr ref key := by
  simp only [decryptGroupSecretsE, Welcome.decryptGroupSecrets, Effort.result_bind, Effort.result_liftM, Effort.result_spend, Res.ok_bind]

theorem processPathSecretLoopE_result (cs : UInt16) (t : VTree) (ps : Bytes) : ∀ fuel x pt,
    (processPathSecretLoopE pr pc cs t ps fuel x pt).result = processPathSecretLoop pr cs t ps fuel x pt := by
  intro fuel
  induction fuel with
  | zero => intro x pt; rfl
  | succ fuel ih =>
    intro x pt
    unfold processPathSecretLoopE processPathSecretLoop
    cases parent (treeNumLeaves t) x with
    | none => rfl
    | some p => simp only [Effort.result_bind, Effort.result_liftM, Effort.result_spend, Res.ok_bind, ih]

theorem joinerPrivTreeE_result (cs : UInt16) (t : VTree) (me : Nat) (signer : UInt32) (key : Bytes) (ps : Option Bytes) :
    (joinerPrivTreeE pr pc cs t me signer key ps).result = joinerPrivTree pr cs t me signer key ps := by
  unfold joinerPrivTreeE joinerPrivTree
  simp only [Effort.result_bind, Effort.result_liftM]
  congr 1; funext pt
  cases ps with
  | none => rfl
  | some ps =>
    simp only [processPathSecretE, processPathSecret, Effort.result_bind, Effort.result_liftM, Effort.result_spend, Res.ok_bind, processPathSecretLoopE_result]

theorem groupFromSecretsE_result (w : Welcome) (kp : KeyPairPackage) (gs : GroupSecrets) (rawTree : Option Bytes) (psks : List Bytes) (now : GoTime) :
    (groupFromSecretsE pr pc w kp gs rawTree psks now).result = groupFromSecrets pr w kp gs rawTree psks now := by
  simp only [groupFromSecretsE, groupFromSecrets, Effort.result_bind, Effort.result_liftM, Effort.result_spend, Res.ok_bind, verifyIntegrityE_result,
    nextInterimTranscriptHashE_result, joinerPrivTreeE_result, Effort.result_pure]
  rfl

theorem groupFromWelcomeE_result (w : Welcome) (kp : KeyPairPackage) (now : GoTime) :
    (groupFromWelcomeE pr pc w kp now).result = groupFromWelcome pr w kp now := by
  simp only [groupFromWelcomeE, groupFromWelcome, Effort.result_bind, Effort.result_liftM, generateRefE_result, decryptGroupSecretsE_result,
    groupFromSecretsE_result]

theorem signPrivateMessageContentE_result (cs : UInt16) (key : Bytes) (c : FramedContent) (ctx : GroupContext) (rand : Bytes) :
    (signPrivateMessageContentE pr pc cs key c ctx rand).result = signPrivateMessageContent pr cs key c ctx rand := rfl

theorem signInfoE_result (i : GroupInfo) (key rand : Bytes) : (signInfoE pr pc i key rand).result = i.sign pr key rand := rfl

theorem encryptSecretsLoopE_result (cs : UInt16) (gs : GroupSecrets) (e : Bytes) (rand : Nat → Bytes) : ∀ ks i,
    (encryptSecretsLoopE pr pc cs gs e rand i ks).result = encryptSecretsLoop pr cs gs e rand i ks := by
  intro ks
  induction ks with
  | nil => intro i; rfl
  | cons k ks ih =>
    intro i
    simp only [encryptSecretsLoopE, encryptSecretsLoop, Effort.result_bind, Effort.result_liftM, Effort.result_spend, Res.ok_bind, generateRefE_result, ih]
    rfl

theorem finishWelcomeE_result (g : Group) (h : Heap) (t : RTree) (kps : List KeyPackage) (r : WelcomeRand) :
    (finishWelcomeE pr pc g h t kps r).result = finishWelcome pr g h t kps r := by
  simp only [finishWelcomeE, finishWelcome, Effort.result_bind, Effort.result_liftM, computeTreeHashLoopE_result, signPrivateMessageContentE_result,
    confirmedTranscriptHashE_result, signInfoE_result, encryptSecretsLoopE_result, Effort.result_pure]
  rfl

theorem createWelcomeE_result (st : GroupState) (kps : List KeyPackage) (r : WelcomeRand) :
    (createWelcomeE pr pc st kps r).1 = createWelcome pr st kps r := by
  unfold createWelcomeE createWelcome
  split
  · rfl
  · cases treeApply st.heap st.group.tree (kps.map .add) [st.group.myLeafIndex] with
    | ok x => dsimp only; rw [finishWelcomeE_result]
    | _ => rfl

theorem createApplicationMessageE_result (st : GroupState) (data rand : Bytes) (guard : Bytes4) :
    (createApplicationMessageE pr pc st data rand guard).result = createApplicationMessage pr st data rand guard := by
  simp only [createApplicationMessageE, createApplicationMessage, Effort.result_bind, Effort.result_liftM, signPrivateMessageContentE_result]

/-! ### What it is at most -/

theorem generateRef_cost (hp : Coarse pc) (k : KeyPackage) : (generateRefE pr pc k).cost ≤ pc.call :=
  Effort.cost_liftM_bind fun _ _ => Effort.cost_liftM_bind fun _ _ => hashE_call hp _ _

theorem processPathSecretLoop_cost (cs : UInt16) {t : VTree} {d : Nat} (hd : d ≤ 31) (hl : t.length = 2 ^ (d + 1) - 1) (ps : Bytes) :
    ∀ fuel k j pt, k ≤ d → j / 2 ^ (d - k) = 0 →
    (processPathSecretLoopE pr pc cs t ps fuel (idx k j) pt).cost ≤ pc.derivation * (d - k) := by
  intro fuel
  induction fuel with
  | zero => intro k j pt _ _; exact Nat.zero_le _
  | succ fuel ih =>
    intro k j pt hk hj
    unfold processPathSecretLoopE
    rw [numLeaves_pow hd hl]
    rcases Nat.lt_or_ge k d with hlt | hge
    · rw [parent_idx hd hlt hj]
      have hj' : j / 2 / 2 ^ (d - (k + 1)) = 0 := by
        rw [← div_half, show d - (k + 1) + 1 = d - k by omega]
        exact hj
      refine Effort.cost_liftM_bind fun _ _ => Effort.cost_liftM_bind fun _ _ => ?_
      rw [Effort.cost_spend_bind]
      have e : pc.derivation * (d - k) = pc.derivation + pc.derivation * (d - (k + 1)) := by
        rw [show d - k = d - (k + 1) + 1 by omega, Nat.mul_succ, Nat.add_comm]
      rw [e]
      exact Nat.add_le_add_left (Effort.cost_liftM_bind fun _ _ => Effort.cost_liftM_bind fun _ _ => ih _ _ _ (by omega) hj') _
    · obtain rfl : k = d := by omega
      have hj0 : j = 0 := by simpa using hj
      subst hj0
      rw [parent_root hd]
      exact Nat.zero_le _

theorem joinerPrivTree_cost (cs : UInt16) {t : VTree} {d : Nat} (hd : d ≤ 31) (hl : t.length = 2 ^ (d + 1) - 1) (me : Nat) (signer : UInt32) (key : Bytes)
    (ps : Option Bytes) : (joinerPrivTreeE pr pc cs t me signer key ps).cost ≤ pc.derivation * (d + 1) := by
  unfold joinerPrivTreeE
  refine Effort.cost_liftM_bind fun pt hpt => ?_
  have hpl : pt.length = t.length := by rw [setIdx_same hpt, List.length_replicate]
  cases ps with
  | none => exact Nat.zero_le _
  | some ps =>
    dsimp only
    unfold processPathSecretE
    refine Effort.cost_liftM_bind fun pub _ => ?_
    rw [Effort.cost_spend_bind, Nat.mul_succ, Nat.add_comm]
    refine Nat.add_le_add_right (Effort.cost_liftM_bind fun np _ => Effort.cost_liftM_bind fun pt' hpt' => ?_) _
    rw [Res.setIdx_ok_iff] at hpt'
    have hx := hpt'.1
    rw [hpl, hl] at hx
    have hm := (mem_perfect_range d 0 (commonAncestor (nodeOfLeaf me) (nodeOfLeaf signer.toNat))).2 (by omega)
    have hm' := (mem_perfect d 0 _).1 (by simpa using hm)
    obtain ⟨k, j, hk, hj, he⟩ := hm'
    rw [he]
    exact Nat.le_trans (processPathSecretLoop_cost cs hd hl ps 64 k j pt' hk hj) (Nat.mul_le_mul_left _ (by omega))

/-- The data of an extension in a group info is part of what the group info was read from. -/
theorem extension_within {raw data : Bytes} {i : GroupInfo} {ty : UInt16} (h : unmarshal GroupInfo.dec raw = .ok i)
    (hf : findExtensionData i.extensions ty = some data) : data.length ≤ raw.length := by
  rw [unmarshal_ok_iff] at h
  have hx : ∃ s s', s.length ≤ raw.length ∧ decExtensions.run s = (.ok i.extensions, s') := by
    unfold GroupInfo.dec at h
    simp only [P.bind_ok_iff] at h
    obtain ⟨gc, s0, h0, exts, s1, h1, o2, s2, h2, h⟩ := h
    refine ⟨s0, s1, groupContext_consumes.shrinks _ _ _ h0, ?_⟩
    have : i.extensions = exts := by
      cases o2 with
      | none => simp only [P.pure_ok_iff] at h; rw [← h.1]
      | some tag =>
        simp only [P.bind_ok_iff] at h
        obtain ⟨o3, s3, _, h⟩ := h
        cases o3 with
        | none => simp only [P.pure_ok_iff] at h; rw [← h.1]
        | some signer =>
          simp only [P.bind_ok_iff] at h
          obtain ⟨o4, s4, _, h⟩ := h
          cases o4 <;> (simp only [P.pure_ok_iff] at h; rw [← h.1])
    rw [this]
    exact h1
  obtain ⟨s, s', hs, hd⟩ := hx
  obtain ⟨bs, hb, rfl⟩ := exts_canon _ _ _ hd trivial
  unfold findExtensionData at hf
  rw [Option.map_eq_some_iff] at hf
  obtain ⟨e, he, rfl⟩ := hf
  have hmem := List.mem_of_find?_eq_some he
  unfold encExtensions writeVector at hb
  split at hb
  rotate_left
  · cases hb
  · cases hb
  · cases hb
  next cs hcs =>
  have hle := (opaqueVec_le hb).1
  have : ∀ {l : List Extension} {cs : Bytes}, Enc.concat (l.map Extension.enc) = .ok cs → e ∈ l → e.data.length ≤ cs.length := by
    intro l
    induction l with
    | nil => intro cs _ hm; cases hm
    | cons x l ih =>
      intro cs hc hm
      simp only [List.map_cons, Enc.concat, Enc.append_ok_iff] at hc
      obtain ⟨a, b, h1, h2, rfl⟩ := hc
      rw [List.length_append]
      rcases List.mem_cons.1 hm with rfl | hm
      · simp only [Extension.enc, Enc.append_ok_iff] at h1
        obtain ⟨u, v, _, hv, rfl⟩ := h1
        have := (opaqueVec_le hv).1
        rw [List.length_append]
        omega
      · have := ih h2 hm
        omega
  have := this hcs hmem
  rw [List.length_append] at hs
  omega

theorem encryptSecrets_cost (hp : Coarse pc) (cs : UInt16) (gs : GroupSecrets) (e : Bytes) (rand : Nat → Bytes) : ∀ ks i,
    (encryptSecretsLoopE pr pc cs gs e rand i ks).cost ≤ (pc.call + pc.sealing) * ks.length := by
  intro ks
  induction ks with
  | nil => intro i; exact Nat.zero_le _
  | cons k ks ih =>
    intro i
    unfold encryptSecretsLoopE
    rw [List.length_cons, Nat.mul_succ]
    refine Nat.le_trans (Effort.cost_bind (b := pc.sealing + (pc.call + pc.sealing) * ks.length) (generateRef_cost hp k) fun ref _ => ?_) (by omega)
    rw [Effort.cost_spend_bind]
    exact Nat.add_le_add_left (Effort.cost_liftM_bind fun _ _ => Effort.cost_bind_free (ih _) fun _ _ => Nat.le_refl 0) _

theorem finishWelcome_cost (hp : Coarse pc) (g : Group) (h : Heap) {t : RTree} (ht : t = [] ∨ ∃ d, d ≤ 31 ∧ t.length = 2 ^ (d + 1) - 1)
    (kps : List KeyPackage) (r : WelcomeRand) :
    (finishWelcomeE pr pc g h t kps r).cost ≤ pc.call * t.length + (pc.signing + (pc.call + (pc.signing + (pc.call + pc.sealing) * kps.length))) := by
  unfold finishWelcomeE
  have h1 : (computeTreeHashLoopE pr pc g.groupContext.cipherSuite (derefTree h t) [] 34 (root (treeNumLeaves (derefTree h t)))).cost ≤ pc.call * t.length := by
    rcases ht with rfl | ⟨d, hd, hl⟩
    · have e : (computeTreeHashLoopE pr pc g.groupContext.cipherSuite (derefTree h []) [] 34 (root (treeNumLeaves (derefTree h [])))).cost = pc.step := rfl
      rw [e, hp.step]
      exact Nat.zero_le _
    · have := rootHash_calls (pr := pr) hp g.groupContext.cipherSuite hd (show (derefTree h t).length = 2 ^ (d + 1) - 1 by rw [derefTree_length, hl])
      rwa [derefTree_length] at this
  refine Effort.cost_bind h1 fun th _ => Effort.cost_liftM_bind fun sd _ => Effort.cost_liftM_bind fun psk _ => ?_
  refine Effort.cost_bind (Nat.le_refl pc.signing) fun c _ => Effort.cost_bind (Effort.cost_liftM_bind fun _ _ => hashE_call hp _ _) fun cth _ => ?_
  refine Effort.cost_liftM_bind fun _ _ => Effort.cost_liftM_bind fun _ _ => Effort.cost_liftM_bind fun _ _ => Effort.cost_liftM_bind fun _ _ => ?_
  refine Effort.cost_bind (Nat.le_refl pc.signing) fun info _ => Effort.cost_liftM_bind fun _ _ => ?_
  exact Effort.cost_bind_free (encryptSecrets_cost hp _ _ _ _ kps 0) fun _ _ => Effort.cost_liftM_bind fun _ _ => Nat.le_refl 0

end Mls
