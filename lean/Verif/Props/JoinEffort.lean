import Verif.Proofs.JoinEffort
import Verif.Proofs.Invariant
import Verif.Props.Real
import Verif.Spec.ToyHistory
/-
What joining, inviting and speaking cost.
-/
namespace Mls

open Spec.Ratchet (addsOf)

variable {pr : Prims} {pc : Prices}

/-- What an AEAD opens is not longer than what was sealed. -/
def Spec.OpensWithin (pr : Prims) : Prop := ∀ a k n c d p, pr.aeadOpen a k n c d = some p → p.length ≤ c.length

theorem groupInfo_within (ho : Spec.OpensWithin pr) {w : Welcome} {joiner psk : Bytes} {i : GroupInfo} {data : Bytes}
    (h : w.decryptGroupInfo pr joiner psk = .ok i) (hf : findExtensionData i.extensions 2 = some data) :
    data.length ≤ w.encryptedGroupInfo.length := by
  unfold Welcome.decryptGroupInfo at h
  simp only [Res.bind_ok_iff] at h
  obtain ⟨⟨key, nonce⟩, _, raw, h1, h2⟩ := h
  refine Nat.le_trans (extension_within h2 hf) ?_
  unfold aeadOpen at h1
  simp only [Res.bind_ok_iff] at h1
  obtain ⟨sd, _, h1⟩ := h1
  rw [orErr_ok_iff] at h1
  exact ho _ _ _ _ _ _ h1

/-- **C125.** Forgetting what it costs gives the functions that the rest of the model is about. -/
theorem C125_same (w : Welcome) (kp : KeyPairPackage) (now : GoTime) (st : GroupState) (kps : List KeyPackage) (r : WelcomeRand)
    (data rand : Bytes) (guard : Bytes4) :
    (groupFromWelcomeE pr pc w kp now).result = groupFromWelcome pr w kp now ∧
    (createWelcomeE pr pc st kps r).1 = createWelcome pr st kps r ∧
    (createApplicationMessageE pr pc st data rand guard).result = createApplicationMessage pr st data rand guard :=
  ⟨groupFromWelcomeE_result w kp now, createWelcomeE_result st kps r, createApplicationMessageE_result st data rand guard⟩

/-- **C125.** Whatever a welcome consists of, and whatever comes of it: with an encrypted group info of `r` bytes, one decryption, `r + 1` signatures, `68 r + 2` hashes and 31 key pairs at most. -/
theorem C125_join (hc : pr.Correct) (ho : Spec.OpensWithin pr) (hb : pc.byte = 0) (hs : pc.step = 0) (w : Welcome) (kp : KeyPairPackage) (now : GoTime) :
    (groupFromWelcomeE pr pc w kp now).cost ≤ pc.opening + pc.verification * (w.encryptedGroupInfo.length + 1) +
      pc.call * (68 * w.encryptedGroupInfo.length + 2) + pc.derivation * 31 := by
  have hp : Coarse pc := ⟨hb, hs⟩
  generalize hR : w.encryptedGroupInfo.length = R
  unfold groupFromWelcomeE
  have e1 : pc.verification * (R + 1) = pc.verification + pc.verification * R := by ring
  have e2 : pc.call * (68 * R + 2) = pc.call + (pc.call * (68 * R) + pc.call) := by ring
  refine Nat.le_trans (Effort.cost_bind (b := pc.opening + (pc.verification + (pc.verification * R + pc.call * (68 * R) + (pc.call + pc.derivation * 31))))
    (generateRef_cost hp kp.pub) fun ref _ => ?_) (by rw [e1, e2]; omega)
  have hd : (decryptGroupSecretsE pr pc w ref kp.priv.initKey).cost ≤ pc.opening := by
    unfold decryptGroupSecretsE
    refine Effort.cost_liftM_bind fun _ _ => ?_
    rw [Effort.cost_spend_bind]
    exact Nat.add_le_add_left (m := 0) (Effort.cost_liftM_bind fun _ _ => Nat.le_refl 0) _
  refine Effort.cost_bind hd fun gs _ => Effort.cost_liftM_bind fun _ _ => Effort.cost_liftM_bind fun _ _ => ?_
  unfold groupFromSecretsE
  refine Effort.cost_liftM_bind fun psk _ => Effort.cost_liftM_bind fun info hi => Effort.cost_liftM_bind fun raw hraw => ?_
  refine Effort.cost_liftM_bind fun t ht => Effort.cost_liftM_bind fun sn hsn => Effort.cost_liftM_bind fun sn' hsn' => ?_
  rw [Effort.cost_spend_bind]
  refine Nat.add_le_add_left (Effort.cost_liftM_bind fun _ _ => Effort.cost_liftM_bind fun _ _ => Effort.cost_liftM_bind fun _ _ => ?_) _
  refine Effort.cost_liftM_bind fun _ _ => Effort.cost_liftM_bind fun _ _ => ?_
  rw [orErr_ok_iff] at hraw
  have hr : raw.length ≤ R := hR ▸ groupInfo_within ho hi hraw
  have hv : (verifyIntegrityE pr pc t info.groupContext now).cost ≤ pc.verification * R + pc.call * (68 * R) := by
    obtain ⟨d, hd, _, hw⟩ := C123_work hc ht
    refine Nat.le_trans (hw pc _ now) ?_
    rw [hb, hs]
    have a1 := Nat.mul_le_mul_left pc.verification hr
    have a2 := Nat.mul_le_mul_left pc.call (Nat.mul_le_mul (show 2 * (d + 4) ≤ 68 by omega) hr)
    calc _ = pc.verification * raw.length + pc.call * (2 * (d + 4) * raw.length) := by ring
      _ ≤ _ := Nat.add_le_add a1 a2
  refine Effort.cost_bind hv fun _ _ => Effort.cost_liftM_bind fun _ _ => Effort.cost_liftM_bind fun _ _ => ?_
  refine Effort.cost_bind (Effort.cost_liftM_bind fun _ _ => hashE_call hp _ _) fun i _ => ?_
  refine Effort.cost_liftM_bind fun found hf => Effort.cost_liftM_bind fun me hme => Effort.cost_bind_free ?_ fun pt _ => Nat.le_refl 0
  obtain ⟨k, hk, hl⟩ := C26_decoded_length ht
  cases k with
  | zero =>
    have h0 : t = [] := List.eq_nil_of_length_eq_zero (by simpa using hl)
    subst h0
    have : Res.setIdx (List.replicate ([] : VTree).length (none : Option Bytes)) (nodeOfLeaf me) (some kp.priv.encryptionKey) = .panic := rfl
    unfold joinerPrivTreeE
    rw [this]
    exact Nat.zero_le _
  | succ d => exact Nat.le_trans (joinerPrivTree_cost _ (by omega) hl _ _ _ _) (Nat.mul_le_mul_left _ (by omega))

/-- **C125.** A welcome that is not for this key package costs one call of the hash function. -/
theorem C125_unaddressed (hb : pc.byte = 0) (hs : pc.step = 0) {w : Welcome} {kp : KeyPairPackage}
    (hn : ∀ ref, kp.pub.generateRef pr = .ok ref → ref ∉ w.newMembers) (now : GoTime) : (groupFromWelcomeE pr pc w kp now).cost ≤ pc.call := by
  unfold groupFromWelcomeE
  refine Effort.cost_bind_free (generateRef_cost ⟨hb, hs⟩ kp.pub) fun ref href => ?_
  rw [generateRefE_result] at href
  have h0 : w.findSecret ref = none := by
    unfold Welcome.findSecret
    rw [List.find?_eq_none]
    intro s hs he
    refine hn ref href ?_
    unfold Welcome.newMembers
    rw [← eq_of_beq he]
    exact List.mem_map_of_mem hs
  unfold decryptGroupSecretsE
  rw [h0]
  exact Nat.le_refl 0

/-- **C125.** Inviting `k` in a group with `n` leaves: two signatures, `k` encryptions and `4(n + k) + k` hashes at most, whatever comes of it. -/
theorem C125_invite (hc : pr.Correct) {st : GroupState} (hr : Reachable pr st) (hb : pc.byte = 0) (hs : pc.step = 0) (kps : List KeyPackage) (r : WelcomeRand) :
    (createWelcomeE pr pc st kps r).2 ≤ pc.signing * 2 + pc.sealing * kps.length +
      pc.call * (4 * (treeNumLeaves st.group.tree + kps.length) + kps.length) := by
  have hp : Coarse pc := ⟨hb, hs⟩
  unfold createWelcomeE
  split
  · exact Nat.zero_le _
  next hne =>
  cases ha : treeApply st.heap st.group.tree (kps.map .add) [st.group.myLeafIndex] with
  | ok x =>
    obtain ⟨h, t⟩ := x
    dsimp only
    rw [treeApply_adds _ _ _ _ (kps.map fun _ => st.group.myLeafIndex)] at ha
    have e1 : (kps.map fun k => (Proposal.add k, st.group.myLeafIndex)).map (·.1) = kps.map .add := by simp
    have e2 : (kps.map fun k => (Proposal.add k, st.group.myLeafIndex)).map (·.2) = kps.map fun _ => st.group.myLeafIndex := by rw [List.map_map]; rfl
    have hw := applied_within (l := kps.map fun k => (Proposal.add k, st.group.myLeafIndex)) (hr.inv hc).tree (by rw [e1, e2]; exact ha)
    rw [e1] at hw
    have hk : (addsOf (kps.map .add)).length ≤ kps.length := by
      refine Nat.le_trans (List.length_filterMap_le _ _) ?_
      simp
    have hl : t.length + 1 ≤ 4 * (treeNumLeaves st.group.tree + kps.length) := by
      rcases hw with rfl | ⟨d, _, h3, h4⟩
      · simp only [List.length_nil]; omega
      · have := Nat.two_pow_pos d
        rw [h3, Nat.pow_succ]
        omega
    refine Nat.le_trans (finishWelcome_cost (pr := pr) hp st.group h (t := t) (hw.imp_right fun ⟨d, h3, h4, _⟩ => ⟨d, h3, h4⟩) kps r) ?_
    have hm := Nat.mul_le_mul_left pc.call hl
    calc _ = pc.signing * 2 + pc.sealing * kps.length + (pc.call * (t.length + 1) + pc.call * kps.length) := by ring
      _ ≤ pc.signing * 2 + pc.sealing * kps.length + (pc.call * (4 * (treeNumLeaves st.group.tree + kps.length)) + pc.call * kps.length) := by omega
      _ = _ := by ring
  | _ => exact Nat.zero_le _

/-- **C125.** Saying something takes one signature, whatever is said and however large the group is. -/
theorem C125_speak (st : GroupState) (data rand : Bytes) (guard : Bytes4) : (createApplicationMessageE pr pc st data rand guard).cost ≤ pc.signing :=
  Effort.cost_bind_free (Nat.le_refl pc.signing) fun _ _ => Nat.le_refl 0

/-- The AEADs of the cipher suites are as C125_join has it. -/
theorem C125_real : Spec.OpensWithin Conformance.realPrims := by
  intro a k n c d p h
  change Conformance.aeadOpenReal a k n c d = some p at h
  unfold Conformance.aeadOpenReal at h
  split at h
  · cases h
  · dsimp only at h
    split at h
    · cases h
      rw [Conformance.xorBytes_length (Conformance.aeadStream_length ..).symm, List.length_take]
      omega
    · cases h

theorem toyPrims_opens : Spec.OpensWithin toyPrims := by
  intro a k n c d p h
  change (if k.length = a.keySize then stripPrefix (k ++ n ++ d) c else none) = some p at h
  split at h
  · rw [stripPrefix_some h, List.length_append (bs := p)]
    omega
  · cases h

/-- One price at a time: hashes, signatures verified, decryptions, key pairs, signatures made, encryptions. -/
def onePrice : List Prices :=
  [{ call := 1, byte := 0, verification := 0, step := 0 }, { call := 0, byte := 0, verification := 1, step := 0 },
   { call := 0, byte := 0, verification := 0, step := 0, opening := 1 }, { call := 0, byte := 0, verification := 0, step := 0, derivation := 1 },
   { call := 0, byte := 0, verification := 0, step := 0, signing := 1 }, { call := 0, byte := 0, verification := 0, step := 0, sealing := 1 }]

/-- Joining with a welcome that has a path secret; the holder of another key package finds out that it is not meant. -/
example : (toyInvitation [1, 2] [.remove 1, .add (toyMember 5).pub] 2 (List.replicate 32 9) 5).holds (fun (_, _, w) =>
    (groupFromWelcome toyPrims w (toyMember 5) toyLater).holds (fun _ => true) &&
    decide (onePrice.map (fun pc => (groupFromWelcomeE toyPrims pc w (toyMember 5) toyLater).cost) = [21, 4, 1, 2, 0, 0]) &&
    decide (onePrice.map (fun pc => (groupFromWelcomeE toyPrims pc w (toyMember 6) toyLater).cost) = [1, 0, 0, 0, 0, 0])) = true := by decide +kernel

/-- One of three members invites two more and says something. -/
example : toyThree.holds (fun (a, _, _) =>
    (createWelcome toyPrims a [(toyMember 3).pub, (toyMember 4).pub] default).1.holds (fun _ => true) &&
    decide (onePrice.map (fun pc => (createWelcomeE toyPrims pc a [(toyMember 3).pub, (toyMember 4).pub] default).2) = [18, 0, 0, 0, 2, 2]) &&
    decide (onePrice.map (fun pc => (createApplicationMessageE toyPrims pc a [1, 2] [] default).cost) = [0, 0, 0, 0, 1, 0])) = true := by decide +kernel

end Mls
