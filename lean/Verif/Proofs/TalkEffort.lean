import Verif.Model.TalkEffort
import Verif.Proofs.CommitEffort
import Verif.Proofs.Schedule
/-
The calls of the KDF for a message: forgetting them gives the model back, and how many they are.
-/
namespace Mls

variable {pr : Prims} {pc : Prices} {α β : Type}

/-! ### Forgetting -/

theorem expandWithLabelK_result (cs : UInt16) (s l c : Bytes) (n : UInt16) :
    (expandWithLabelK pr pc cs s l c n).result = expandWithLabel pr cs s l c n := rfl

theorem deriveSecretK_result (cs : UInt16) (s l : Bytes) : (deriveSecretK pr pc cs s l).result = deriveSecret pr cs s l := by
  simp only [deriveSecretK, deriveSecret, Effort.result_bind, Effort.result_liftM, expandWithLabelK_result]

theorem deriveChildrenK_result (cs : UInt16) : ∀ fuel tree x, (deriveChildrenK pr pc cs fuel tree x).result = deriveChildren pr cs fuel tree x := by
  intro fuel
  induction fuel with
  | zero => intro tree x; rfl
  | succ fuel ih =>
    intro tree x
    unfold deriveChildrenK deriveChildren
    cases children x with
    | none => rfl
    | some c => simp only [Effort.result_bind, Effort.result_liftM, expandWithLabelK_result, ih]

theorem deriveSecretTreeK_result (cs : UInt16) (n : Nat) (s : Bytes) : (deriveSecretTreeK pr pc cs n s).result = deriveSecretTree pr cs n s := by
  simp only [deriveSecretTreeK, deriveSecretTree, Effort.result_bind, Effort.result_liftM, deriveChildrenK_result]

theorem deriveRatchetRootK_result (cs : UInt16) (tree : List (Option Bytes)) (x : Nat) (l : Bytes) :
    (deriveRatchetRootK pr pc cs tree x l).result = deriveRatchetRoot pr cs tree x l := by
  simp only [deriveRatchetRootK, deriveRatchetRoot, Effort.result_bind, Effort.result_liftM, expandWithLabelK_result, Effort.result_pure]
  rfl

theorem deriveTreeSecretK_result (cs : UInt16) (s l : Bytes) (g : UInt32) (n : UInt16) :
    (deriveTreeSecretK pr pc cs s l g n).result = deriveTreeSecret pr cs s l g n := rfl

theorem deriveNextK_result (cs : UInt16) (s : RatchetSecret) : (deriveNextK pr pc cs s).result = s.deriveNext pr cs := by
  simp only [deriveNextK, RatchetSecret.deriveNext, Effort.result_bind, Effort.result_liftM, deriveTreeSecretK_result, Effort.result_pure]
  rfl

theorem fastForwardK_result (cs : UInt16) (target : UInt32) : ∀ fuel s, (fastForwardK pr pc cs target fuel s).result = fastForward pr cs target fuel s := by
  intro fuel
  induction fuel with
  | zero =>
    intro s
    unfold fastForwardK fastForward
    split <;> rfl
  | succ fuel ih =>
    intro s
    unfold fastForwardK fastForward
    split
    · rfl
    · simp only [Effort.result_bind, deriveNextK_result, ih]

theorem keyAndNonceK_result (cs : UInt16) (s : RatchetSecret) (g : Bytes4) :
    (derivePrivateMessageKeyAndNonceK pr pc cs s g).result = derivePrivateMessageKeyAndNonce pr cs s g := by
  simp only [derivePrivateMessageKeyAndNonceK, derivePrivateMessageKeyAndNonce, deriveKeyK, deriveNonceK, RatchetSecret.deriveKey, RatchetSecret.deriveNonce,
    Effort.result_bind, Effort.result_liftM, deriveTreeSecretK_result, Effort.result_pure]
  rfl

theorem expandSenderDataKeyK_result (cs : UInt16) (s c : Bytes) : (expandSenderDataKeyK pr pc cs s c).result = expandSenderDataKey pr cs s c := by
  simp only [expandSenderDataKeyK, expandSenderDataKey, Effort.result_bind, Effort.result_liftM, expandWithLabelK_result]

theorem expandSenderDataNonceK_result (cs : UInt16) (s c : Bytes) : (expandSenderDataNonceK pr pc cs s c).result = expandSenderDataNonce pr cs s c := by
  simp only [expandSenderDataNonceK, expandSenderDataNonce, Effort.result_bind, Effort.result_liftM, expandWithLabelK_result]

theorem decryptSenderDataK_result (cs : UInt16) (m : PrivateMessage) (s : Bytes) :
    (decryptSenderDataK pr pc cs m s).result = m.decryptSenderData pr cs s := by
  simp only [decryptSenderDataK, PrivateMessage.decryptSenderData, Effort.result_bind, Effort.result_liftM, expandSenderDataKeyK_result,
    expandSenderDataNonceK_result]

theorem decryptContentK_result (cs : UInt16) (m : PrivateMessage) (s : RatchetSecret) (g : Bytes4) :
    (decryptContentK pr pc cs m s g).result = m.decryptContent pr cs s g := by
  simp only [decryptContentK, PrivateMessage.decryptContent, Effort.result_bind, Effort.result_liftM, keyAndNonceK_result]

theorem decryptPrivateMessageK_result (st : GroupState) (m : PrivateMessage) :
    (decryptPrivateMessageK pr pc st m).result = decryptPrivateMessage pr st m := by
  simp only [decryptPrivateMessageK, decryptPrivateMessage, Effort.result_bind, Effort.result_liftM, Effort.result_spend, Res.ok_bind, Effort.result_pure,
    deriveSecretK_result, decryptSenderDataK_result, deriveSecretTreeK_result, deriveRatchetRootK_result, fastForwardK_result, decryptContentK_result]
  rfl

theorem sealMessageK_result (g : Group) (content : FramedContent) (c : PrivateMessageContent) (guard : Bytes4) :
    (sealMessageK pr pc g content c guard).result = g.encryptPrivateMessage pr content c guard := by
  simp only [sealMessageK, Group.encryptPrivateMessage, encryptPrivateMessageK, encryptPrivateMessage, encryptPrivateMessageContentK, encryptPrivateMessageContent,
    encryptSenderDataK, encryptSenderData, Effort.result_bind, Effort.result_liftM, Effort.result_pure, deriveSecretK_result, deriveSecretTreeK_result,
    deriveRatchetRootK_result, keyAndNonceK_result, expandSenderDataKeyK_result, expandSenderDataNonceK_result]
  rfl

theorem createApplicationMessageK_result (st : GroupState) (data rand : Bytes) (guard : Bytes4) :
    (createApplicationMessageK pr pc st data rand guard).result = createApplicationMessage pr st data rand guard := by
  simp only [createApplicationMessageK, createApplicationMessage, Effort.result_bind, sealMessageK_result]
  rfl

/-! ### How many -/

/-- It costs so much at most, and exactly so much if nothing fails. -/
def Effort.Costs (p : Effort α) (b : Nat) : Prop := p.cost ≤ b ∧ ∀ y, p.result = .ok y → p.cost = b

theorem Effort.Costs.bind {p : Effort α} {f : α → Effort β} {a b : Nat} (h1 : p.Costs a) (h2 : ∀ x, p.result = .ok x → (f x).Costs b) :
    (p >>= f).Costs (a + b) := by
  obtain ⟨h3, h4⟩ := h1
  rw [Effort.bind_def]
  unfold Effort.Costs Effort.bind
  cases hr : p.result with
  | ok x =>
    obtain ⟨h5, h6⟩ := h2 x hr
    rw [h4 x hr]
    exact ⟨Nat.add_le_add_left h5 _, fun y hy => congrArg (a + ·) (h6 y hy)⟩
  | _ => exact ⟨Nat.le_trans h3 (Nat.le_add_right _ _), fun y hy => by cases hy⟩

theorem Effort.Costs.step {r : Res α} {f : α → Effort β} {b : Nat} (h : ∀ x, r = .ok x → (f x).Costs b) :
    ((liftM r : Effort α) >>= f).Costs b := by
  have := Effort.Costs.bind (p := (liftM r : Effort α)) (a := 0) ⟨Nat.le_refl 0, fun _ _ => rfl⟩ h
  rwa [Nat.zero_add] at this

theorem Effort.Costs.free (r : Res α) : (liftM r : Effort α).Costs 0 := ⟨Nat.le_refl 0, fun _ _ => rfl⟩

theorem Effort.Costs.pure (a : α) : (Pure.pure a : Effort α).Costs 0 := ⟨Nat.le_refl 0, fun _ _ => rfl⟩

theorem Effort.Costs.spend (n : Nat) : (Effort.spend n).Costs n := ⟨Nat.le_refl n, fun _ _ => rfl⟩

open Effort

theorem expand_costs (cs : UInt16) (s l c : Bytes) (n : UInt16) : (expandWithLabelK pr pc cs s l c n).Costs pc.expansion :=
  Costs.bind (b := 0) (Costs.spend _) fun _ _ => Costs.free _

theorem deriveSecret_costs (cs : UInt16) (s l : Bytes) : (deriveSecretK pr pc cs s l).Costs pc.expansion :=
  Costs.step fun _ _ => expand_costs ..

theorem deriveChildren_costs (cs : UInt16) : ∀ k j fuel tree, Low k j →
    (deriveChildrenK pr pc cs fuel tree (idx k j)).Costs (pc.expansion * (2 * (2 ^ k - 1))) := by
  intro k
  induction k with
  | zero =>
    intro j fuel tree hlow
    cases fuel with
    | zero => exact ⟨Nat.zero_le _, fun _ h => by cases h⟩
    | succ fuel =>
      unfold deriveChildrenK
      rw [children_idx_zero]
      exact Costs.free (.ok tree)
  | succ k ih =>
    intro j fuel tree hlow
    cases fuel with
    | zero => exact ⟨Nat.zero_le _, fun _ h => by cases h⟩
    | succ fuel =>
      unfold deriveChildrenK
      rw [hlow.children]
      have e : pc.expansion * (2 * (2 ^ (k + 1) - 1)) =
          pc.expansion + (pc.expansion + (pc.expansion * (2 * (2 ^ k - 1)) + pc.expansion * (2 * (2 ^ k - 1)))) := by
        have := Nat.two_pow_pos k
        rw [show 2 * (2 ^ (k + 1) - 1) = 1 + (1 + (2 * (2 ^ k - 1) + 2 * (2 ^ k - 1))) by rw [Nat.pow_succ]; omega]
        ring
      rw [e]
      refine Costs.step fun _ _ => Costs.step fun _ _ => Costs.bind (expand_costs ..) fun _ _ => Costs.bind (expand_costs ..) fun _ _ => ?_
      exact Costs.step fun _ _ => Costs.step fun _ _ => Costs.bind (ih _ _ _ hlow.left) fun _ _ => ih _ _ _ hlow.right

theorem deriveSecretTree_costs (cs : UInt16) {d : Nat} (hd : d ≤ 31) (s : Bytes) :
    (deriveSecretTreeK pr pc cs (2 ^ d) s).Costs (pc.expansion * (2 * (2 ^ d - 1))) := by
  unfold deriveSecretTreeK
  refine Costs.step fun tree _ => ?_
  rw [root_idx hd]
  refine deriveChildren_costs cs d 0 34 tree ?_
  have : 2 ^ (d + 1) ≤ 2 ^ 32 := Nat.pow_le_pow_right (by decide) (by omega)
  simpa [Low] using this

theorem ratchetRoot_costs (cs : UInt16) (tree : List (Option Bytes)) (x : Nat) (l : Bytes) : (deriveRatchetRootK pr pc cs tree x l).Costs pc.expansion :=
  Costs.step fun _ _ => Costs.step fun _ _ => Costs.bind (b := 0) (expand_costs ..) fun _ _ => Costs.pure _

theorem deriveNext_costs (cs : UInt16) (s : RatchetSecret) : (deriveNextK pr pc cs s).Costs pc.expansion :=
  Costs.step fun _ _ => Costs.bind (b := 0) (expand_costs ..) fun _ _ => Costs.pure _

theorem fastForward_costs (cs : UInt16) (target : UInt32) : ∀ k fuel s, s.generation.toNat + k = target.toNat →
    (fastForwardK pr pc cs target fuel s).Costs (pc.expansion * k) := by
  intro k
  induction k with
  | zero =>
    intro fuel s h
    have : s.generation = target := UInt32.toNat_inj.1 (by omega)
    cases fuel <;> (unfold fastForwardK; rw [if_pos this]; exact Costs.free (.ok s))
  | succ k ih =>
    intro fuel s h
    have : s.generation ≠ target := fun e => by rw [e] at h; omega
    cases fuel with
    | zero => unfold fastForwardK; rw [if_neg this]; exact ⟨Nat.zero_le _, fun _ h => by cases h⟩
    | succ fuel =>
      unfold fastForwardK
      rw [if_neg this, Nat.mul_succ, Nat.add_comm]
      refine Costs.bind (deriveNext_costs ..) fun s' hs' => ih fuel s' ?_
      rw [deriveNextK_result] at hs'
      unfold RatchetSecret.deriveNext at hs'
      simp only [Res.bind_ok_iff] at hs'
      obtain ⟨_, _, next, _, hs'⟩ := hs'
      cases hs'
      have := target.toNat_lt
      rw [UInt32.toNat_add]
      simp only [UInt32.reduceToNat] at *
      omega

theorem keyAndNonce_costs (cs : UInt16) (s : RatchetSecret) (g : Bytes4) :
    (derivePrivateMessageKeyAndNonceK pr pc cs s g).Costs (pc.expansion + pc.expansion) :=
  Costs.bind (Costs.step fun _ _ => expand_costs ..) fun _ _ => Costs.bind (b := 0) (Costs.step fun _ _ => expand_costs ..) fun _ _ =>
    Costs.step fun _ _ => Costs.pure _

theorem senderDataKey_costs (cs : UInt16) (s c : Bytes) : (expandSenderDataKeyK pr pc cs s c).Costs pc.expansion :=
  Costs.step fun _ _ => Costs.step fun _ _ => expand_costs ..

theorem senderDataNonce_costs (cs : UInt16) (s c : Bytes) : (expandSenderDataNonceK pr pc cs s c).Costs pc.expansion :=
  Costs.step fun _ _ => Costs.step fun _ _ => expand_costs ..

theorem decryptSenderData_costs (cs : UInt16) (m : PrivateMessage) (s : Bytes) :
    (decryptSenderDataK pr pc cs m s).Costs (pc.expansion + pc.expansion) :=
  Costs.bind (senderDataKey_costs ..) fun _ _ => Costs.bind (b := 0) (senderDataNonce_costs ..) fun _ _ =>
    Costs.step fun _ _ => Costs.step fun _ _ => Costs.free _

theorem decryptContent_costs (cs : UInt16) (m : PrivateMessage) (s : RatchetSecret) (g : Bytes4) :
    (decryptContentK pr pc cs m s g).Costs (pc.expansion + pc.expansion) :=
  Costs.bind (b := 0) (keyAndNonce_costs ..) fun _ _ => Costs.step fun _ _ => Costs.step fun _ _ => Costs.free _

theorem encryptPrivateMessage_costs (cs : UInt16) (secret : RatchetSecret) (s : Bytes) (content : FramedContent) (c : PrivateMessageContent) (sd : SenderData) :
    (encryptPrivateMessageK pr pc cs secret s content c sd).Costs ((pc.expansion + pc.expansion) + (pc.expansion + pc.expansion)) := by
  unfold encryptPrivateMessageK
  refine Costs.bind ?_ fun _ _ => Costs.bind (b := 0) ?_ fun _ _ => Costs.pure _
  · exact Costs.step fun _ _ => Costs.bind (b := 0) (keyAndNonce_costs ..) fun _ _ => Costs.step fun _ _ => Costs.free _
  · exact Costs.bind (senderDataKey_costs ..) fun _ _ => Costs.bind (b := 0) (senderDataNonce_costs ..) fun _ _ =>
      Costs.step fun _ _ => Costs.step fun _ _ => Costs.free _

theorem sealMessage_costs {g : Group} {d : Nat} (hd : d ≤ 31) (hl : treeNumLeaves g.tree = 2 ^ d) (content : FramedContent) (c : PrivateMessageContent)
    (guard : Bytes4) : (sealMessageK pr pc g content c guard).Costs (pc.expansion * (2 * 2 ^ d + 5)) := by
  have e : pc.expansion * (2 * 2 ^ d + 5) = pc.expansion + (pc.expansion * (2 * (2 ^ d - 1)) + (pc.expansion + (pc.expansion +
      ((pc.expansion + pc.expansion) + (pc.expansion + pc.expansion))))) := by
    have := Nat.two_pow_pos d
    rw [show 2 * 2 ^ d + 5 = 2 * (2 ^ d - 1) + 7 by omega]
    ring
  unfold sealMessageK
  rw [e, hl]
  refine Costs.bind (deriveSecret_costs ..) fun _ _ => Costs.bind (deriveSecretTree_costs _ hd _) fun _ _ => Costs.bind (ratchetRoot_costs ..) fun _ _ => ?_
  exact Costs.bind (deriveSecret_costs ..) fun _ _ => Costs.bind (b := 0) (encryptPrivateMessage_costs ..) fun _ _ => Costs.free _

end Mls
