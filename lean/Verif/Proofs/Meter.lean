import Verif.Model.Meter
import Verif.Proofs.Codec4
/-
The metered decoders of Model/Meter.lean decode what the decoders of Model/Codec.lean
decode, and bounds on what they ask for.
-/
namespace Mls

/-! ### Forgetting the count -/

/-- The decoder without the count. -/
def Metered.erase {α : Type} (p : Metered α) : P α := ⟨fun s => (p.run s).1⟩

variable {α β : Type}

@[local simp] theorem Metered.erase_lift (p : P α) : (Metered.lift p).erase = p := rfl

@[local simp] theorem Metered.erase_liftM (p : P α) : (liftM p : Metered α).erase = p := rfl

@[local simp] theorem Metered.erase_monadLift (p : P α) :
    (MonadLiftT.monadLift p : Metered α).erase = p := rfl

@[local simp] theorem Metered.erase_fail : (Metered.fail : Metered α).erase = P.fail := rfl

@[local simp] theorem Metered.erase_panic : (Metered.panic : Metered α).erase = P.panic := rfl

@[local simp] theorem Metered.erase_pure (a : α) : (Pure.pure a : Metered α).erase = Pure.pure a := rfl

@[local simp] theorem Metered.erase_ite {c : Prop} [Decidable c] (p q : Metered α) :
    (if c then p else q).erase = if c then p.erase else q.erase := by split <;> rfl

theorem Metered.bind_run (p : Metered α) (f : α → Metered β) (s : Bytes) : (p >>= f).run s =
    match p.run s with
    | ((.ok a, s'), m) => (((f a).run s').1, m.add ((f a).run s').2)
    | ((.err, s'), m) => ((.err, s'), m)
    | ((.panic, s'), m) => ((.panic, s'), m)
    | ((.hang, s'), m) => ((.hang, s'), m) := rfl

@[local simp] theorem Metered.erase_bind (p : Metered α) (f : α → Metered β) :
    (p >>= f).erase = p.erase >>= fun a => (f a).erase := by
  show P.mk _ = P.mk _
  congr 1
  funext s
  show ((p >>= f).run s).1 = _
  rw [Metered.bind_run]
  show _ = match (p.run s).1 with
    | (.ok a, s') => ((f a).run s').1
    | (.err, s') => (.err, s')
    | (.panic, s') => (.panic, s')
    | (.hang, s') => (.hang, s')
  rcases p.run s with ⟨⟨r, s'⟩, m⟩
  cases r <;> rfl

@[local simp] theorem Metered.erase_attempt (p : Metered α) :
    (Metered.attempt p).erase = P.attempt p.erase := by
  show P.mk _ = P.mk _
  congr 1
  funext s
  show ((Metered.attempt p).run s).1 = match (p.run s).1 with
    | (.ok a, s') => (.ok (some a), s')
    | (.err, s') => (.ok none, s')
    | (.panic, s') => (.panic, s')
    | (.hang, s') => (.hang, s')
  have h : (Metered.attempt p).run s = match p.run s with
      | ((.ok a, s'), m) => ((.ok (some a), s'), m)
      | ((.err, s'), m) => ((.ok none, s'), m)
      | ((.panic, s'), m) => ((.panic, s'), m)
      | ((.hang, s'), m) => ((.hang, s'), m) := rfl
  rw [h]
  rcases p.run s with ⟨⟨r, s'⟩, m⟩
  cases r <;> rfl

@[local simp] theorem makeN_erase (n : Nat) : (makeN n).erase = readN n := by
  show P.mk _ = P.mk _
  congr 1
  funext s
  unfold makeN
  show (if s.length < n then ((Res.err, s), (⟨0, [n]⟩ : Meter)) else _).1 = _
  split <;> rfl

@[local simp] theorem readOpaqueVec_erase : readOpaqueVecM.erase = readOpaqueVec := by
  unfold readOpaqueVecM readOpaqueVec
  simp

theorem readVectorLoop_erase (f : Metered α) (fuel : Nat) (s : Bytes) :
    (readVectorLoopM f fuel s).1 = readVectorLoop f.erase fuel s := by
  induction fuel generalizing s with
  | zero => cases s <;> rfl
  | succ fuel ih =>
    cases s with
    | nil => rfl
    | cons b bs =>
      unfold readVectorLoopM readVectorLoop
      show _ = match (f.run (b :: bs)).1 with
        | (.ok a, ss') => (readVectorLoop f.erase fuel ss').bind fun as => .ok (a :: as)
        | (.err, _) => .err
        | (.panic, _) => .panic
        | (.hang, _) => .hang
      rcases f.run (b :: bs) with ⟨⟨r, s'⟩, m⟩
      cases r with
      | ok a => simp only [ih]
      | err => rfl
      | panic => rfl
      | hang => rfl

@[local simp] theorem readVector_erase (f : Metered α) : (readVectorM f).erase = readVector f.erase := by
  unfold readVectorM readVector
  simp only [Metered.erase_bind, Metered.erase_liftM]
  congr 1; funext n; congr 1; funext v
  show P.mk _ = P.mk _
  congr 1
  funext s
  simp only [readVectorLoop_erase]

@[local simp] theorem credential_erase : (Credential.decM).erase = Credential.dec := by
  unfold Credential.decM Credential.dec
  simp

@[local simp] theorem hpkeCiphertext_erase : (HpkeCiphertext.decM).erase = HpkeCiphertext.dec := by
  unfold HpkeCiphertext.decM HpkeCiphertext.dec
  simp

@[local simp] theorem parentNode_erase : (ParentNode.decM).erase = ParentNode.dec := by
  unfold ParentNode.decM ParentNode.dec
  simp

@[local simp] theorem extension_erase : (Extension.decM).erase = Extension.dec := by
  unfold Extension.decM Extension.dec
  simp

@[local simp] theorem decExtensions_erase : (decExtensionsM).erase = decExtensions := by
  unfold decExtensionsM decExtensions
  simp

@[local simp] theorem leafNodeSourceBody_erase (t : UInt8) : (LeafNodeSource.decBodyM t).erase = LeafNodeSource.decBody t := by
  unfold LeafNodeSource.decBodyM LeafNodeSource.decBody
  simp

@[local simp] theorem leafNode_erase : (LeafNode.decM).erase = LeafNode.dec := by
  unfold LeafNode.decM LeafNode.dec
  simp

@[local simp] theorem updatePathNode_erase : (UpdatePathNode.decM).erase = UpdatePathNode.dec := by
  unfold UpdatePathNode.decM UpdatePathNode.dec
  simp

@[local simp] theorem updatePath_erase : (UpdatePath.decM).erase = UpdatePath.dec := by
  unfold UpdatePath.decM UpdatePath.dec
  simp

@[local simp] theorem node_erase : (Node.decM).erase = Node.dec := by
  unfold Node.decM Node.dec
  simp

@[local simp] theorem decOptNode_erase : (decOptNodeM).erase = decOptNode := by
  unfold decOptNodeM decOptNode
  simp

@[local simp] theorem keyPackage_erase : (KeyPackage.decM).erase = KeyPackage.dec := by
  unfold KeyPackage.decM KeyPackage.dec
  simp

@[local simp] theorem preSharedKeyID_erase : (PreSharedKeyID.decM).erase = PreSharedKeyID.dec := by
  unfold PreSharedKeyID.decM PreSharedKeyID.dec
  simp

@[local simp] theorem reInit_erase : (ReInit.decM).erase = ReInit.dec := by
  unfold ReInit.decM ReInit.dec
  simp

@[local simp] theorem proposal_erase : (Proposal.decM).erase = Proposal.dec := by
  unfold Proposal.decM Proposal.dec
  simp

@[local simp] theorem proposalOrRef_erase : (ProposalOrRef.decM).erase = ProposalOrRef.dec := by
  unfold ProposalOrRef.decM ProposalOrRef.dec
  simp

@[local simp] theorem commit_erase : (Commit.decM).erase = Commit.dec := by
  unfold Commit.decM Commit.dec
  simp

@[local simp] theorem content_erase (ct : ContentType) : (Content.decM ct).erase = Content.dec ct := by
  cases ct <;> simp [Content.decM, Content.dec]

@[local simp] theorem framedContent_erase : (FramedContent.decM).erase = FramedContent.dec := by
  unfold FramedContent.decM FramedContent.dec
  simp

@[local simp] theorem authData_erase (ct : ContentType) : (AuthData.decM ct).erase = AuthData.dec ct := by
  unfold AuthData.decM AuthData.dec
  simp

@[local simp] theorem publicMessage_erase : (PublicMessage.decM).erase = PublicMessage.dec := by
  unfold PublicMessage.decM PublicMessage.dec
  simp
  congr 1; funext c; congr 1; funext a
  cases c.sender <;> simp

@[local simp] theorem privateMessage_erase : (PrivateMessage.decM).erase = PrivateMessage.dec := by
  unfold PrivateMessage.decM PrivateMessage.dec
  simp

@[local simp] theorem privateMessageContent_erase (ct : ContentType) : (PrivateMessageContent.decM ct).erase = PrivateMessageContent.dec ct := by
  unfold PrivateMessageContent.decM PrivateMessageContent.dec
  simp

@[local simp] theorem groupContext_erase : (GroupContext.decM).erase = GroupContext.dec := by
  unfold GroupContext.decM GroupContext.dec
  simp

@[local simp] theorem groupInfo_erase : (GroupInfo.decM).erase = GroupInfo.dec := by
  unfold GroupInfo.decM GroupInfo.dec
  simp
  congr 1; funext c; congr 1; funext e; congr 1; funext o
  cases o with
  | none => rfl
  | some tag =>
    simp
    congr 1; funext o
    cases o with
    | none => rfl
    | some i =>
      simp
      congr 1; funext o
      cases o <;> rfl

@[local simp] theorem groupSecrets_erase : (GroupSecrets.decM).erase = GroupSecrets.dec := by
  unfold GroupSecrets.decM GroupSecrets.dec
  simp

@[local simp] theorem encryptedGroupSecrets_erase : (EncryptedGroupSecrets.decM).erase = EncryptedGroupSecrets.dec := by
  unfold EncryptedGroupSecrets.decM EncryptedGroupSecrets.dec
  simp

@[local simp] theorem welcome_erase : (Welcome.decM).erase = Welcome.dec := by
  unfold Welcome.decM Welcome.dec
  simp

@[local simp] theorem mlsMessage_erase : (MlsMessage.decM).erase = MlsMessage.dec := by
  unfold MlsMessage.decM MlsMessage.dec
  simp

@[local simp] theorem decTree_erase : (decTreeM).erase = decTree := by
  unfold decTreeM decTree
  simp

/-! ### Bounds -/

/-- Whatever the outcome, the remaining input is not longer. -/
def Shorter (p : P α) : Prop := ∀ s, (p.run s).2.length ≤ s.length

theorem Shorter.pure (a : α) : Shorter (Pure.pure a : P α) := fun _ => Nat.le_refl _

theorem Shorter.fail : Shorter (P.fail : P α) := fun _ => Nat.le_refl _

theorem Shorter.panic : Shorter (P.panic : P α) := fun _ => Nat.le_refl _

theorem Shorter.bind {p : P α} {f : α → P β} (hp : Shorter p) (hf : ∀ a, Shorter (f a)) :
    Shorter (p >>= f) := by
  intro s
  have h := hp s
  rw [P.bind_run]
  revert h
  rcases p.run s with ⟨r, s'⟩
  intro h
  cases r with
  | ok a => exact Nat.le_trans (hf a s') h
  | err => exact h
  | panic => exact h
  | hang => exact h

theorem Shorter.ite {c : Prop} [Decidable c] {p q : P α} (hp : Shorter p) (hq : Shorter q) :
    Shorter (if c then p else q) := by split <;> assumption

theorem readN_shorter (n : Nat) : Shorter (readN n) := by
  intro s
  rw [readN_run]
  split
  · exact Nat.le_refl _
  · simp

theorem readU8_shorter : Shorter readU8 := (readN_shorter 1).bind fun _ => Shorter.pure _
theorem readU16_shorter : Shorter readU16 := (readN_shorter 2).bind fun _ => Shorter.pure _
theorem readU32_shorter : Shorter readU32 := (readN_shorter 4).bind fun _ => Shorter.pure _
theorem readU64_shorter : Shorter readU64 := (readN_shorter 8).bind fun _ => Shorter.pure _

theorem readVarintLoop_shorter (k : Nat) (v : UInt32) : Shorter (readVarintLoop k v) := by
  induction k generalizing v with
  | zero => exact Shorter.pure _
  | succ k ih => exact readU8_shorter.bind fun _ => ih _

theorem readVarint_shorter : Shorter readVarint := by
  unfold readVarint
  refine readU8_shorter.bind fun b => ?_
  refine Shorter.ite Shorter.fail ((readVarintLoop_shorter _ _).bind fun v => ?_)
  exact Shorter.ite Shorter.fail (Shorter.pure _)

theorem readVector_shorter (p : P α) : Shorter (readVector p) := by
  unfold readVector
  exact readVarint_shorter.bind fun n => (readN_shorter _).bind fun v s => Nat.le_refl _

theorem readOptional_shorter : Shorter readOptional :=
  readU8_shorter.bind fun _ => Shorter.ite (Shorter.pure _) (Shorter.ite (Shorter.pure _) Shorter.fail)

/-- Proves `Shorter` of a decoder by its parts. -/
syntax "meter_shorter" : tactic
macro_rules
  | `(tactic| meter_shorter) => `(tactic| repeat' first
      | assumption
      | with_reducible exact Shorter.pure _ | with_reducible exact Shorter.fail | with_reducible exact Shorter.panic
      | with_reducible exact readU8_shorter | with_reducible exact readU16_shorter | with_reducible exact readU32_shorter | with_reducible exact readU64_shorter
      | with_reducible exact readN_shorter _ | with_reducible exact readVector_shorter _ | with_reducible exact readOptional_shorter
      | with_reducible refine Shorter.bind ?_ (fun _ => ?_) | with_reducible refine Shorter.ite ?_ ?_)

theorem leafNodeSourceTag_shorter : Shorter leafNodeSourceTag := by unfold leafNodeSourceTag; meter_shorter
theorem capabilities_shorter : Shorter Capabilities.dec := by unfold Capabilities.dec; meter_shorter
theorem lifetime_shorter : Shorter Lifetime.dec := by unfold Lifetime.dec; meter_shorter
theorem nodeTypeTag_shorter : Shorter nodeTypeTag := by unfold nodeTypeTag; meter_shorter
theorem pskTypeTag_shorter : Shorter pskTypeTag := by unfold pskTypeTag; meter_shorter
theorem pskUsage_shorter : Shorter PskUsage.dec := by unfold PskUsage.dec; meter_shorter
theorem proposalTypeTag_shorter : Shorter proposalTypeTag := by unfold proposalTypeTag; meter_shorter
theorem proposalOrRefTag_shorter : Shorter proposalOrRefTag := by unfold proposalOrRefTag; meter_shorter
theorem contentTypeTag_shorter : Shorter contentTypeTag := by unfold contentTypeTag; meter_shorter
theorem contentType_shorter : Shorter ContentType.dec := by
  have := contentTypeTag_shorter
  unfold ContentType.dec; meter_shorter
theorem senderTypeTag_shorter : Shorter senderTypeTag := by unfold senderTypeTag; meter_shorter
theorem sender_shorter : Shorter Sender.dec := by
  have := senderTypeTag_shorter
  unfold Sender.dec; meter_shorter
theorem wireFormatTag_shorter : Shorter wireFormatTag := by unfold wireFormatTag; meter_shorter

/-- Whatever the outcome: the bytes kept, one for each buffer dropped and the bytes left
over are no more than the input, and no buffer dropped has 2^30 bytes. -/
structure Thrifty (p : Metered α) : Prop where
  room : ∀ s, (p.run s).2.kept + (p.run s).2.dropped.length + (p.run s).1.2.length ≤ s.length
  small : ∀ s, ∀ d ∈ (p.run s).2.dropped, d < 2 ^ 30

theorem Thrifty.lift {p : P α} (h : Shorter p) : Thrifty (Metered.lift p) :=
  ⟨fun s => by have := h s; simpa [Metered.lift, Meter.zero] using this,
    fun s d hd => by simp [Metered.lift, Meter.zero] at hd⟩

theorem Thrifty.liftM {p : P α} (h : Shorter p) : Thrifty (liftM p : Metered α) := Thrifty.lift h

theorem Thrifty.pure (a : α) : Thrifty (Pure.pure a : Metered α) := Thrifty.lift (Shorter.pure a)

theorem Thrifty.fail : Thrifty (Metered.fail : Metered α) := Thrifty.lift Shorter.fail

theorem Thrifty.panic : Thrifty (Metered.panic : Metered α) := Thrifty.lift Shorter.panic

theorem Thrifty.ite {c : Prop} [Decidable c] {p q : Metered α} (hp : Thrifty p) (hq : Thrifty q) :
    Thrifty (if c then p else q) := by split <;> assumption

theorem Thrifty.bind {p : Metered α} {f : α → Metered β} (hp : Thrifty p)
    (hf : ∀ a, Thrifty (f a)) : Thrifty (p >>= f) := by
  constructor
  · intro s
    have h := hp.room s
    rw [Metered.bind_run]
    revert h
    rcases p.run s with ⟨⟨r, s'⟩, m⟩
    intro h
    cases r with
    | ok a =>
      have h' := (hf a).room s'
      simp only [Meter.add, List.length_append] at h h' ⊢
      omega
    | err => exact h
    | panic => exact h
    | hang => exact h
  · intro s d hd
    have h := hp.small s
    rw [Metered.bind_run] at hd
    revert h hd
    rcases p.run s with ⟨⟨r, s'⟩, m⟩
    intro hd h
    cases r with
    | ok a =>
      rcases List.mem_append.1 hd with hd | hd
      · exact h d hd
      · exact (hf a).small s' d hd
    | err => exact h d hd
    | panic => exact h d hd
    | hang => exact h d hd


theorem Metered.attempt_run (p : Metered α) (s : Bytes) : (Metered.attempt p).run s =
    match p.run s with
    | ((.ok a, s'), m) => ((.ok (some a), s'), m)
    | ((.err, s'), m) => ((.ok none, s'), m)
    | ((.panic, s'), m) => ((.panic, s'), m)
    | ((.hang, s'), m) => ((.hang, s'), m) := rfl

theorem Thrifty.attempt {p : Metered α} (hp : Thrifty p) : Thrifty (Metered.attempt p) := by
  constructor
  · intro s
    have h := hp.room s
    rw [Metered.attempt_run]
    revert h
    rcases p.run s with ⟨⟨r, s'⟩, m⟩
    cases r <;> exact id
  · intro s
    have h := hp.small s
    rw [Metered.attempt_run]
    revert h
    rcases p.run s with ⟨⟨r, s'⟩, m⟩
    cases r <;> exact id

theorem readVarint_lt {s rest : Bytes} {n : UInt32} (h : readVarint.run s = (.ok n, rest)) :
    n.toNat < 2 ^ 30 := by
  obtain ⟨bs, h1, _⟩ := readVarint_canon_spec s rest n h
  apply Classical.byContradiction
  intro hn
  rw [varint_none_of_ge (by omega)] at h1
  cases h1

theorem readOpaqueVec_run (s : Bytes) : readOpaqueVecM.run s =
    match readVarint.run s with
    | (.ok n, s') =>
      if s'.length < n.toNat then ((.err, s'), ⟨0, [n.toNat]⟩)
      else ((.ok (s'.take n.toNat), s'.drop n.toNat), ⟨n.toNat, []⟩)
    | (.err, s') => ((.err, s'), Meter.zero)
    | (.panic, s') => ((.panic, s'), Meter.zero)
    | (.hang, s') => ((.hang, s'), Meter.zero) := by
  unfold readOpaqueVecM
  rw [Metered.bind_run]
  rw [show (liftM readVarint : Metered UInt32).run s = (readVarint.run s, Meter.zero) from rfl]
  rcases readVarint.run s with ⟨r, s'⟩
  cases r with
  | ok n =>
    simp only [makeN]
    split <;> simp [Meter.add, Meter.zero]
  | err => rfl
  | panic => rfl
  | hang => rfl

theorem readOpaqueVec_thrifty : Thrifty readOpaqueVecM := by
  constructor
  · intro s
    rw [readOpaqueVec_run]
    have hs := readVarint_shorter s
    rcases h : readVarint.run s with ⟨r, s'⟩
    rw [h] at hs
    cases r with
    | ok n =>
      have := readVarint_consumes _ _ _ h
      simp only
      split
      · simp; omega
      · simp; omega
    | err => simpa [Meter.zero] using hs
    | panic => simpa [Meter.zero] using hs
    | hang => simpa [Meter.zero] using hs
  · intro s d hd
    rw [readOpaqueVec_run] at hd
    rcases h : readVarint.run s with ⟨r, s'⟩
    rw [h] at hd
    cases r with
    | ok n =>
      have := readVarint_lt h
      simp only at hd
      split at hd
      · simp at hd; omega
      · simp at hd
    | err => simp [Meter.zero] at hd
    | panic => simp [Meter.zero] at hd
    | hang => simp [Meter.zero] at hd

theorem readVectorLoop_thrifty {f : Metered α} (hf : Thrifty f) (fuel : Nat) (s : Bytes) :
    (readVectorLoopM f fuel s).2.kept + (readVectorLoopM f fuel s).2.dropped.length ≤ s.length ∧
      ∀ d ∈ (readVectorLoopM f fuel s).2.dropped, d < 2 ^ 30 := by
  induction fuel generalizing s with
  | zero => cases s <;> simp [readVectorLoopM, Meter.zero]
  | succ fuel ih =>
    cases s with
    | nil => simp [readVectorLoopM, Meter.zero]
    | cons b bs =>
      unfold readVectorLoopM
      have h1 := hf.room (b :: bs)
      have h2 := hf.small (b :: bs)
      revert h1 h2
      rcases f.run (b :: bs) with ⟨⟨r, s'⟩, m⟩
      intro h1 h2
      cases r with
      | ok a =>
        obtain ⟨h3, h4⟩ := ih s'
        simp only [Meter.add, List.length_append, List.mem_append] at h1 ⊢
        refine ⟨by omega, fun d hd => ?_⟩
        rcases hd with hd | hd
        · exact h2 d hd
        · exact h4 d hd
      | err => exact ⟨by simp only at h1 ⊢; omega, h2⟩
      | panic => exact ⟨by simp only at h1 ⊢; omega, h2⟩
      | hang => exact ⟨by simp only at h1 ⊢; omega, h2⟩

theorem readVectorM_run (f : Metered α) (s : Bytes) : (readVectorM f).run s =
    match readVarint.run s with
    | (.ok n, s') =>
      if s'.length < n.toNat then ((.err, s'), Meter.zero)
      else (((readVectorLoopM f n.toNat (s'.take n.toNat)).1, s'.drop n.toNat),
        (readVectorLoopM f n.toNat (s'.take n.toNat)).2)
    | (.err, s') => ((.err, s'), Meter.zero)
    | (.panic, s') => ((.panic, s'), Meter.zero)
    | (.hang, s') => ((.hang, s'), Meter.zero) := by
  unfold readVectorM
  rw [Metered.bind_run]
  rw [show (liftM readVarint : Metered UInt32).run s = (readVarint.run s, Meter.zero) from rfl]
  rcases readVarint.run s with ⟨r, s'⟩
  cases r with
  | ok n =>
    simp only [Metered.bind_run]
    have hr : (liftM (readN n.toNat) : Metered Bytes).run s' = ((readN n.toNat).run s', Meter.zero) := rfl
    rw [hr, readN_run]
    by_cases hs : s'.length < n.toNat
    · rw [if_pos hs, if_pos hs]
      simp [Meter.add, Meter.zero]
    · have hlen : (s'.take n.toNat).length = n.toNat := by rw [List.length_take]; omega
      rw [if_neg hs, if_neg hs]
      simp only [Meter.add, Meter.zero, hlen, Nat.zero_add, List.nil_append]
  | err => rfl
  | panic => rfl
  | hang => rfl

theorem readVector_thrifty {f : Metered α} (hf : Thrifty f) : Thrifty (readVectorM f) := by
  constructor
  · intro s
    rw [readVectorM_run]
    have hs := readVarint_shorter s
    rcases h : readVarint.run s with ⟨r, s'⟩
    rw [h] at hs
    cases r with
    | ok n =>
      simp only at hs ⊢
      split
      · simpa [Meter.zero] using hs
      · have := (readVectorLoop_thrifty hf n.toNat (s'.take n.toNat)).1
        simp only [List.length_drop]
        rw [List.length_take] at this
        omega
    | err => simpa [Meter.zero] using hs
    | panic => simpa [Meter.zero] using hs
    | hang => simpa [Meter.zero] using hs
  · intro s d hd
    rw [readVectorM_run] at hd
    rcases h : readVarint.run s with ⟨r, s'⟩
    rw [h] at hd
    cases r with
    | ok n =>
      simp only at hd
      split at hd
      · simp [Meter.zero] at hd
      · exact (readVectorLoop_thrifty hf n.toNat (s'.take n.toNat)).2 d hd
    | err => simp [Meter.zero] at hd
    | panic => simp [Meter.zero] at hd
    | hang => simp [Meter.zero] at hd

/-- The parts of the decoders that ask for no memory. -/
syntax "meter_lift" : tactic
macro_rules
  | `(tactic| meter_lift) => `(tactic| first
      | with_reducible exact readU8_shorter | with_reducible exact readU16_shorter | with_reducible exact readU32_shorter | with_reducible exact readU64_shorter
      | with_reducible exact readVector_shorter _ | with_reducible exact readOptional_shorter | with_reducible exact leafNodeSourceTag_shorter
      | with_reducible exact capabilities_shorter | with_reducible exact lifetime_shorter | with_reducible exact nodeTypeTag_shorter
      | with_reducible exact pskTypeTag_shorter | with_reducible exact pskUsage_shorter | with_reducible exact proposalTypeTag_shorter
      | with_reducible exact proposalOrRefTag_shorter | with_reducible exact contentTypeTag_shorter | with_reducible exact contentType_shorter
      | with_reducible exact senderTypeTag_shorter | with_reducible exact sender_shorter | with_reducible exact wireFormatTag_shorter)

theorem credential_thrifty : Thrifty (Credential.decM) := by
  unfold Credential.decM
  repeat' first
    | with_reducible exact Thrifty.pure _ | with_reducible exact Thrifty.fail | with_reducible exact Thrifty.panic | with_reducible exact readOpaqueVec_thrifty
    | with_reducible exact readVector_thrifty readOpaqueVec_thrifty
    | with_reducible exact Thrifty.attempt readOpaqueVec_thrifty | with_reducible exact Thrifty.attempt (Thrifty.lift readU32_shorter)
    | with_reducible exact Thrifty.liftM (by meter_lift) | with_reducible exact Thrifty.lift (by meter_lift)
    | with_reducible refine Thrifty.bind ?_ (fun _ => ?_) | with_reducible refine Thrifty.ite ?_ ?_ | split

theorem hpkeCiphertext_thrifty : Thrifty (HpkeCiphertext.decM) := by
  unfold HpkeCiphertext.decM
  repeat' first
    | with_reducible exact Thrifty.pure _ | with_reducible exact Thrifty.fail | with_reducible exact Thrifty.panic | with_reducible exact readOpaqueVec_thrifty
    | with_reducible exact readVector_thrifty readOpaqueVec_thrifty
    | with_reducible exact Thrifty.attempt readOpaqueVec_thrifty | with_reducible exact Thrifty.attempt (Thrifty.lift readU32_shorter)
    | with_reducible exact Thrifty.liftM (by meter_lift) | with_reducible exact Thrifty.lift (by meter_lift)
    | with_reducible refine Thrifty.bind ?_ (fun _ => ?_) | with_reducible refine Thrifty.ite ?_ ?_ | split

theorem parentNode_thrifty : Thrifty (ParentNode.decM) := by
  unfold ParentNode.decM
  repeat' first
    | with_reducible exact Thrifty.pure _ | with_reducible exact Thrifty.fail | with_reducible exact Thrifty.panic | with_reducible exact readOpaqueVec_thrifty
    | with_reducible exact readVector_thrifty readOpaqueVec_thrifty
    | with_reducible exact Thrifty.attempt readOpaqueVec_thrifty | with_reducible exact Thrifty.attempt (Thrifty.lift readU32_shorter)
    | with_reducible exact Thrifty.liftM (by meter_lift) | with_reducible exact Thrifty.lift (by meter_lift)
    | with_reducible refine Thrifty.bind ?_ (fun _ => ?_) | with_reducible refine Thrifty.ite ?_ ?_ | split

theorem extension_thrifty : Thrifty (Extension.decM) := by
  unfold Extension.decM
  repeat' first
    | with_reducible exact Thrifty.pure _ | with_reducible exact Thrifty.fail | with_reducible exact Thrifty.panic | with_reducible exact readOpaqueVec_thrifty
    | with_reducible exact readVector_thrifty readOpaqueVec_thrifty
    | with_reducible exact Thrifty.attempt readOpaqueVec_thrifty | with_reducible exact Thrifty.attempt (Thrifty.lift readU32_shorter)
    | with_reducible exact Thrifty.liftM (by meter_lift) | with_reducible exact Thrifty.lift (by meter_lift)
    | with_reducible refine Thrifty.bind ?_ (fun _ => ?_) | with_reducible refine Thrifty.ite ?_ ?_ | split

theorem decExtensions_thrifty : Thrifty (decExtensionsM) := by
  unfold decExtensionsM
  repeat' first
    | with_reducible exact Thrifty.pure _ | with_reducible exact Thrifty.fail | with_reducible exact Thrifty.panic | with_reducible exact readOpaqueVec_thrifty
    | with_reducible exact readVector_thrifty readOpaqueVec_thrifty
    | with_reducible exact extension_thrifty
    | with_reducible exact readVector_thrifty extension_thrifty
    | with_reducible exact Thrifty.attempt readOpaqueVec_thrifty | with_reducible exact Thrifty.attempt (Thrifty.lift readU32_shorter)
    | with_reducible exact Thrifty.liftM (by meter_lift) | with_reducible exact Thrifty.lift (by meter_lift)
    | with_reducible refine Thrifty.bind ?_ (fun _ => ?_) | with_reducible refine Thrifty.ite ?_ ?_ | split

theorem leafNodeSourceBody_thrifty (t : UInt8) : Thrifty (LeafNodeSource.decBodyM t) := by
  unfold LeafNodeSource.decBodyM
  repeat' first
    | with_reducible exact Thrifty.pure _ | with_reducible exact Thrifty.fail | with_reducible exact Thrifty.panic | with_reducible exact readOpaqueVec_thrifty
    | with_reducible exact readVector_thrifty readOpaqueVec_thrifty
    | with_reducible exact Thrifty.attempt readOpaqueVec_thrifty | with_reducible exact Thrifty.attempt (Thrifty.lift readU32_shorter)
    | with_reducible exact Thrifty.liftM (by meter_lift) | with_reducible exact Thrifty.lift (by meter_lift)
    | with_reducible refine Thrifty.bind ?_ (fun _ => ?_) | with_reducible refine Thrifty.ite ?_ ?_ | split

theorem leafNode_thrifty : Thrifty (LeafNode.decM) := by
  unfold LeafNode.decM
  repeat' first
    | with_reducible exact Thrifty.pure _ | with_reducible exact Thrifty.fail | with_reducible exact Thrifty.panic | with_reducible exact readOpaqueVec_thrifty
    | with_reducible exact readVector_thrifty readOpaqueVec_thrifty
    | with_reducible exact credential_thrifty | with_reducible exact decExtensions_thrifty | with_reducible exact leafNodeSourceBody_thrifty _
    | with_reducible exact readVector_thrifty credential_thrifty | with_reducible exact readVector_thrifty decExtensions_thrifty
    | with_reducible exact Thrifty.attempt readOpaqueVec_thrifty | with_reducible exact Thrifty.attempt (Thrifty.lift readU32_shorter)
    | with_reducible exact Thrifty.liftM (by meter_lift) | with_reducible exact Thrifty.lift (by meter_lift)
    | with_reducible refine Thrifty.bind ?_ (fun _ => ?_) | with_reducible refine Thrifty.ite ?_ ?_ | split

theorem updatePathNode_thrifty : Thrifty (UpdatePathNode.decM) := by
  unfold UpdatePathNode.decM
  repeat' first
    | with_reducible exact Thrifty.pure _ | with_reducible exact Thrifty.fail | with_reducible exact Thrifty.panic | with_reducible exact readOpaqueVec_thrifty
    | with_reducible exact readVector_thrifty readOpaqueVec_thrifty
    | with_reducible exact hpkeCiphertext_thrifty
    | with_reducible exact readVector_thrifty hpkeCiphertext_thrifty
    | with_reducible exact Thrifty.attempt readOpaqueVec_thrifty | with_reducible exact Thrifty.attempt (Thrifty.lift readU32_shorter)
    | with_reducible exact Thrifty.liftM (by meter_lift) | with_reducible exact Thrifty.lift (by meter_lift)
    | with_reducible refine Thrifty.bind ?_ (fun _ => ?_) | with_reducible refine Thrifty.ite ?_ ?_ | split

theorem updatePath_thrifty : Thrifty (UpdatePath.decM) := by
  unfold UpdatePath.decM
  repeat' first
    | with_reducible exact Thrifty.pure _ | with_reducible exact Thrifty.fail | with_reducible exact Thrifty.panic | with_reducible exact readOpaqueVec_thrifty
    | with_reducible exact readVector_thrifty readOpaqueVec_thrifty
    | with_reducible exact leafNode_thrifty | with_reducible exact updatePathNode_thrifty
    | with_reducible exact readVector_thrifty leafNode_thrifty | with_reducible exact readVector_thrifty updatePathNode_thrifty
    | with_reducible exact Thrifty.attempt readOpaqueVec_thrifty | with_reducible exact Thrifty.attempt (Thrifty.lift readU32_shorter)
    | with_reducible exact Thrifty.liftM (by meter_lift) | with_reducible exact Thrifty.lift (by meter_lift)
    | with_reducible refine Thrifty.bind ?_ (fun _ => ?_) | with_reducible refine Thrifty.ite ?_ ?_ | split

theorem node_thrifty : Thrifty (Node.decM) := by
  unfold Node.decM
  repeat' first
    | with_reducible exact Thrifty.pure _ | with_reducible exact Thrifty.fail | with_reducible exact Thrifty.panic | with_reducible exact readOpaqueVec_thrifty
    | with_reducible exact readVector_thrifty readOpaqueVec_thrifty
    | with_reducible exact parentNode_thrifty | with_reducible exact leafNode_thrifty
    | with_reducible exact readVector_thrifty parentNode_thrifty | with_reducible exact readVector_thrifty leafNode_thrifty
    | with_reducible exact Thrifty.attempt readOpaqueVec_thrifty | with_reducible exact Thrifty.attempt (Thrifty.lift readU32_shorter)
    | with_reducible exact Thrifty.liftM (by meter_lift) | with_reducible exact Thrifty.lift (by meter_lift)
    | with_reducible refine Thrifty.bind ?_ (fun _ => ?_) | with_reducible refine Thrifty.ite ?_ ?_ | split

theorem decOptNode_thrifty : Thrifty (decOptNodeM) := by
  unfold decOptNodeM
  repeat' first
    | with_reducible exact Thrifty.pure _ | with_reducible exact Thrifty.fail | with_reducible exact Thrifty.panic | with_reducible exact readOpaqueVec_thrifty
    | with_reducible exact readVector_thrifty readOpaqueVec_thrifty
    | with_reducible exact node_thrifty
    | with_reducible exact readVector_thrifty node_thrifty
    | with_reducible exact Thrifty.attempt readOpaqueVec_thrifty | with_reducible exact Thrifty.attempt (Thrifty.lift readU32_shorter)
    | with_reducible exact Thrifty.liftM (by meter_lift) | with_reducible exact Thrifty.lift (by meter_lift)
    | with_reducible refine Thrifty.bind ?_ (fun _ => ?_) | with_reducible refine Thrifty.ite ?_ ?_ | split

theorem keyPackage_thrifty : Thrifty (KeyPackage.decM) := by
  unfold KeyPackage.decM
  repeat' first
    | with_reducible exact Thrifty.pure _ | with_reducible exact Thrifty.fail | with_reducible exact Thrifty.panic | with_reducible exact readOpaqueVec_thrifty
    | with_reducible exact readVector_thrifty readOpaqueVec_thrifty
    | with_reducible exact decExtensions_thrifty | with_reducible exact leafNode_thrifty
    | with_reducible exact readVector_thrifty decExtensions_thrifty | with_reducible exact readVector_thrifty leafNode_thrifty
    | with_reducible exact Thrifty.attempt readOpaqueVec_thrifty | with_reducible exact Thrifty.attempt (Thrifty.lift readU32_shorter)
    | with_reducible exact Thrifty.liftM (by meter_lift) | with_reducible exact Thrifty.lift (by meter_lift)
    | with_reducible refine Thrifty.bind ?_ (fun _ => ?_) | with_reducible refine Thrifty.ite ?_ ?_ | split

theorem preSharedKeyID_thrifty : Thrifty (PreSharedKeyID.decM) := by
  unfold PreSharedKeyID.decM
  repeat' first
    | with_reducible exact Thrifty.pure _ | with_reducible exact Thrifty.fail | with_reducible exact Thrifty.panic | with_reducible exact readOpaqueVec_thrifty
    | with_reducible exact readVector_thrifty readOpaqueVec_thrifty
    | with_reducible exact Thrifty.attempt readOpaqueVec_thrifty | with_reducible exact Thrifty.attempt (Thrifty.lift readU32_shorter)
    | with_reducible exact Thrifty.liftM (by meter_lift) | with_reducible exact Thrifty.lift (by meter_lift)
    | with_reducible refine Thrifty.bind ?_ (fun _ => ?_) | with_reducible refine Thrifty.ite ?_ ?_ | split

theorem reInit_thrifty : Thrifty (ReInit.decM) := by
  unfold ReInit.decM
  repeat' first
    | with_reducible exact Thrifty.pure _ | with_reducible exact Thrifty.fail | with_reducible exact Thrifty.panic | with_reducible exact readOpaqueVec_thrifty
    | with_reducible exact readVector_thrifty readOpaqueVec_thrifty
    | with_reducible exact decExtensions_thrifty
    | with_reducible exact readVector_thrifty decExtensions_thrifty
    | with_reducible exact Thrifty.attempt readOpaqueVec_thrifty | with_reducible exact Thrifty.attempt (Thrifty.lift readU32_shorter)
    | with_reducible exact Thrifty.liftM (by meter_lift) | with_reducible exact Thrifty.lift (by meter_lift)
    | with_reducible refine Thrifty.bind ?_ (fun _ => ?_) | with_reducible refine Thrifty.ite ?_ ?_ | split

theorem proposal_thrifty : Thrifty (Proposal.decM) := by
  unfold Proposal.decM
  repeat' first
    | with_reducible exact Thrifty.pure _ | with_reducible exact Thrifty.fail | with_reducible exact Thrifty.panic | with_reducible exact readOpaqueVec_thrifty
    | with_reducible exact readVector_thrifty readOpaqueVec_thrifty
    | with_reducible exact decExtensions_thrifty | with_reducible exact leafNode_thrifty | with_reducible exact keyPackage_thrifty | with_reducible exact preSharedKeyID_thrifty | with_reducible exact reInit_thrifty
    | with_reducible exact readVector_thrifty decExtensions_thrifty | with_reducible exact readVector_thrifty leafNode_thrifty | with_reducible exact readVector_thrifty keyPackage_thrifty | with_reducible exact readVector_thrifty preSharedKeyID_thrifty | with_reducible exact readVector_thrifty reInit_thrifty
    | with_reducible exact Thrifty.attempt readOpaqueVec_thrifty | with_reducible exact Thrifty.attempt (Thrifty.lift readU32_shorter)
    | with_reducible exact Thrifty.liftM (by meter_lift) | with_reducible exact Thrifty.lift (by meter_lift)
    | with_reducible refine Thrifty.bind ?_ (fun _ => ?_) | with_reducible refine Thrifty.ite ?_ ?_ | split

theorem proposalOrRef_thrifty : Thrifty (ProposalOrRef.decM) := by
  unfold ProposalOrRef.decM
  repeat' first
    | with_reducible exact Thrifty.pure _ | with_reducible exact Thrifty.fail | with_reducible exact Thrifty.panic | with_reducible exact readOpaqueVec_thrifty
    | with_reducible exact readVector_thrifty readOpaqueVec_thrifty
    | with_reducible exact proposal_thrifty
    | with_reducible exact readVector_thrifty proposal_thrifty
    | with_reducible exact Thrifty.attempt readOpaqueVec_thrifty | with_reducible exact Thrifty.attempt (Thrifty.lift readU32_shorter)
    | with_reducible exact Thrifty.liftM (by meter_lift) | with_reducible exact Thrifty.lift (by meter_lift)
    | with_reducible refine Thrifty.bind ?_ (fun _ => ?_) | with_reducible refine Thrifty.ite ?_ ?_ | split

theorem commit_thrifty : Thrifty (Commit.decM) := by
  unfold Commit.decM
  repeat' first
    | with_reducible exact Thrifty.pure _ | with_reducible exact Thrifty.fail | with_reducible exact Thrifty.panic | with_reducible exact readOpaqueVec_thrifty
    | with_reducible exact readVector_thrifty readOpaqueVec_thrifty
    | with_reducible exact updatePath_thrifty | with_reducible exact proposalOrRef_thrifty
    | with_reducible exact readVector_thrifty updatePath_thrifty | with_reducible exact readVector_thrifty proposalOrRef_thrifty
    | with_reducible exact Thrifty.attempt readOpaqueVec_thrifty | with_reducible exact Thrifty.attempt (Thrifty.lift readU32_shorter)
    | with_reducible exact Thrifty.liftM (by meter_lift) | with_reducible exact Thrifty.lift (by meter_lift)
    | with_reducible refine Thrifty.bind ?_ (fun _ => ?_) | with_reducible refine Thrifty.ite ?_ ?_ | split

theorem content_thrifty (ct : ContentType) : Thrifty (Content.decM ct) := by
  unfold Content.decM
  repeat' first
    | with_reducible exact Thrifty.pure _ | with_reducible exact Thrifty.fail | with_reducible exact Thrifty.panic | with_reducible exact readOpaqueVec_thrifty
    | with_reducible exact readVector_thrifty readOpaqueVec_thrifty
    | with_reducible exact proposal_thrifty | with_reducible exact commit_thrifty
    | with_reducible exact readVector_thrifty proposal_thrifty | with_reducible exact readVector_thrifty commit_thrifty
    | with_reducible exact Thrifty.attempt readOpaqueVec_thrifty | with_reducible exact Thrifty.attempt (Thrifty.lift readU32_shorter)
    | with_reducible exact Thrifty.liftM (by meter_lift) | with_reducible exact Thrifty.lift (by meter_lift)
    | with_reducible refine Thrifty.bind ?_ (fun _ => ?_) | with_reducible refine Thrifty.ite ?_ ?_ | split

theorem framedContent_thrifty : Thrifty (FramedContent.decM) := by
  unfold FramedContent.decM
  repeat' first
    | with_reducible exact Thrifty.pure _ | with_reducible exact Thrifty.fail | with_reducible exact Thrifty.panic | with_reducible exact readOpaqueVec_thrifty
    | with_reducible exact readVector_thrifty readOpaqueVec_thrifty
    | with_reducible exact content_thrifty _
    | with_reducible exact Thrifty.attempt readOpaqueVec_thrifty | with_reducible exact Thrifty.attempt (Thrifty.lift readU32_shorter)
    | with_reducible exact Thrifty.liftM (by meter_lift) | with_reducible exact Thrifty.lift (by meter_lift)
    | with_reducible refine Thrifty.bind ?_ (fun _ => ?_) | with_reducible refine Thrifty.ite ?_ ?_ | split

theorem authData_thrifty (ct : ContentType) : Thrifty (AuthData.decM ct) := by
  unfold AuthData.decM
  repeat' first
    | with_reducible exact Thrifty.pure _ | with_reducible exact Thrifty.fail | with_reducible exact Thrifty.panic | with_reducible exact readOpaqueVec_thrifty
    | with_reducible exact readVector_thrifty readOpaqueVec_thrifty
    | with_reducible exact Thrifty.attempt readOpaqueVec_thrifty | with_reducible exact Thrifty.attempt (Thrifty.lift readU32_shorter)
    | with_reducible exact Thrifty.liftM (by meter_lift) | with_reducible exact Thrifty.lift (by meter_lift)
    | with_reducible refine Thrifty.bind ?_ (fun _ => ?_) | with_reducible refine Thrifty.ite ?_ ?_ | split

theorem publicMessage_thrifty : Thrifty (PublicMessage.decM) := by
  unfold PublicMessage.decM
  repeat' first
    | with_reducible exact Thrifty.pure _ | with_reducible exact Thrifty.fail | with_reducible exact Thrifty.panic | with_reducible exact readOpaqueVec_thrifty
    | with_reducible exact readVector_thrifty readOpaqueVec_thrifty
    | with_reducible exact framedContent_thrifty | with_reducible exact authData_thrifty _
    | with_reducible exact readVector_thrifty framedContent_thrifty
    | with_reducible exact Thrifty.attempt readOpaqueVec_thrifty | with_reducible exact Thrifty.attempt (Thrifty.lift readU32_shorter)
    | with_reducible exact Thrifty.liftM (by meter_lift) | with_reducible exact Thrifty.lift (by meter_lift)
    | with_reducible refine Thrifty.bind ?_ (fun _ => ?_) | with_reducible refine Thrifty.ite ?_ ?_ | split

theorem privateMessage_thrifty : Thrifty (PrivateMessage.decM) := by
  unfold PrivateMessage.decM
  repeat' first
    | with_reducible exact Thrifty.pure _ | with_reducible exact Thrifty.fail | with_reducible exact Thrifty.panic | with_reducible exact readOpaqueVec_thrifty
    | with_reducible exact readVector_thrifty readOpaqueVec_thrifty
    | with_reducible exact Thrifty.attempt readOpaqueVec_thrifty | with_reducible exact Thrifty.attempt (Thrifty.lift readU32_shorter)
    | with_reducible exact Thrifty.liftM (by meter_lift) | with_reducible exact Thrifty.lift (by meter_lift)
    | with_reducible refine Thrifty.bind ?_ (fun _ => ?_) | with_reducible refine Thrifty.ite ?_ ?_ | split

theorem privateMessageContent_thrifty (ct : ContentType) : Thrifty (PrivateMessageContent.decM ct) := by
  unfold PrivateMessageContent.decM
  repeat' first
    | with_reducible exact Thrifty.pure _ | with_reducible exact Thrifty.fail | with_reducible exact Thrifty.panic | with_reducible exact readOpaqueVec_thrifty
    | with_reducible exact readVector_thrifty readOpaqueVec_thrifty
    | with_reducible exact content_thrifty _ | with_reducible exact authData_thrifty _
    | with_reducible exact Thrifty.attempt readOpaqueVec_thrifty | with_reducible exact Thrifty.attempt (Thrifty.lift readU32_shorter)
    | with_reducible exact Thrifty.liftM (by meter_lift) | with_reducible exact Thrifty.lift (by meter_lift)
    | with_reducible refine Thrifty.bind ?_ (fun _ => ?_) | with_reducible refine Thrifty.ite ?_ ?_ | split

theorem groupContext_thrifty : Thrifty (GroupContext.decM) := by
  unfold GroupContext.decM
  repeat' first
    | with_reducible exact Thrifty.pure _ | with_reducible exact Thrifty.fail | with_reducible exact Thrifty.panic | with_reducible exact readOpaqueVec_thrifty
    | with_reducible exact readVector_thrifty readOpaqueVec_thrifty
    | with_reducible exact decExtensions_thrifty
    | with_reducible exact readVector_thrifty decExtensions_thrifty
    | with_reducible exact Thrifty.attempt readOpaqueVec_thrifty | with_reducible exact Thrifty.attempt (Thrifty.lift readU32_shorter)
    | with_reducible exact Thrifty.liftM (by meter_lift) | with_reducible exact Thrifty.lift (by meter_lift)
    | with_reducible refine Thrifty.bind ?_ (fun _ => ?_) | with_reducible refine Thrifty.ite ?_ ?_ | split

theorem groupInfo_thrifty : Thrifty (GroupInfo.decM) := by
  unfold GroupInfo.decM
  repeat' first
    | with_reducible exact Thrifty.pure _ | with_reducible exact Thrifty.fail | with_reducible exact Thrifty.panic | with_reducible exact readOpaqueVec_thrifty
    | with_reducible exact readVector_thrifty readOpaqueVec_thrifty
    | with_reducible exact decExtensions_thrifty | with_reducible exact groupContext_thrifty
    | with_reducible exact readVector_thrifty decExtensions_thrifty | with_reducible exact readVector_thrifty groupContext_thrifty
    | with_reducible exact Thrifty.attempt readOpaqueVec_thrifty | with_reducible exact Thrifty.attempt (Thrifty.lift readU32_shorter)
    | with_reducible exact Thrifty.liftM (by meter_lift) | with_reducible exact Thrifty.lift (by meter_lift)
    | with_reducible refine Thrifty.bind ?_ (fun _ => ?_) | with_reducible refine Thrifty.ite ?_ ?_ | split

theorem groupSecrets_thrifty : Thrifty (GroupSecrets.decM) := by
  unfold GroupSecrets.decM
  repeat' first
    | with_reducible exact Thrifty.pure _ | with_reducible exact Thrifty.fail | with_reducible exact Thrifty.panic | with_reducible exact readOpaqueVec_thrifty
    | with_reducible exact readVector_thrifty readOpaqueVec_thrifty
    | with_reducible exact preSharedKeyID_thrifty
    | with_reducible exact readVector_thrifty preSharedKeyID_thrifty
    | with_reducible exact Thrifty.attempt readOpaqueVec_thrifty | with_reducible exact Thrifty.attempt (Thrifty.lift readU32_shorter)
    | with_reducible exact Thrifty.liftM (by meter_lift) | with_reducible exact Thrifty.lift (by meter_lift)
    | with_reducible refine Thrifty.bind ?_ (fun _ => ?_) | with_reducible refine Thrifty.ite ?_ ?_ | split

theorem encryptedGroupSecrets_thrifty : Thrifty (EncryptedGroupSecrets.decM) := by
  unfold EncryptedGroupSecrets.decM
  repeat' first
    | with_reducible exact Thrifty.pure _ | with_reducible exact Thrifty.fail | with_reducible exact Thrifty.panic | with_reducible exact readOpaqueVec_thrifty
    | with_reducible exact readVector_thrifty readOpaqueVec_thrifty
    | with_reducible exact hpkeCiphertext_thrifty
    | with_reducible exact readVector_thrifty hpkeCiphertext_thrifty
    | with_reducible exact Thrifty.attempt readOpaqueVec_thrifty | with_reducible exact Thrifty.attempt (Thrifty.lift readU32_shorter)
    | with_reducible exact Thrifty.liftM (by meter_lift) | with_reducible exact Thrifty.lift (by meter_lift)
    | with_reducible refine Thrifty.bind ?_ (fun _ => ?_) | with_reducible refine Thrifty.ite ?_ ?_ | split

theorem welcome_thrifty : Thrifty (Welcome.decM) := by
  unfold Welcome.decM
  repeat' first
    | with_reducible exact Thrifty.pure _ | with_reducible exact Thrifty.fail | with_reducible exact Thrifty.panic | with_reducible exact readOpaqueVec_thrifty
    | with_reducible exact readVector_thrifty readOpaqueVec_thrifty
    | with_reducible exact encryptedGroupSecrets_thrifty
    | with_reducible exact readVector_thrifty encryptedGroupSecrets_thrifty
    | with_reducible exact Thrifty.attempt readOpaqueVec_thrifty | with_reducible exact Thrifty.attempt (Thrifty.lift readU32_shorter)
    | with_reducible exact Thrifty.liftM (by meter_lift) | with_reducible exact Thrifty.lift (by meter_lift)
    | with_reducible refine Thrifty.bind ?_ (fun _ => ?_) | with_reducible refine Thrifty.ite ?_ ?_ | split

theorem mlsMessage_thrifty : Thrifty (MlsMessage.decM) := by
  unfold MlsMessage.decM
  repeat' first
    | with_reducible exact Thrifty.pure _ | with_reducible exact Thrifty.fail | with_reducible exact Thrifty.panic | with_reducible exact readOpaqueVec_thrifty
    | with_reducible exact readVector_thrifty readOpaqueVec_thrifty
    | with_reducible exact keyPackage_thrifty | with_reducible exact publicMessage_thrifty | with_reducible exact privateMessage_thrifty | with_reducible exact groupInfo_thrifty | with_reducible exact welcome_thrifty
    | with_reducible exact readVector_thrifty keyPackage_thrifty | with_reducible exact readVector_thrifty publicMessage_thrifty | with_reducible exact readVector_thrifty privateMessage_thrifty | with_reducible exact readVector_thrifty groupInfo_thrifty | with_reducible exact readVector_thrifty welcome_thrifty
    | with_reducible exact Thrifty.attempt readOpaqueVec_thrifty | with_reducible exact Thrifty.attempt (Thrifty.lift readU32_shorter)
    | with_reducible exact Thrifty.liftM (by meter_lift) | with_reducible exact Thrifty.lift (by meter_lift)
    | with_reducible refine Thrifty.bind ?_ (fun _ => ?_) | with_reducible refine Thrifty.ite ?_ ?_ | split

theorem decTree_thrifty : Thrifty decTreeM :=
  (readVector_thrifty decOptNode_thrifty).bind fun _ => Thrifty.lift fun _ => Nat.le_refl _

/-- At most one buffer is dropped, and none if the decoder succeeds. -/
def Single (p : Metered α) : Prop :=
  ∀ s, (∀ a, (p.run s).1.1 = .ok a → (p.run s).2.dropped = []) ∧ (p.run s).2.dropped.length ≤ 1

theorem Single.lift (p : P α) : Single (Metered.lift p) := fun _ => ⟨fun _ _ => rfl, Nat.zero_le _⟩

theorem Single.liftM (p : P α) : Single (liftM p : Metered α) := Single.lift p

theorem Single.pure (a : α) : Single (Pure.pure a : Metered α) := Single.lift (Pure.pure a)

theorem Single.fail : Single (Metered.fail : Metered α) := Single.lift P.fail

theorem Single.panic : Single (Metered.panic : Metered α) := Single.lift P.panic

theorem Single.ite {c : Prop} [Decidable c] {p q : Metered α} (hp : Single p) (hq : Single q) :
    Single (if c then p else q) := by split <;> assumption

theorem Single.bind {p : Metered α} {f : α → Metered β} (hp : Single p)
    (hf : ∀ a, Single (f a)) : Single (p >>= f) := by
  intro s
  have h := hp s
  rw [Metered.bind_run]
  revert h
  rcases p.run s with ⟨⟨r, s'⟩, m⟩
  intro h
  cases r with
  | ok a =>
    have h0 : m.dropped = [] := h.1 a rfl
    simp only [Meter.add, h0, List.nil_append]
    exact hf a s'
  | err => exact ⟨(fun _ h => nomatch h), h.2⟩
  | panic => exact ⟨(fun _ h => nomatch h), h.2⟩
  | hang => exact ⟨(fun _ h => nomatch h), h.2⟩

theorem readOpaqueVec_single : Single readOpaqueVecM := by
  intro s
  rw [readOpaqueVec_run]
  rcases readVarint.run s with ⟨r, s'⟩
  cases r with
  | ok n =>
    simp only
    split
    · exact ⟨(fun _ h => nomatch h), Nat.le_refl _⟩
    · exact ⟨fun _ _ => rfl, Nat.zero_le _⟩
  | err => exact ⟨fun _ _ => rfl, Nat.zero_le _⟩
  | panic => exact ⟨fun _ _ => rfl, Nat.zero_le _⟩
  | hang => exact ⟨fun _ _ => rfl, Nat.zero_le _⟩

theorem readVectorLoop_single {f : Metered α} (hf : Single f) (fuel : Nat) (s : Bytes) :
    (∀ l, (readVectorLoopM f fuel s).1 = .ok l → (readVectorLoopM f fuel s).2.dropped = []) ∧
      (readVectorLoopM f fuel s).2.dropped.length ≤ 1 := by
  induction fuel generalizing s with
  | zero => cases s <;> exact ⟨fun _ _ => rfl, Nat.zero_le _⟩
  | succ fuel ih =>
    cases s with
    | nil => exact ⟨fun _ _ => rfl, Nat.zero_le _⟩
    | cons b bs =>
      unfold readVectorLoopM
      have h := hf (b :: bs)
      revert h
      rcases f.run (b :: bs) with ⟨⟨r, s'⟩, m⟩
      intro h
      cases r with
      | ok a =>
        have h0 : m.dropped = [] := h.1 a rfl
        simp only [Meter.add, h0, List.nil_append]
        refine ⟨fun l hl => ?_, (ih s').2⟩
        cases hr : (readVectorLoopM f fuel s').1 with
        | ok l' => exact (ih s').1 l' hr
        | err => rw [hr] at hl; cases hl
        | panic => rw [hr] at hl; cases hl
        | hang => rw [hr] at hl; cases hl
      | err => exact ⟨(fun _ h => nomatch h), h.2⟩
      | panic => exact ⟨(fun _ h => nomatch h), h.2⟩
      | hang => exact ⟨(fun _ h => nomatch h), h.2⟩

theorem readVector_single {f : Metered α} (hf : Single f) : Single (readVectorM f) := by
  intro s
  rw [readVectorM_run]
  rcases readVarint.run s with ⟨r, s'⟩
  cases r with
  | ok n =>
    simp only
    split
    · exact ⟨fun _ _ => rfl, Nat.zero_le _⟩
    · exact readVectorLoop_single hf _ _
  | err => exact ⟨fun _ _ => rfl, Nat.zero_le _⟩
  | panic => exact ⟨fun _ _ => rfl, Nat.zero_le _⟩
  | hang => exact ⟨fun _ _ => rfl, Nat.zero_le _⟩

theorem credential_single : Single (Credential.decM) := by
  unfold Credential.decM
  repeat' first
    | with_reducible exact Single.pure _ | with_reducible exact Single.fail | with_reducible exact Single.panic | with_reducible exact readOpaqueVec_single
    | with_reducible exact readVector_single readOpaqueVec_single
    | with_reducible exact Single.liftM _ | with_reducible exact Single.lift _
    | with_reducible refine Single.bind ?_ (fun _ => ?_) | with_reducible refine Single.ite ?_ ?_ | split

theorem hpkeCiphertext_single : Single (HpkeCiphertext.decM) := by
  unfold HpkeCiphertext.decM
  repeat' first
    | with_reducible exact Single.pure _ | with_reducible exact Single.fail | with_reducible exact Single.panic | with_reducible exact readOpaqueVec_single
    | with_reducible exact readVector_single readOpaqueVec_single
    | with_reducible exact Single.liftM _ | with_reducible exact Single.lift _
    | with_reducible refine Single.bind ?_ (fun _ => ?_) | with_reducible refine Single.ite ?_ ?_ | split

theorem parentNode_single : Single (ParentNode.decM) := by
  unfold ParentNode.decM
  repeat' first
    | with_reducible exact Single.pure _ | with_reducible exact Single.fail | with_reducible exact Single.panic | with_reducible exact readOpaqueVec_single
    | with_reducible exact readVector_single readOpaqueVec_single
    | with_reducible exact Single.liftM _ | with_reducible exact Single.lift _
    | with_reducible refine Single.bind ?_ (fun _ => ?_) | with_reducible refine Single.ite ?_ ?_ | split

theorem extension_single : Single (Extension.decM) := by
  unfold Extension.decM
  repeat' first
    | with_reducible exact Single.pure _ | with_reducible exact Single.fail | with_reducible exact Single.panic | with_reducible exact readOpaqueVec_single
    | with_reducible exact readVector_single readOpaqueVec_single
    | with_reducible exact Single.liftM _ | with_reducible exact Single.lift _
    | with_reducible refine Single.bind ?_ (fun _ => ?_) | with_reducible refine Single.ite ?_ ?_ | split

theorem decExtensions_single : Single (decExtensionsM) := by
  unfold decExtensionsM
  repeat' first
    | with_reducible exact Single.pure _ | with_reducible exact Single.fail | with_reducible exact Single.panic | with_reducible exact readOpaqueVec_single
    | with_reducible exact readVector_single readOpaqueVec_single
    | with_reducible exact extension_single
    | with_reducible exact readVector_single extension_single
    | with_reducible exact Single.liftM _ | with_reducible exact Single.lift _
    | with_reducible refine Single.bind ?_ (fun _ => ?_) | with_reducible refine Single.ite ?_ ?_ | split

theorem leafNodeSourceBody_single (t : UInt8) : Single (LeafNodeSource.decBodyM t) := by
  unfold LeafNodeSource.decBodyM
  repeat' first
    | with_reducible exact Single.pure _ | with_reducible exact Single.fail | with_reducible exact Single.panic | with_reducible exact readOpaqueVec_single
    | with_reducible exact readVector_single readOpaqueVec_single
    | with_reducible exact Single.liftM _ | with_reducible exact Single.lift _
    | with_reducible refine Single.bind ?_ (fun _ => ?_) | with_reducible refine Single.ite ?_ ?_ | split

theorem leafNode_single : Single (LeafNode.decM) := by
  unfold LeafNode.decM
  repeat' first
    | with_reducible exact Single.pure _ | with_reducible exact Single.fail | with_reducible exact Single.panic | with_reducible exact readOpaqueVec_single
    | with_reducible exact readVector_single readOpaqueVec_single
    | with_reducible exact credential_single | with_reducible exact decExtensions_single | with_reducible exact leafNodeSourceBody_single _
    | with_reducible exact readVector_single credential_single | with_reducible exact readVector_single decExtensions_single
    | with_reducible exact Single.liftM _ | with_reducible exact Single.lift _
    | with_reducible refine Single.bind ?_ (fun _ => ?_) | with_reducible refine Single.ite ?_ ?_ | split

theorem updatePathNode_single : Single (UpdatePathNode.decM) := by
  unfold UpdatePathNode.decM
  repeat' first
    | with_reducible exact Single.pure _ | with_reducible exact Single.fail | with_reducible exact Single.panic | with_reducible exact readOpaqueVec_single
    | with_reducible exact readVector_single readOpaqueVec_single
    | with_reducible exact hpkeCiphertext_single
    | with_reducible exact readVector_single hpkeCiphertext_single
    | with_reducible exact Single.liftM _ | with_reducible exact Single.lift _
    | with_reducible refine Single.bind ?_ (fun _ => ?_) | with_reducible refine Single.ite ?_ ?_ | split

theorem updatePath_single : Single (UpdatePath.decM) := by
  unfold UpdatePath.decM
  repeat' first
    | with_reducible exact Single.pure _ | with_reducible exact Single.fail | with_reducible exact Single.panic | with_reducible exact readOpaqueVec_single
    | with_reducible exact readVector_single readOpaqueVec_single
    | with_reducible exact leafNode_single | with_reducible exact updatePathNode_single
    | with_reducible exact readVector_single leafNode_single | with_reducible exact readVector_single updatePathNode_single
    | with_reducible exact Single.liftM _ | with_reducible exact Single.lift _
    | with_reducible refine Single.bind ?_ (fun _ => ?_) | with_reducible refine Single.ite ?_ ?_ | split

theorem node_single : Single (Node.decM) := by
  unfold Node.decM
  repeat' first
    | with_reducible exact Single.pure _ | with_reducible exact Single.fail | with_reducible exact Single.panic | with_reducible exact readOpaqueVec_single
    | with_reducible exact readVector_single readOpaqueVec_single
    | with_reducible exact parentNode_single | with_reducible exact leafNode_single
    | with_reducible exact readVector_single parentNode_single | with_reducible exact readVector_single leafNode_single
    | with_reducible exact Single.liftM _ | with_reducible exact Single.lift _
    | with_reducible refine Single.bind ?_ (fun _ => ?_) | with_reducible refine Single.ite ?_ ?_ | split

theorem decOptNode_single : Single (decOptNodeM) := by
  unfold decOptNodeM
  repeat' first
    | with_reducible exact Single.pure _ | with_reducible exact Single.fail | with_reducible exact Single.panic | with_reducible exact readOpaqueVec_single
    | with_reducible exact readVector_single readOpaqueVec_single
    | with_reducible exact node_single
    | with_reducible exact readVector_single node_single
    | with_reducible exact Single.liftM _ | with_reducible exact Single.lift _
    | with_reducible refine Single.bind ?_ (fun _ => ?_) | with_reducible refine Single.ite ?_ ?_ | split

theorem preSharedKeyID_single : Single (PreSharedKeyID.decM) := by
  unfold PreSharedKeyID.decM
  repeat' first
    | with_reducible exact Single.pure _ | with_reducible exact Single.fail | with_reducible exact Single.panic | with_reducible exact readOpaqueVec_single
    | with_reducible exact readVector_single readOpaqueVec_single
    | with_reducible exact Single.liftM _ | with_reducible exact Single.lift _
    | with_reducible refine Single.bind ?_ (fun _ => ?_) | with_reducible refine Single.ite ?_ ?_ | split

theorem reInit_single : Single (ReInit.decM) := by
  unfold ReInit.decM
  repeat' first
    | with_reducible exact Single.pure _ | with_reducible exact Single.fail | with_reducible exact Single.panic | with_reducible exact readOpaqueVec_single
    | with_reducible exact readVector_single readOpaqueVec_single
    | with_reducible exact decExtensions_single
    | with_reducible exact readVector_single decExtensions_single
    | with_reducible exact Single.liftM _ | with_reducible exact Single.lift _
    | with_reducible refine Single.bind ?_ (fun _ => ?_) | with_reducible refine Single.ite ?_ ?_ | split

theorem authData_single (ct : ContentType) : Single (AuthData.decM ct) := by
  unfold AuthData.decM
  repeat' first
    | with_reducible exact Single.pure _ | with_reducible exact Single.fail | with_reducible exact Single.panic | with_reducible exact readOpaqueVec_single
    | with_reducible exact readVector_single readOpaqueVec_single
    | with_reducible exact Single.liftM _ | with_reducible exact Single.lift _
    | with_reducible refine Single.bind ?_ (fun _ => ?_) | with_reducible refine Single.ite ?_ ?_ | split

theorem privateMessage_single : Single (PrivateMessage.decM) := by
  unfold PrivateMessage.decM
  repeat' first
    | with_reducible exact Single.pure _ | with_reducible exact Single.fail | with_reducible exact Single.panic | with_reducible exact readOpaqueVec_single
    | with_reducible exact readVector_single readOpaqueVec_single
    | with_reducible exact Single.liftM _ | with_reducible exact Single.lift _
    | with_reducible refine Single.bind ?_ (fun _ => ?_) | with_reducible refine Single.ite ?_ ?_ | split

theorem groupContext_single : Single (GroupContext.decM) := by
  unfold GroupContext.decM
  repeat' first
    | with_reducible exact Single.pure _ | with_reducible exact Single.fail | with_reducible exact Single.panic | with_reducible exact readOpaqueVec_single
    | with_reducible exact readVector_single readOpaqueVec_single
    | with_reducible exact decExtensions_single
    | with_reducible exact readVector_single decExtensions_single
    | with_reducible exact Single.liftM _ | with_reducible exact Single.lift _
    | with_reducible refine Single.bind ?_ (fun _ => ?_) | with_reducible refine Single.ite ?_ ?_ | split

theorem groupSecrets_single : Single (GroupSecrets.decM) := by
  unfold GroupSecrets.decM
  repeat' first
    | with_reducible exact Single.pure _ | with_reducible exact Single.fail | with_reducible exact Single.panic | with_reducible exact readOpaqueVec_single
    | with_reducible exact readVector_single readOpaqueVec_single
    | with_reducible exact preSharedKeyID_single
    | with_reducible exact readVector_single preSharedKeyID_single
    | with_reducible exact Single.liftM _ | with_reducible exact Single.lift _
    | with_reducible refine Single.bind ?_ (fun _ => ?_) | with_reducible refine Single.ite ?_ ?_ | split

theorem encryptedGroupSecrets_single : Single (EncryptedGroupSecrets.decM) := by
  unfold EncryptedGroupSecrets.decM
  repeat' first
    | with_reducible exact Single.pure _ | with_reducible exact Single.fail | with_reducible exact Single.panic | with_reducible exact readOpaqueVec_single
    | with_reducible exact readVector_single readOpaqueVec_single
    | with_reducible exact hpkeCiphertext_single
    | with_reducible exact readVector_single hpkeCiphertext_single
    | with_reducible exact Single.liftM _ | with_reducible exact Single.lift _
    | with_reducible refine Single.bind ?_ (fun _ => ?_) | with_reducible refine Single.ite ?_ ?_ | split

theorem welcome_single : Single (Welcome.decM) := by
  unfold Welcome.decM
  repeat' first
    | with_reducible exact Single.pure _ | with_reducible exact Single.fail | with_reducible exact Single.panic | with_reducible exact readOpaqueVec_single
    | with_reducible exact readVector_single readOpaqueVec_single
    | with_reducible exact encryptedGroupSecrets_single
    | with_reducible exact readVector_single encryptedGroupSecrets_single
    | with_reducible exact Single.liftM _ | with_reducible exact Single.lift _
    | with_reducible refine Single.bind ?_ (fun _ => ?_) | with_reducible refine Single.ite ?_ ?_ | split

theorem decTree_single : Single decTreeM :=
  (readVector_single decOptNode_single).bind fun _ => Single.lift _
end Mls
