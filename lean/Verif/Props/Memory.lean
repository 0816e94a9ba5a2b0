import Verif.Proofs.Meter
/-
C89: how much memory the decoders ask for.
-/
namespace Mls

/-- The bytes that decoding `raw` asks for. -/
def Metered.asked {α : Type} (p : Metered α) (raw : Bytes) : Nat := (p.run raw).2.total

/-- The counting decoder is the decoder of the library. -/
theorem C89_decodes (raw : Bytes) : (MlsMessage.decM.run raw).1 = MlsMessage.dec.run raw := by
  rw [← mlsMessage_erase]
  rfl

theorem sum_le_of_small : ∀ (l : List Nat) (b : Nat), (∀ d ∈ l, d < b) → l.sum ≤ l.length * b
  | [], b, _ => by simp
  | d :: l, b, h => by
    have h1 := sum_le_of_small l b fun x hx => h x (List.mem_cons_of_mem _ hx)
    have h2 := h d List.mem_cons_self
    rw [List.sum_cons, List.length_cons, Nat.add_mul]
    omega

theorem Thrifty.total_le {α : Type} {p : Metered α} (h : Thrifty p) (raw : Bytes) :
    p.asked raw ≤ raw.length * 2 ^ 30 := by
  have h1 := h.room raw
  have h2 := sum_le_of_small _ _ (h.small raw)
  have h3 : ((p.run raw).2.kept + (p.run raw).2.dropped.length) * 2 ^ 30 ≤ raw.length * 2 ^ 30 :=
    Nat.mul_le_mul_right _ (by omega)
  rw [Nat.add_mul] at h3
  unfold Metered.asked Meter.total
  omega

theorem Metered.asked_bind {α β : Type} {p : Metered α} {f : α → Metered β} {s s' : Bytes} {a : α}
    (h : p.erase.run s = (.ok a, s')) : (p >>= f).asked s = p.asked s + (f a).asked s' := by
  have h' : (p.run s).1 = (.ok a, s') := h
  unfold Metered.asked
  rw [Metered.bind_run]
  revert h'
  rcases p.run s with ⟨⟨r, t⟩, m⟩
  intro h'
  cases h'
  simp only [Meter.total, Meter.add, List.sum_append]
  omega

theorem Metered.asked_step {α β : Type} {p : Metered α} {f : α → Metered β} {s s' : Bytes} {a : α}
    {k : Nat} (h : p.erase.run s = (.ok a, s')) (hk : k ≤ (f a).asked s') : k ≤ (p >>= f).asked s := by
  rw [Metered.asked_bind h]
  omega

theorem Metered.asked_ge {α β : Type} (p : Metered α) (f : α → Metered β) (s : Bytes) :
    p.asked s ≤ (p >>= f).asked s := by
  unfold Metered.asked
  rw [Metered.bind_run]
  rcases p.run s with ⟨⟨r, t⟩, m⟩
  cases r with
  | ok a =>
    simp only [Meter.total, Meter.add, List.sum_append]
    omega
  | err => exact Nat.le_refl _
  | panic => exact Nat.le_refl _
  | hang => exact Nat.le_refl _

theorem Metered.lift_bind {α β : Type} {p : P α} {f : α → Metered β} {s s' : Bytes} {a : α}
    (h : p.run s = (.ok a, s')) : ((liftM p : Metered α) >>= f).run s = (f a).run s' := by
  rw [Metered.bind_run, show (liftM p : Metered α).run s = (p.run s, Meter.zero) from rfl, h]
  simp only [Meter.add, Meter.zero, Nat.zero_add, List.nil_append]

theorem varint_length_le {n : Nat} {bs : Bytes} (h : Spec.varint n = some bs) : bs.length ≤ 4 := by
  unfold Spec.varint at h
  split at h
  · cases h; simp
  · split at h
    · cases h; simp
    · split at h
      · cases h; simp
      · cases h

/-- For every size below 2^30 there is a message of at most eight bytes for which the decoder
asks for that much, before it reports an error. -/
theorem C89_eight_bytes (n : UInt32) (hn : n.toNat < 2 ^ 30) (h0 : 0 < n.toNat) :
    ∃ raw : Bytes, raw.length ≤ 8 ∧ MlsMessage.decM.asked raw = n.toNat ∧
      unmarshal MlsMessage.dec raw = .err := by
  obtain ⟨bs, hbs⟩ := varint_some_of_lt (n := n.toNat) (by omega)
  have hlen : bs.length ≤ 4 := varint_length_le hbs
  have hrun : ∀ rest, readVarint.run (bs ++ rest) = (.ok n, rest) := fun rest =>
    readVarint_spec n bs rest hbs
  have hv := hrun []
  rw [List.append_nil] at hv
  have hop : readOpaqueVecM.run bs = ((.err, []), ⟨0, [n.toNat]⟩) := by
    rw [readOpaqueVec_run, hv]
    simp only [List.length_nil, h0, if_true]
  have hpm : PrivateMessage.decM.run bs = ((.err, []), ⟨0, [n.toNat]⟩) := by
    unfold PrivateMessage.decM
    rw [Metered.bind_run, hop]
  have hrest : ∀ rest, MlsMessage.decM.run ([0, 1, 0, 2] ++ rest) =
      (do let m ← PrivateMessage.decM; return { version := 1, body := .privateMessage m } :
        Metered MlsMessage).run rest := by
    intro rest
    have h1 : readU16.run ([0, 1, 0, 2] ++ rest) = (.ok 1, [0, 2] ++ rest) := rfl
    have h2 : wireFormatTag.run ([0, 2] ++ rest) = (.ok 2, rest) := rfl
    unfold MlsMessage.decM
    rw [Metered.lift_bind h1, if_neg (by decide), Metered.lift_bind h2, if_neg (by decide),
      if_pos (by decide)]
  have hmsg : MlsMessage.decM.run ([0, 1, 0, 2] ++ bs) = ((.err, []), ⟨0, [n.toNat]⟩) := by
    rw [hrest, Metered.bind_run, hpm]
  refine ⟨[0, 1, 0, 2] ++ bs, by simp; omega, ?_, ?_⟩
  · unfold Metered.asked
    rw [hmsg]
    simp [Meter.total]
  · unfold unmarshal
    rw [← C89_decodes, hmsg]

/-- What does not hold: that decoding asks for no more than the message has. -/
theorem C89_refuted : ¬ ∀ raw, MlsMessage.decM.asked raw ≤ raw.length := by
  intro h
  obtain ⟨raw, hlen, hask, _⟩ := C89_eight_bytes 1073741823 (by decide) (by decide)
  have h1 := h raw
  have h2 : (1073741823 : UInt32).toNat = 1073741823 := rfl
  omega

/-! ### Many buffers from one message -/

/-- A leaf node with every field empty. -/
def emptyLeaf : LeafNode :=
  { encryptionKey := [], signatureKey := [], credential := .basic [], capabilities :=
      { versions := [], cipherSuites := [], extensions := [], proposals := [], credentials := [] },
    source := .update, extensions := [], signature := [] }

/-- The bytes of `emptyLeaf`. -/
def emptyLeafBytes : Bytes := [0, 0, 0, 1, 0, 0, 0, 0, 0, 0, 2, 0, 0]

/-- An add proposal in a commit, written out, whose key package ends in a signature said to
have 2^30 - 1 bytes. -/
def cutAdd : Bytes := [1, 0, 1, 0, 1, 0, 1, 0] ++ (emptyLeafBytes ++ ([0] ++ [0xBF, 0xFF, 0xFF, 0xFF]))

/-- What it is decoded to. -/
def cutAddValue : ProposalOrRef := .proposal (.add
  { version := 1, cipherSuite := 1, initKey := [], leafNode := emptyLeaf, extensions := [],
    signature := [] })

theorem emptyLeaf_run (rest : Bytes) : LeafNode.dec.run (emptyLeafBytes ++ rest) = (.ok emptyLeaf, rest) :=
  leafNode_rt emptyLeaf emptyLeafBytes rest (by rfl) trivial

theorem cutSignature_run (rest : Bytes) (h : rest.length < 2 ^ 30 - 1) :
    readOpaqueVecM.run ([0xBF, 0xFF, 0xFF, 0xFF] ++ rest) = ((.err, rest), ⟨0, [2 ^ 30 - 1]⟩) := by
  have hv : readVarint.run ([0xBF, 0xFF, 0xFF, 0xFF] ++ rest) = (.ok 0x3FFFFFFF, rest) :=
    readVarint_spec 0x3FFFFFFF [0xBF, 0xFF, 0xFF, 0xFF] rest (by rfl)
  have hn : (0x3FFFFFFF : UInt32).toNat = 2 ^ 30 - 1 := by decide
  rw [readOpaqueVec_run, hv]
  simp only [hn, if_pos h]

theorem zeroLength_run (rest : Bytes) : readOpaqueVec.run (0 :: rest) = (.ok [], rest) :=
  opaque_rt [] [0] rest (by rfl) trivial

theorem cutKeyPackage_dec (rest : Bytes) (h : rest.length < 2 ^ 30 - 1) :
    KeyPackage.dec.run (cutAdd.drop 3 ++ rest) = (.ok
      { version := 1, cipherSuite := 1, initKey := [], leafNode := emptyLeaf, extensions := [],
        signature := [] }, rest) ∧
      2 ^ 30 - 1 ≤ KeyPackage.decM.asked (cutAdd.drop 3 ++ rest) := by
  have h3 : readU16.run (cutAdd.drop 3 ++ rest) = (.ok 1, cutAdd.drop 5 ++ rest) := rfl
  have h4 : readU16.run (cutAdd.drop 5 ++ rest) = (.ok 1, cutAdd.drop 7 ++ rest) := rfl
  have h5 : readOpaqueVec.run (cutAdd.drop 7 ++ rest) =
      (.ok [], emptyLeafBytes ++ ([0] ++ ([0xBF, 0xFF, 0xFF, 0xFF] ++ rest))) := zeroLength_run _
  have h6 := emptyLeaf_run ([0] ++ ([0xBF, 0xFF, 0xFF, 0xFF] ++ rest))
  have h7 : decExtensions.run ([0] ++ ([0xBF, 0xFF, 0xFF, 0xFF] ++ rest)) =
      (.ok [], [0xBF, 0xFF, 0xFF, 0xFF] ++ rest) := exts_rt [] [0] _ (by rfl) trivial
  have h8 : (Metered.attempt readOpaqueVecM).run ([0xBF, 0xFF, 0xFF, 0xFF] ++ rest) =
      ((.ok none, rest), ⟨0, [2 ^ 30 - 1]⟩) := by
    rw [Metered.attempt_run, cutSignature_run rest h]
  have h8' : (P.attempt readOpaqueVec).run ([0xBF, 0xFF, 0xFF, 0xFF] ++ rest) = (.ok none, rest) := by
    rw [← readOpaqueVec_erase, ← Metered.erase_attempt]
    show ((Metered.attempt readOpaqueVecM).run ([0xBF, 0xFF, 0xFF, 0xFF] ++ rest)).1 = _
    rw [h8]
  constructor
  · unfold KeyPackage.dec
    rw [P.bind_eq h3, P.bind_eq h4, P.bind_eq h5, if_neg (by decide), P.bind_eq h6, P.bind_eq h7,
      P.bind_eq h8']
    rfl
  · unfold KeyPackage.decM
    refine Metered.asked_step (p := liftM readU16) h3 (Metered.asked_step (p := liftM readU16) h4
      (Metered.asked_step (p := readOpaqueVecM) (by rw [readOpaqueVec_erase]; exact h5) ?_))
    rw [if_neg (by decide)]
    refine Metered.asked_step (by rw [leafNode_erase]; exact h6)
      (Metered.asked_step (by rw [decExtensions_erase]; exact h7) ?_)
    have h9 : (Metered.attempt readOpaqueVecM).erase.run ([0xBF, 0xFF, 0xFF, 0xFF] ++ rest) =
        (.ok none, rest) := by
      rw [Metered.erase_attempt, readOpaqueVec_erase]; exact h8'
    rw [Metered.asked_bind h9]
    have : (Metered.attempt readOpaqueVecM).asked ([0xBF, 0xFF, 0xFF, 0xFF] ++ rest) = 2 ^ 30 - 1 := by
      unfold Metered.asked
      rw [h8]
      simp [Meter.total]
    omega

theorem cutAdd_dec (rest : Bytes) (h : rest.length < 2 ^ 30 - 1) :
    ProposalOrRef.dec.run (cutAdd ++ rest) = (.ok cutAddValue, rest) ∧
      2 ^ 30 - 1 ≤ ProposalOrRef.decM.asked (cutAdd ++ rest) := by
  have h1 : proposalOrRefTag.run (cutAdd ++ rest) = (.ok 1, cutAdd.tail ++ rest) := rfl
  have h2 : proposalTypeTag.run (cutAdd.tail ++ rest) = (.ok 1, cutAdd.drop 3 ++ rest) := rfl
  obtain ⟨hk, ha⟩ := cutKeyPackage_dec rest h
  have hp : Proposal.dec.run (cutAdd.tail ++ rest) = (.ok (.add
      { version := 1, cipherSuite := 1, initKey := [], leafNode := emptyLeaf, extensions := [],
        signature := [] }), rest) := by
    unfold Proposal.dec
    rw [P.bind_eq h2, if_pos (by decide), P.bind_eq hk]
    rfl
  constructor
  · unfold ProposalOrRef.dec
    rw [P.bind_eq h1, if_pos (by decide), P.bind_eq hp]
    rfl
  · unfold ProposalOrRef.decM
    refine Metered.asked_step (p := liftM proposalOrRefTag) h1 ?_
    rw [if_pos (by decide), Metered.asked_bind (by rw [proposal_erase]; exact hp)]
    have : 2 ^ 30 - 1 ≤ Proposal.decM.asked (cutAdd.tail ++ rest) := by
      unfold Proposal.decM
      refine Metered.asked_step (p := liftM proposalTypeTag) h2 ?_
      rw [if_pos (by decide), Metered.asked_bind (by rw [keyPackage_erase]; exact hk)]
      omega
    omega

/-- The length that the signature claims. -/
def cutSize : Nat := 2 ^ 30 - 1

/-- `m` such proposals one after the other. -/
def cutAdds : Nat → Bytes
  | 0 => []
  | m + 1 => cutAdd ++ cutAdds m

theorem cutAdds_length : ∀ m, (cutAdds m).length = m * 26
  | 0 => rfl
  | m + 1 => by
    rw [cutAdds, List.length_append, cutAdds_length m, Nat.add_mul]
    rw [show cutAdd.length = 26 from rfl]
    omega

theorem cutAdds_loop (m : Nat) (hm : m * 26 < 2 ^ 30) : ∀ fuel, (cutAdds m).length ≤ fuel →
    (readVectorLoopM ProposalOrRef.decM fuel (cutAdds m)).1 = .ok (List.replicate m cutAddValue) ∧
      m * cutSize ≤ (readVectorLoopM ProposalOrRef.decM fuel (cutAdds m)).2.total := by
  induction m with
  | zero =>
    intro fuel _
    cases fuel <;> exact ⟨rfl, by simp⟩
  | succ m ih =>
    intro fuel hf
    rw [cutAdds_length] at hf
    obtain ⟨fuel, rfl⟩ : ∃ k, fuel = k + 1 := ⟨fuel - 1, by omega⟩
    have hl := cutAdds_length m
    obtain ⟨h1, h2⟩ := cutAdd_dec (cutAdds m) (by omega)
    have h2 : cutSize ≤ _ := h2
    obtain ⟨i1, i2⟩ := ih (by omega) fuel (by omega)
    rw [← proposalOrRef_erase] at h1
    have h1' : (ProposalOrRef.decM.run (cutAdd ++ cutAdds m)).1 = (.ok cutAddValue, cutAdds m) := h1
    unfold Metered.asked at h2
    obtain ⟨b, bs, hb⟩ : ∃ b bs, cutAdd ++ cutAdds m = b :: bs := ⟨_, _, rfl⟩
    rw [cutAdds, hb]
    rw [hb] at h1' h2
    unfold readVectorLoopM
    revert h1' h2
    rcases ProposalOrRef.decM.run (b :: bs) with ⟨⟨r, t⟩, mt⟩
    intro h2 h1'
    cases h1'
    simp only [i1]
    refine ⟨rfl, ?_⟩
    simp only [Meter.total, Meter.add, List.sum_append] at h2 i2 ⊢
    rw [Nat.add_mul, Nat.one_mul]
    omega

theorem cutAdds_vector (m : Nat) (hm : m * 26 < 2 ^ 30) (bs rest : Bytes)
    (hbs : Spec.varint (m * 26) = some bs) :
    (readVectorM ProposalOrRef.decM).erase.run (bs ++ (cutAdds m ++ rest)) =
        (.ok (List.replicate m cutAddValue), rest) ∧
      m * cutSize ≤ (readVectorM ProposalOrRef.decM).asked (bs ++ (cutAdds m ++ rest)) := by
  have hn : (UInt32.ofNat (m * 26)).toNat = m * 26 :=
    (UInt32.toNat_ofNat_of_lt' (by show m * 26 < 2 ^ 32; omega))
  have hv : readVarint.run (bs ++ (cutAdds m ++ rest)) = (.ok (UInt32.ofNat (m * 26)), cutAdds m ++ rest) :=
    readVarint_spec _ bs _ (by rw [hn]; exact hbs)
  have hl := cutAdds_length m
  have hrun : (readVectorM ProposalOrRef.decM).run (bs ++ (cutAdds m ++ rest)) =
      (((readVectorLoopM ProposalOrRef.decM (m * 26) (cutAdds m)).1, rest),
        (readVectorLoopM ProposalOrRef.decM (m * 26) (cutAdds m)).2) := by
    rw [readVectorM_run, hv]
    simp only [hn]
    rw [if_neg (by rw [List.length_append]; omega), ← hl, List.take_left', List.drop_left']
    · rfl
    · rfl
  obtain ⟨h1, h2⟩ := cutAdds_loop m hm (m * 26) (by omega)
  constructor
  · show ((readVectorM ProposalOrRef.decM).run _).1 = _
    rw [hrun, h1]
  · unfold Metered.asked
    rw [hrun]
    exact h2

/-- A commit with `m` of these proposals, in a public message of member 0. -/
def cutMessage (m : Nat) : Bytes :=
  [0, 1, 0, 1] ++ ([0] ++ ([0, 0, 0, 0, 0, 0, 0, 0] ++ ([1, 0, 0, 0, 0] ++ ([0] ++ ([3] ++
    ((Spec.varint (m * 26)).getD [] ++ (cutAdds m ++ [0, 0, 0, 0])))))))

theorem cutMessage_run (m : Nat) (hm : m * 26 < 2 ^ 30) :
    (∃ msg, MlsMessage.dec.run (cutMessage m) = (.ok msg, [])) ∧
      m * cutSize ≤ MlsMessage.decM.asked (cutMessage m) := by
  obtain ⟨bs, hbs⟩ := varint_some_of_lt (n := m * 26) (by omega)
  obtain ⟨v1, v2⟩ := cutAdds_vector m hm bs [0, 0, 0, 0] hbs
  have hvp : (readVector ProposalOrRef.dec).run (bs ++ (cutAdds m ++ [0, 0, 0, 0])) =
      (.ok (List.replicate m cutAddValue), [0, 0, 0, 0]) := by
    rw [← proposalOrRef_erase, ← readVector_erase]
    exact v1
  unfold cutMessage
  rw [hbs, Option.getD_some]
  generalize hw : bs ++ (cutAdds m ++ [0, 0, 0, 0]) = w at hvp v1 v2 ⊢
  have e1 : readU16.run ([0, 1, 0, 1] ++ ([0] ++ ([0, 0, 0, 0, 0, 0, 0, 0] ++ ([1, 0, 0, 0, 0] ++
      ([0] ++ ([3] ++ w)))))) = (.ok 1, [0, 1] ++ ([0] ++ ([0, 0, 0, 0, 0, 0, 0, 0] ++ ([1, 0, 0, 0, 0] ++
      ([0] ++ ([3] ++ w)))))) := rfl
  have e2 : wireFormatTag.run ([0, 1] ++ ([0] ++ ([0, 0, 0, 0, 0, 0, 0, 0] ++ ([1, 0, 0, 0, 0] ++
      ([0] ++ ([3] ++ w)))))) = (.ok 1, [0] ++ ([0, 0, 0, 0, 0, 0, 0, 0] ++ ([1, 0, 0, 0, 0] ++
      ([0] ++ ([3] ++ w))))) := rfl
  have e3 : readOpaqueVec.run ([0] ++ ([0, 0, 0, 0, 0, 0, 0, 0] ++ ([1, 0, 0, 0, 0] ++
      ([0] ++ ([3] ++ w))))) = (.ok [], [0, 0, 0, 0, 0, 0, 0, 0] ++ ([1, 0, 0, 0, 0] ++
      ([0] ++ ([3] ++ w)))) := zeroLength_run _
  have e4 : readU64.run ([0, 0, 0, 0, 0, 0, 0, 0] ++ ([1, 0, 0, 0, 0] ++ ([0] ++ ([3] ++ w)))) =
      (.ok 0, [1, 0, 0, 0, 0] ++ ([0] ++ ([3] ++ w))) := rfl
  have e5 : Sender.dec.run ([1, 0, 0, 0, 0] ++ ([0] ++ ([3] ++ w))) = (.ok (.member 0), [0] ++ ([3] ++ w)) := rfl
  have e6 : readOpaqueVec.run ([0] ++ ([3] ++ w)) = (.ok [], [3] ++ w) := zeroLength_run _
  have e7 : ContentType.dec.run ([3] ++ w) = (.ok .commit, w) := rfl
  have e8 : Commit.dec.run w = (.ok { proposals := List.replicate m cutAddValue, path := none }, [0, 0, 0]) := by
    unfold Commit.dec
    rw [P.bind_eq hvp]
    rfl
  have e9 : (Content.dec .commit).run w =
      (.ok (.commit { proposals := List.replicate m cutAddValue, path := none }), [0, 0, 0]) := by
    unfold Content.dec
    simp only
    rw [P.bind_eq e8]
    rfl
  have e10 : FramedContent.dec.run ([0] ++ ([0, 0, 0, 0, 0, 0, 0, 0] ++ ([1, 0, 0, 0, 0] ++
      ([0] ++ ([3] ++ w))))) = (.ok
        { groupID := [], epoch := 0, sender := .member 0, authenticatedData := [],
          content := .commit { proposals := List.replicate m cutAddValue, path := none } }, [0, 0, 0]) := by
    unfold FramedContent.dec
    rw [P.bind_eq e3, P.bind_eq e4, P.bind_eq e5, P.bind_eq e6, P.bind_eq e7, P.bind_eq e9]
    rfl
  constructor
  · unfold MlsMessage.dec
    rw [P.bind_eq e1, if_neg (by decide), P.bind_eq e2, if_pos (by decide)]
    have e11 : PublicMessage.dec.run ([0] ++ ([0, 0, 0, 0, 0, 0, 0, 0] ++ ([1, 0, 0, 0, 0] ++
        ([0] ++ ([3] ++ w))))) = (.ok
        { content :=
            { groupID := [], epoch := 0, sender := .member 0, authenticatedData := [],
              content := .commit { proposals := List.replicate m cutAddValue, path := none } },
          auth := { signature := [], confirmationTag := [] }, membershipTag := [] }, []) := by
      unfold PublicMessage.dec
      rw [P.bind_eq e10]
      rfl
    rw [P.bind_eq e11]
    exact ⟨_, rfl⟩
  · have a1 : m * cutSize ≤ (Content.decM .commit).asked w := by
      unfold Content.decM
      simp only
      rw [Metered.asked_bind (by rw [commit_erase]; exact e8)]
      have : m * cutSize ≤ Commit.decM.asked w := by
        unfold Commit.decM
        rw [Metered.asked_bind v1]
        omega
      omega
    have a2 : m * cutSize ≤ FramedContent.decM.asked ([0] ++ ([0, 0, 0, 0, 0, 0, 0, 0] ++
        ([1, 0, 0, 0, 0] ++ ([0] ++ ([3] ++ w))))) := by
      unfold FramedContent.decM
      refine Metered.asked_step (p := readOpaqueVecM) (by rw [readOpaqueVec_erase]; exact e3)
        (Metered.asked_step (p := liftM readU64) e4 (Metered.asked_step (p := liftM Sender.dec) e5
          (Metered.asked_step (p := readOpaqueVecM) (by rw [readOpaqueVec_erase]; exact e6)
            (Metered.asked_step (p := liftM ContentType.dec) e7 ?_))))
      rw [Metered.asked_bind (by rw [content_erase]; exact e9)]
      omega
    unfold MlsMessage.decM
    refine Metered.asked_step (p := liftM readU16) e1 ?_
    rw [if_neg (by decide)]
    refine Metered.asked_step (p := liftM wireFormatTag) e2 ?_
    rw [if_pos (by decide)]
    have a3 : m * cutSize ≤ PublicMessage.decM.asked ([0] ++ ([0, 0, 0, 0, 0, 0, 0, 0] ++
        ([1, 0, 0, 0, 0] ++ ([0] ++ ([3] ++ w))))) := by
      unfold PublicMessage.decM
      rw [Metered.asked_bind (by rw [framedContent_erase]; exact e10)]
      omega
    exact Nat.le_trans a3 (Metered.asked_ge _ _ _)

/-- A message is not limited to one such buffer. The decoder of key packages reports success
when the signature cannot be read (key_package.go:74-76), so decoding goes on: a commit of 26
bytes for each proposal makes the decoder ask for 2^30 - 1 bytes for each proposal, and
decodes without an error. -/
theorem C89_many (m : Nat) (hm : m * 26 < 2 ^ 30) :
    ∃ raw : Bytes, raw.length ≤ 28 + m * 26 ∧ m * (2 ^ 30 - 1) ≤ MlsMessage.decM.asked raw ∧
      ∃ msg, unmarshal MlsMessage.dec raw = .ok msg := by
  obtain ⟨⟨msg, h1⟩, h2⟩ := cutMessage_run m hm
  refine ⟨cutMessage m, ?_, h2, msg, ?_⟩
  · obtain ⟨bs, hbs⟩ := varint_some_of_lt (n := m * 26) (by omega)
    have hlen : bs.length ≤ 4 := varint_length_le hbs
    have hl := cutAdds_length m
    unfold cutMessage
    rw [hbs, Option.getD_some]
    simp only [List.length_append, List.length_cons, List.length_nil]
    omega
  · unfold unmarshal
    rw [h1]

/-- 104 bytes, three proposals, three gigabytes. -/
example : (cutMessage 3).length = 104 ∧ 3 * (2 ^ 30 - 1) ≤ MlsMessage.decM.asked (cutMessage 3) :=
  ⟨by rfl, (cutMessage_run 3 (by decide)).2⟩

/-! ### What does hold -/

theorem Single.asked_le {α : Type} {p : Metered α} (ht : Thrifty p) (hs : Single p) (raw : Bytes) :
    p.asked raw ≤ raw.length + 2 ^ 30 ∧
      (∀ a, (p.run raw).1.1 = .ok a → p.asked raw ≤ raw.length) := by
  have h1 := ht.room raw
  have h2 := ht.small raw
  obtain ⟨h3, h4⟩ := hs raw
  unfold Metered.asked Meter.total
  constructor
  · cases hd : (p.run raw).2.dropped with
    | nil => rw [hd] at h1; simp only [List.sum_nil]; omega
    | cons d l =>
      rw [hd] at h4
      have hl : l = [] := by
        cases l with
        | nil => rfl
        | cons e l => simp only [List.length_cons] at h4; omega
      subst hl
      have := h2 d (by rw [hd]; exact List.mem_cons_self)
      rw [hd] at h1
      simp only [List.sum_cons, List.sum_nil]
      omega
  · intro a ha
    rw [h3 a ha] at h1 ⊢
    simp only [List.sum_nil, List.length_nil] at h1 ⊢
    omega

theorem wire_run (w : UInt8) (rest : Bytes) (hw : w = 2 ∨ w = 3) :
    MlsMessage.decM.run ([0, 1, 0, w] ++ rest) = (if w = 2 then
      (do let m ← PrivateMessage.decM; return { version := 1, body := .privateMessage m } :
        Metered MlsMessage)
      else (do let m ← Welcome.decM; return { version := 1, body := .welcome m } :
        Metered MlsMessage)).run rest := by
  have h1 : readU16.run ([0, 1, 0, w] ++ rest) = (.ok 1, [0, w] ++ rest) := rfl
  unfold MlsMessage.decM
  rw [Metered.lift_bind h1, if_neg (by decide)]
  rcases hw with rfl | rfl
  · have h2 : wireFormatTag.run ([0, 2] ++ rest) = (.ok 2, rest) := rfl
    rw [Metered.lift_bind h2, if_neg (by decide), if_pos (by decide), if_pos rfl]
  · have h2 : wireFormatTag.run ([0, 3] ++ rest) = (.ok 3, rest) := rfl
    rw [Metered.lift_bind h2, if_neg (by decide), if_neg (by decide), if_pos (by decide),
      if_neg (by decide)]

/-- What decoding asks for, for every input. The buffers that are filled have no more bytes
than the input; every other buffer has less than 2^30 and costs the sender at least one byte.
A private message (wire format 2) or a Welcome (wire format 3) leads to at most one buffer
that is not filled, and to none if it is decoded without an error. -/
theorem C89_partial (raw : Bytes) :
    ((MlsMessage.decM.run raw).2.kept + (MlsMessage.decM.run raw).2.dropped.length ≤ raw.length ∧
      (∀ d ∈ (MlsMessage.decM.run raw).2.dropped, d < 2 ^ 30) ∧
      MlsMessage.decM.asked raw ≤ raw.length * 2 ^ 30) ∧
    ∀ w rest, (w = 2 ∨ w = 3) → raw = [0, 1, 0, w] ++ rest →
      MlsMessage.decM.asked raw ≤ raw.length + 2 ^ 30 ∧
        ∀ msg, unmarshal MlsMessage.dec raw = .ok msg → MlsMessage.decM.asked raw ≤ raw.length := by
  refine ⟨⟨?_, mlsMessage_thrifty.small raw, mlsMessage_thrifty.total_le raw⟩, ?_⟩
  · have := mlsMessage_thrifty.room raw
    omega
  · intro w rest hw hraw
    have key : ∀ {q : Metered MlsMessage}, Thrifty q → Single q → MlsMessage.decM.run raw = q.run rest →
        MlsMessage.decM.asked raw ≤ raw.length + 2 ^ 30 ∧
          ∀ msg, unmarshal MlsMessage.dec raw = .ok msg → MlsMessage.decM.asked raw ≤ raw.length := by
      intro q ht hs hq
      obtain ⟨h1, h2⟩ := hs.asked_le ht rest
      have ha : MlsMessage.decM.asked raw = q.asked rest := by unfold Metered.asked; rw [hq]
      have hl : rest.length ≤ raw.length := by rw [hraw]; simp; omega
      refine ⟨by omega, fun msg hm => ?_⟩
      have hok : ∃ a, (q.run rest).1.1 = .ok a := by
        unfold unmarshal at hm
        rw [← C89_decodes, hq] at hm
        revert hm
        rcases (q.run rest).1 with ⟨r, t⟩
        intro hm
        cases r with
        | ok a => exact ⟨a, rfl⟩
        | err => cases hm
        | panic => cases hm
        | hang => cases hm
      obtain ⟨a, hok⟩ := hok
      have := h2 a hok
      omega
    have hrun := wire_run w rest hw
    rw [← hraw] at hrun
    rcases hw with rfl | rfl
    · rw [if_pos rfl] at hrun
      exact key (privateMessage_thrifty.bind fun _ => Thrifty.pure _)
        (privateMessage_single.bind fun _ => Single.pure _) hrun
    · rw [if_neg (by decide)] at hrun
      exact key (welcome_thrifty.bind fun _ => Thrifty.pure _)
        (welcome_single.bind fun _ => Single.pure _) hrun

/-- The same for what is decoded while joining: the group secrets and the ratchet tree lead to
at most one buffer that is not filled. -/
theorem C89_joining (raw : Bytes) :
    GroupSecrets.decM.erase = GroupSecrets.dec ∧ decTreeM.erase = decTree ∧
    GroupSecrets.decM.asked raw ≤ raw.length + 2 ^ 30 ∧ decTreeM.asked raw ≤ raw.length + 2 ^ 30 :=
  ⟨groupSecrets_erase, decTree_erase, (groupSecrets_single.asked_le groupSecrets_thrifty raw).1,
    (decTree_single.asked_le decTree_thrifty raw).1⟩

/-- And for what is decoded from a decrypted private message: the bound that holds for every message. -/
theorem C89_decrypted (ct : ContentType) (raw : Bytes) :
    (PrivateMessageContent.decM ct).erase = PrivateMessageContent.dec ct ∧
    ((PrivateMessageContent.decM ct).run raw).2.kept + ((PrivateMessageContent.decM ct).run raw).2.dropped.length ≤ raw.length ∧
    (∀ d ∈ ((PrivateMessageContent.decM ct).run raw).2.dropped, d < 2 ^ 30) ∧
    (PrivateMessageContent.decM ct).asked raw ≤ raw.length * 2 ^ 30 := by
  refine ⟨privateMessageContent_erase ct, ?_, (privateMessageContent_thrifty ct).small raw, (privateMessageContent_thrifty ct).total_le raw⟩
  have := (privateMessageContent_thrifty ct).room raw
  omega

/-- An application message of two bytes that announce eighty: they are not there, and are asked for. -/
example : ((PrivateMessageContent.decM .application).run [0x40, 0x50]).2.kept = 0 ∧
    ((PrivateMessageContent.decM .application).run [0x40, 0x50]).2.dropped = [80] := by decide +kernel

/-- A private message that is decoded and asks for exactly the bytes of its fields. -/
example : ∃ msg, unmarshal MlsMessage.dec
      ([0, 1, 0, 2] ++ [1, 7, 0, 0, 0, 0, 0, 0, 0, 0, 1, 0, 2, 5, 6, 3, 8, 9, 10]) = .ok msg ∧
    MlsMessage.decM.asked
      ([0, 1, 0, 2] ++ [1, 7, 0, 0, 0, 0, 0, 0, 0, 0, 1, 0, 2, 5, 6, 3, 8, 9, 10]) = 6 :=
  ⟨_, rfl, by decide +kernel⟩

end Mls
