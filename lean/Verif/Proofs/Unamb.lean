import Verif.Proofs.Codec4
import Verif.Model.Crypto
/-
Unambiguous encodings: from two encodings with any continuations, equality of the whole byte
strings gives equality of the values. Unlike the round-trip law this needs no well-formedness.
-/
namespace Mls

/-- Equal byte strings starting with encodings come from equal values. -/
def Unamb {α : Type} (enc : α → Enc) : Prop :=
  ∀ a b x y r s, enc a = .ok x → enc b = .ok y → x ++ r = y ++ s → a = b ∧ r = s

theorem Unamb.ofRT {α : Type} {enc : α → Enc} {dec : P α} (h : RT enc dec Any) : Unamb enc := by
  intro a b x y r s ha hb he
  have h1 := h a x r ha trivial
  have h2 := h b y s hb trivial
  rw [he, h2] at h1
  cases h1; exact ⟨rfl, rfl⟩

/-- Unambiguity without continuation. -/
theorem Unamb.inj {α : Type} {enc : α → Enc} (h : Unamb enc) {a b : α} {x : Bytes}
    (ha : enc a = .ok x) (hb : enc b = .ok x) : a = b :=
  (h a b x x [] [] ha hb rfl).1

/-- Encodings have at least one byte. -/
def NonEmpty {α : Type} (enc : α → Enc) : Prop := ∀ a x, enc a = .ok x → x ≠ []

theorem unamb_concat {α : Type} {enc : α → Enc} (h : Unamb enc) (hn : NonEmpty enc) :
    ∀ (l m : List α) (x : Bytes), Enc.concat (l.map enc) = .ok x → Enc.concat (m.map enc) = .ok x → l = m := by
  intro l
  induction l with
  | nil =>
    intro m x hl hm
    cases m with
    | nil => rfl
    | cons b m =>
      simp only [List.map, Enc.concat, Enc.append_ok_iff] at hl hm
      obtain ⟨y, z, hy, _, rfl⟩ := hm
      have := hn b y hy
      simp [Enc.nil] at hl
      exact absurd hl.1 this
  | cons a l ih =>
    intro m x hl hm
    cases m with
    | nil =>
      simp only [List.map, Enc.concat, Enc.append_ok_iff] at hl hm
      obtain ⟨y, z, hy, _, rfl⟩ := hl
      have := hn a y hy
      simp [Enc.nil] at hm
      exact absurd hm.1 this
    | cons b m =>
      simp only [List.map, Enc.concat, Enc.append_ok_iff] at hl hm
      obtain ⟨y, z, hy, hz, rfl⟩ := hl
      obtain ⟨y', z', hy', hz', he⟩ := hm
      obtain ⟨rfl, rfl⟩ := h a b y y' z z' hy hy' he
      rw [ih m z hz hz']

theorem unamb_vector {α : Type} {enc : α → Enc} (h : Unamb enc) (hn : NonEmpty enc) :
    Unamb (writeVector enc) := by
  intro l m x y r s hl hm he
  unfold writeVector at hl hm
  rcases hl' : Enc.concat (l.map enc) with a | _ | _ | _ <;> rw [hl'] at hl <;> try cases hl
  rcases hm' : Enc.concat (m.map enc) with b | _ | _ | _ <;> rw [hm'] at hm <;> try cases hm
  obtain ⟨rfl, rfl⟩ := Unamb.ofRT opaque_rt a b x y r s hl hm he
  exact ⟨unamb_concat h hn l m a hl' hm', rfl⟩

theorem uU8 : Unamb addU8 := .ofRT rU8_rt
theorem uU16 : Unamb addU16 := .ofRT rU16_rt
theorem uU32 : Unamb addU32 := .ofRT rU32_rt
theorem uU64 : Unamb addU64 := .ofRT rU64_rt
theorem uOpaque : Unamb writeOpaqueVec := .ofRT opaque_rt
theorem uExts : Unamb encExtensions := .ofRT exts_rt
theorem uLeaf : Unamb LeafNode.enc := .ofRT leafNode_rt
theorem uContentType : Unamb ContentType.enc := .ofRT contentType_rt
theorem uSender : Unamb Sender.enc := .ofRT sender_rt
theorem uPskID : Unamb PreSharedKeyID.enc := .ofRT pskID_rt
theorem uReInit : Unamb ReInit.enc := .ofRT reInit_rt
theorem uUpdatePath : Unamb UpdatePath.enc := .ofRT updatePath_rt

theorem addU16_ne_nil {v : UInt16} {x : Bytes} (h : addU16 v = .ok x) : x ≠ [] := by
  cases h; simp [beBytes]

theorem addU8_ne_nil {v : UInt8} {x : Bytes} (h : addU8 v = .ok x) : x ≠ [] := by
  cases h; simp [beBytes]

theorem uKeyPackage : Unamb KeyPackage.enc := by
  intro a b x y r s ha hb he
  simp only [KeyPackage.enc, KeyPackage.encTBS, Enc.append_assoc, Enc.append_ok_iff] at ha hb
  obtain ⟨x0, _, e0, ⟨x1, _, e1, ⟨x2, _, e2, ⟨x3, _, e3, ⟨x4, x5, e4, e5, rfl⟩, rfl⟩, rfl⟩, rfl⟩, rfl⟩ := ha
  obtain ⟨y0, _, f0, ⟨y1, _, f1, ⟨y2, _, f2, ⟨y3, _, f3, ⟨y4, y5, f4, f5, rfl⟩, rfl⟩, rfl⟩, rfl⟩, rfl⟩ := hb
  simp only [List.append_assoc] at he
  obtain ⟨h0, he⟩ := uU16 _ _ _ _ _ _ e0 f0 he
  obtain ⟨h1, he⟩ := uU16 _ _ _ _ _ _ e1 f1 he
  obtain ⟨h2, he⟩ := uOpaque _ _ _ _ _ _ e2 f2 he
  obtain ⟨h3, he⟩ := uLeaf _ _ _ _ _ _ e3 f3 he
  obtain ⟨h4, he⟩ := uExts _ _ _ _ _ _ e4 f4 he
  obtain ⟨h5, he⟩ := uOpaque _ _ _ _ _ _ e5 f5 he
  cases a; cases b; simp_all

/-- The type numbers of proposals. -/
def Proposal.tag : Proposal → UInt16
  | .add _ => 1
  | .update _ => 2
  | .remove _ => 3
  | .psk _ => 4
  | .reInit _ => 5
  | .externalInit _ => 6
  | .groupContextExtensions _ => 7

theorem proposal_enc_tag {p : Proposal} {x : Bytes} (h : p.enc = .ok x) :
    ∃ x0 x1, addU16 p.tag = .ok x0 ∧ x = x0 ++ x1 := by
  cases p <;> simp only [Proposal.enc, Enc.append_ok_iff] at h <;>
    obtain ⟨x0, x1, h0, _, rfl⟩ := h <;> exact ⟨x0, x1, h0, rfl⟩

theorem proposal_nonEmpty : NonEmpty Proposal.enc := by
  intro p x h
  obtain ⟨x0, x1, h0, rfl⟩ := proposal_enc_tag h
  have := addU16_ne_nil h0
  simp [this]

theorem uProposal : Unamb Proposal.enc := by
  intro a b x y r s ha hb he
  have ht : a.tag = b.tag := by
    obtain ⟨x0, x1, h0, rfl⟩ := proposal_enc_tag ha
    obtain ⟨y0, y1, k0, rfl⟩ := proposal_enc_tag hb
    rw [List.append_assoc, List.append_assoc] at he
    exact (uU16 _ _ _ _ _ _ h0 k0 he).1
  cases a <;> cases b <;> first
    | (exfalso; simp [Proposal.tag] at ht; done)
    | (simp only [Proposal.enc, Enc.append_ok_iff] at ha hb
       obtain ⟨x0, x1, h0, h1, rfl⟩ := ha
       obtain ⟨y0, y1, k0, k1, rfl⟩ := hb
       rw [List.append_assoc, List.append_assoc] at he
       obtain ⟨_, he⟩ := uU16 _ _ _ _ _ _ h0 k0 he
       first
        | (obtain ⟨rfl, he⟩ := uKeyPackage _ _ _ _ _ _ h1 k1 he; exact ⟨rfl, he⟩)
        | (obtain ⟨rfl, he⟩ := uLeaf _ _ _ _ _ _ h1 k1 he; exact ⟨rfl, he⟩)
        | (obtain ⟨rfl, he⟩ := uU32 _ _ _ _ _ _ h1 k1 he; exact ⟨rfl, he⟩)
        | (obtain ⟨rfl, he⟩ := uPskID _ _ _ _ _ _ h1 k1 he; exact ⟨rfl, he⟩)
        | (obtain ⟨rfl, he⟩ := uReInit _ _ _ _ _ _ h1 k1 he; exact ⟨rfl, he⟩)
        | (obtain ⟨rfl, he⟩ := uOpaque _ _ _ _ _ _ h1 k1 he; exact ⟨rfl, he⟩)
        | (obtain ⟨rfl, he⟩ := uExts _ _ _ _ _ _ h1 k1 he; exact ⟨rfl, he⟩))

theorem por_nonEmpty : NonEmpty ProposalOrRef.enc := by
  intro p x h
  cases p <;> simp only [ProposalOrRef.enc, Enc.append_ok_iff] at h <;>
    obtain ⟨x0, x1, h0, _, rfl⟩ := h <;> simp [addU8_ne_nil h0]

theorem uPor : Unamb ProposalOrRef.enc := by
  intro a b x y r s ha hb he
  cases a <;> cases b <;> simp only [ProposalOrRef.enc, Enc.append_ok_iff] at ha hb <;>
    obtain ⟨x0, x1, h0, h1, rfl⟩ := ha <;> obtain ⟨y0, y1, k0, k1, rfl⟩ := hb <;>
    rw [List.append_assoc, List.append_assoc] at he <;>
    obtain ⟨ht, he⟩ := uU8 _ _ _ _ _ _ h0 k0 he <;> first
    | (exact absurd ht (by decide))
    | (obtain ⟨rfl, he⟩ := uProposal _ _ _ _ _ _ h1 k1 he; exact ⟨rfl, he⟩)
    | (obtain ⟨rfl, he⟩ := uOpaque _ _ _ _ _ _ h1 k1 he; exact ⟨rfl, he⟩)

theorem uOptional : Unamb writeOptional := by
  intro a b x y r s ha hb he
  cases a <;> cases b <;> simp only [writeOptional] at ha hb <;>
    obtain ⟨ht, he⟩ := uU8 _ _ _ _ _ _ ha hb he <;> first
    | (exact absurd ht (by decide))
    | (exact ⟨rfl, he⟩)

theorem uCommit : Unamb Commit.enc := by
  intro a b x y r s ha hb he
  obtain ⟨ap, apath⟩ := a
  obtain ⟨bp, bpath⟩ := b
  have hv := unamb_vector uPor por_nonEmpty
  cases apath <;> cases bpath <;>
    simp only [Commit.enc, Enc.append_ok_iff] at ha hb
  · obtain ⟨x0, x1, h0, h1, rfl⟩ := ha
    obtain ⟨y0, y1, k0, k1, rfl⟩ := hb
    simp only [List.append_assoc] at he
    obtain ⟨rfl, he⟩ := hv _ _ _ _ _ _ h0 k0 he
    obtain ⟨_, he⟩ := uOptional _ _ _ _ _ _ h1 k1 he
    exact ⟨rfl, he⟩
  · obtain ⟨x0, x1, h0, h1, rfl⟩ := ha
    obtain ⟨y0, _, k0, ⟨y1, y2, k1, k2, rfl⟩, rfl⟩ := hb
    simp only [List.append_assoc] at he
    obtain ⟨rfl, he⟩ := hv _ _ _ _ _ _ h0 k0 he
    obtain ⟨h, he⟩ := uOptional _ _ _ _ _ _ h1 k1 he
    cases h
  · obtain ⟨x0, _, h0, ⟨x1, x2, h1, h2, rfl⟩, rfl⟩ := ha
    obtain ⟨y0, y1, k0, k1, rfl⟩ := hb
    simp only [List.append_assoc] at he
    obtain ⟨rfl, he⟩ := hv _ _ _ _ _ _ h0 k0 he
    obtain ⟨h, he⟩ := uOptional _ _ _ _ _ _ h1 k1 he
    cases h
  · obtain ⟨x0, _, h0, ⟨x1, x2, h1, h2, rfl⟩, rfl⟩ := ha
    obtain ⟨y0, _, k0, ⟨y1, y2, k1, k2, rfl⟩, rfl⟩ := hb
    simp only [List.append_assoc] at he
    obtain ⟨rfl, he⟩ := hv _ _ _ _ _ _ h0 k0 he
    obtain ⟨h, he⟩ := uOptional _ _ _ _ _ _ h1 k1 he
    obtain ⟨rfl, he⟩ := uUpdatePath _ _ _ _ _ _ h2 k2 he
    exact ⟨rfl, he⟩

/-- Contents of the same type are unambiguous. -/
theorem uContent {a b : Content} {x y r s : Bytes} (ht : a.ty = b.ty) (ha : a.enc = .ok x)
    (hb : b.enc = .ok y) (he : x ++ r = y ++ s) : a = b ∧ r = s := by
  cases a <;> cases b <;> simp only [Content.ty, reduceCtorEq] at ht <;>
    simp only [Content.enc] at ha hb
  · obtain ⟨rfl, he⟩ := uOpaque _ _ _ _ _ _ ha hb he; exact ⟨rfl, he⟩
  · obtain ⟨rfl, he⟩ := uProposal _ _ _ _ _ _ ha hb he; exact ⟨rfl, he⟩
  · obtain ⟨rfl, he⟩ := uCommit _ _ _ _ _ _ ha hb he; exact ⟨rfl, he⟩

theorem uFramedContent : Unamb FramedContent.enc := by
  intro a b x y r s ha hb he
  simp only [FramedContent.enc, Enc.append_assoc, Enc.append_ok_iff] at ha hb
  obtain ⟨x0, _, e0, ⟨x1, _, e1, ⟨x2, _, e2, ⟨x3, _, e3, ⟨x4, x5, e4, e5, rfl⟩, rfl⟩, rfl⟩, rfl⟩, rfl⟩ := ha
  obtain ⟨y0, _, f0, ⟨y1, _, f1, ⟨y2, _, f2, ⟨y3, _, f3, ⟨y4, y5, f4, f5, rfl⟩, rfl⟩, rfl⟩, rfl⟩, rfl⟩ := hb
  simp only [List.append_assoc] at he
  obtain ⟨h0, he⟩ := uOpaque _ _ _ _ _ _ e0 f0 he
  obtain ⟨h1, he⟩ := uU64 _ _ _ _ _ _ e1 f1 he
  obtain ⟨h2, he⟩ := uSender _ _ _ _ _ _ e2 f2 he
  obtain ⟨h3, he⟩ := uOpaque _ _ _ _ _ _ e3 f3 he
  obtain ⟨h4, he⟩ := uContentType _ _ _ _ _ _ e4 f4 he
  obtain ⟨h5, he⟩ := uContent h4 e5 f5 he
  cases a; cases b; simp_all

theorem uGroupContext : Unamb GroupContext.enc := by
  intro a b x y r s ha hb he
  simp only [GroupContext.enc, Enc.append_assoc, Enc.append_ok_iff] at ha hb
  obtain ⟨x0, _, e0, ⟨x1, _, e1, ⟨x2, _, e2, ⟨x3, _, e3, ⟨x4, _, e4, ⟨x5, x6, e5, e6, rfl⟩, rfl⟩, rfl⟩, rfl⟩, rfl⟩, rfl⟩ := ha
  obtain ⟨y0, _, f0, ⟨y1, _, f1, ⟨y2, _, f2, ⟨y3, _, f3, ⟨y4, _, f4, ⟨y5, y6, f5, f6, rfl⟩, rfl⟩, rfl⟩, rfl⟩, rfl⟩, rfl⟩ := hb
  simp only [List.append_assoc] at he
  obtain ⟨h0, he⟩ := uU16 _ _ _ _ _ _ e0 f0 he
  obtain ⟨h1, he⟩ := uU16 _ _ _ _ _ _ e1 f1 he
  obtain ⟨h2, he⟩ := uOpaque _ _ _ _ _ _ e2 f2 he
  obtain ⟨h3, he⟩ := uU64 _ _ _ _ _ _ e3 f3 he
  obtain ⟨h4, he⟩ := uOpaque _ _ _ _ _ _ e4 f4 he
  obtain ⟨h5, he⟩ := uOpaque _ _ _ _ _ _ e5 f5 he
  obtain ⟨h6, he⟩ := uExts _ _ _ _ _ _ e6 f6 he
  cases a; cases b; simp_all

theorem uWireFormat : Unamb WireFormat.enc := by
  intro a b x y r s ha hb he
  cases a <;> cases b <;> simp only [WireFormat.enc] at ha hb <;>
    obtain ⟨ht, he⟩ := uU16 _ _ _ _ _ _ ha hb he <;> first
    | (exact absurd ht (by decide))
    | (exact ⟨rfl, he⟩)

end Mls
