import Verif.Proofs.Codec1
/-
Codec laws of the tagged types.
-/
set_option linter.unusedSimpArgs false

namespace Mls

/-- A tag of one byte followed by a check. -/
theorem tag8_ok {c : UInt8 → Bool} {s s' : Bytes} {t : UInt8} :
    ((do let t ← readU8; if c t = true then return t else P.fail : P UInt8)).run s = (.ok t, s') ↔
      s = t :: s' ∧ c t = true := by
  simp only [P.bind_ok_iff, readU8_ok_iff, P.ite_run]
  constructor
  · rintro ⟨a, s1, rfl, h⟩
    split at h
    · rename_i hc
      rw [P.pure_ok_iff] at h
      obtain ⟨rfl, rfl⟩ := h
      exact ⟨rfl, hc⟩
    · rw [P.fail_ok_iff] at h; exact h.elim
  · rintro ⟨rfl, hc⟩
    exact ⟨t, s', rfl, by rw [if_pos hc]; rfl⟩

theorem tag8_safe {c : UInt8 → Bool} :
    Safe (do let t ← readU8; if c t = true then return t else P.fail : P UInt8) :=
  readU8_safe.bind fun _ => Safe.ite (Safe.pure _) Safe.fail

theorem tag8_consumes {c : UInt8 → Bool} :
    Consumes (do let t ← readU8; if c t = true then return t else P.fail : P UInt8) :=
  readU8_consumes.bind fun _ => Shrinks.ite (Shrinks.pure _) Shrinks.fail

theorem tag16_ok {c : UInt16 → Bool} {s s' : Bytes} {t : UInt16} :
    ((do let t ← readU16; if c t = true then return t else P.fail : P UInt16)).run s = (.ok t, s') ↔
      readU16.run s = (.ok t, s') ∧ c t = true := by
  simp only [P.bind_ok_iff, P.ite_run]
  constructor
  · rintro ⟨a, s1, h1, h⟩
    split at h
    · rename_i hc
      rw [P.pure_ok_iff] at h
      obtain ⟨rfl, rfl⟩ := h
      exact ⟨h1, hc⟩
    · rw [P.fail_ok_iff] at h; exact h.elim
  · rintro ⟨h1, hc⟩
    exact ⟨t, s', h1, by rw [if_pos hc]; rfl⟩

theorem tag16_safe {c : UInt16 → Bool} :
    Safe (do let t ← readU16; if c t = true then return t else P.fail : P UInt16) :=
  readU16_safe.bind fun _ => Safe.ite (Safe.pure _) Safe.fail

theorem tag16_consumes {c : UInt16 → Bool} :
    Consumes (do let t ← readU16; if c t = true then return t else P.fail : P UInt16) :=
  readU16_consumes.bind fun _ => Shrinks.ite (Shrinks.pure _) Shrinks.fail

theorem addU8_eq (t : UInt8) : addU8 t = .ok [t] := by simp [addU8, beBytes]

theorem tag8_step {β : Type} {c : UInt8 → Bool} {t : UInt8} {f : UInt8 → P β} {r : Bytes}
    {res : Res β × Bytes} (hc : c t = true) (h : (f t).run r = res) :
    ((do let t ← readU8; if c t = true then return t else P.fail : P UInt8) >>= f).run (t :: r) = res := by
  rw [P.bind_eq (tag8_ok.2 ⟨rfl, hc⟩)]; exact h

theorem tag16_step {β : Type} {c : UInt16 → Bool} {t : UInt16} {f : UInt16 → P β} {x r : Bytes}
    {res : Res β × Bytes} (he : addU16 t = .ok x) (hc : c t = true) (h : (f t).run r = res) :
    ((do let t ← readU16; if c t = true then return t else P.fail : P UInt16) >>= f).run (x ++ r) = res := by
  rw [P.bind_eq (tag16_ok.2 ⟨addU16_rt _ _ _ he trivial, hc⟩)]; exact h

/-! ### Credential -/

theorem credential_rt : RT Credential.enc Credential.dec Any := by
  intro a bs rest h _
  cases a with
  | basic i =>
    simp only [Credential.enc, Enc.append_ok_iff] at h
    obtain ⟨x, y, e1, e2, rfl⟩ := h
    rw [List.append_assoc]
    refine rt_step rU16_rt e1 trivial ?_
    exact rt_step opaque_rt e2 trivial rfl
  | x509 i =>
    simp only [Credential.enc, Enc.append_ok_iff] at h
    obtain ⟨x, y, e1, e2, rfl⟩ := h
    rw [List.append_assoc]
    refine rt_step rU16_rt e1 trivial ?_
    exact rt_step vecOpaque_rt e2 trivial rfl
  | other t => simp [Credential.enc] at h

theorem credential_canon : Canon Credential.enc Credential.dec Any := by
  intro s a rest h _
  simp only [Credential.dec, P.bind_ok_iff, P.ite_run, P.fail_ok_iff] at h
  obtain ⟨t, s1, h0, h⟩ := h
  obtain ⟨x0, e0, rfl⟩ := rU16_canon _ _ _ h0 trivial
  split at h
  · rename_i ht
    rw [beq_iff_eq] at ht; subst ht
    simp only [P.bind_ok_iff, P.pure_ok_iff] at h
    obtain ⟨a1, s2, h1, rfl, rfl⟩ := h
    obtain ⟨x1, e1, rfl⟩ := opaque_canon _ _ _ h1 trivial
    exact ⟨x0 ++ x1, Enc.append_ok e0 e1, by simp only [List.append_assoc]⟩
  · split at h
    · rename_i ht
      rw [beq_iff_eq] at ht; subst ht
      simp only [P.bind_ok_iff, P.pure_ok_iff] at h
      obtain ⟨a1, s2, h1, rfl, rfl⟩ := h
      obtain ⟨x1, e1, rfl⟩ := vecOpaque_canon _ _ _ h1 trivial
      exact ⟨x0 ++ x1, Enc.append_ok e0 e1, by simp only [List.append_assoc]⟩
    · rw [P.fail_ok_iff] at h; exact h.elim

theorem credential_safe : Safe Credential.dec := by
  unfold Credential.dec
  refine rU16_safe.bind fun t => Safe.ite ?_ (Safe.ite ?_ Safe.fail)
  · exact opaque_safe.bind fun _ => Safe.pure _
  · exact vecOpaque_safe.bind fun _ => Safe.pure _

theorem credential_consumes : Consumes Credential.dec := by
  unfold Credential.dec
  refine rU16_consumes.bind fun t => Shrinks.ite ?_ (Shrinks.ite ?_ Shrinks.fail)
  · exact opaque_shrinks.bind fun _ => Shrinks.pure _
  · exact vecOpaque_consumes.shrinks.bind fun _ => Shrinks.pure _

/-! ### Leaf node -/

/-- The tag and the field it selects. -/
def LeafNodeSource.dec : P LeafNodeSource := do
  let t ← leafNodeSourceTag
  LeafNodeSource.decBody t

theorem source_rt : RT LeafNodeSource.enc LeafNodeSource.dec Any := by
  intro a bs rest h _
  cases a with
  | keyPackage lt =>
    simp only [LeafNodeSource.enc, Enc.append_ok_iff, addU8_eq, Res.ok.injEq] at h
    obtain ⟨x, y, rfl, e2, rfl⟩ := h
    refine tag8_step rfl ?_
    exact rt_step lifetime_rt e2 trivial rfl
  | update =>
    simp only [LeafNodeSource.enc, addU8_eq, Res.ok.injEq] at h
    subst h
    exact tag8_step rfl rfl
  | commit p =>
    simp only [LeafNodeSource.enc, Enc.append_ok_iff, addU8_eq, Res.ok.injEq] at h
    obtain ⟨x, y, rfl, e2, rfl⟩ := h
    refine tag8_step rfl ?_
    exact rt_step opaque_rt e2 trivial rfl

theorem source_canon : Canon LeafNodeSource.enc LeafNodeSource.dec Any := by
  intro s a rest h _
  simp only [LeafNodeSource.dec, leafNodeSourceTag, P.bind_ok_iff (f := LeafNodeSource.decBody), tag8_ok] at h
  obtain ⟨t, s1, ⟨rfl, hc⟩, h⟩ := h
  simp only [Bool.or_eq_true, beq_iff_eq] at hc
  rcases hc with (rfl | rfl) | rfl
  · change (do let lt ← Lifetime.dec; return LeafNodeSource.keyPackage lt : P LeafNodeSource).run s1 = _ at h
    simp only [P.bind_ok_iff, P.pure_ok_iff] at h
    obtain ⟨a1, s2, h1, rfl, rfl⟩ := h
    obtain ⟨x1, e1, rfl⟩ := lifetime_canon _ _ _ h1 trivial
    exact ⟨[1] ++ x1, Enc.append_ok (addU8_eq _) e1, rfl⟩
  · change (Pure.pure LeafNodeSource.update : P LeafNodeSource).run s1 = _ at h
    simp only [P.pure_ok_iff] at h
    obtain ⟨rfl, rfl⟩ := h
    exact ⟨[2], addU8_eq _, rfl⟩
  · change (do let lt ← readOpaqueVec; return LeafNodeSource.commit lt : P LeafNodeSource).run s1 = _ at h
    simp only [P.bind_ok_iff, P.pure_ok_iff] at h
    obtain ⟨a1, s2, h1, rfl, rfl⟩ := h
    obtain ⟨x1, e1, rfl⟩ := opaque_canon _ _ _ h1 trivial
    exact ⟨[3] ++ x1, Enc.append_ok (addU8_eq _) e1, rfl⟩

theorem decBody_safe (t : UInt8) : Safe (LeafNodeSource.decBody t) := by
  unfold LeafNodeSource.decBody
  refine Safe.ite ?_ (Safe.ite ?_ (Safe.pure _))
  · exact lifetime_safe.bind fun _ => Safe.pure _
  · exact opaque_safe.bind fun _ => Safe.pure _

theorem source_safe : Safe LeafNodeSource.dec := tag8_safe.bind decBody_safe

theorem source_consumes : Consumes LeafNodeSource.dec := by
  refine tag8_consumes.bind fun t => ?_
  unfold LeafNodeSource.decBody
  refine Shrinks.ite ?_ (Shrinks.ite ?_ (Shrinks.pure _))
  · exact lifetime_consumes.shrinks.bind fun _ => Shrinks.pure _
  · exact opaque_shrinks.bind fun _ => Shrinks.pure _

theorem P.bind_assoc {α β γ : Type} (p : P α) (f : α → P β) (g : β → P γ) :
    (p >>= f) >>= g = p >>= fun a => f a >>= g := by
  have : ∀ s, ((p >>= f) >>= g).run s = (p >>= fun a => f a >>= g).run s := by
    intro s
    simp only [P.bind_run]
    rcases p.run s with ⟨r, s'⟩
    cases r <;> rfl
  show P.mk _ = P.mk _
  congr 1
  exact funext this

theorem leafNode_dec_eq : LeafNode.dec = (do
    let encryptionKey ← readOpaqueVec
    let signatureKey ← readOpaqueVec
    let credential ← Credential.dec
    let capabilities ← Capabilities.dec
    let source ← LeafNodeSource.dec
    let extensions ← decExtensions
    let signature ← readOpaqueVec
    return { encryptionKey, signatureKey, credential, capabilities, source, extensions, signature }) := by
  unfold LeafNode.dec LeafNodeSource.dec
  simp only [P.bind_assoc]

theorem leafNode_rt : RT LeafNode.enc LeafNode.dec Any := by
  intro a bs rest h _
  simp only [LeafNode.enc, LeafNode.encBase, Enc.append_assoc, Enc.append_ok_iff] at h
  obtain ⟨x0, _, e0, ⟨x1, _, e1, ⟨x2, _, e2, ⟨x3, _, e3, ⟨x4, _, e4, ⟨x5, x6, e5, e6, rfl⟩, rfl⟩, rfl⟩, rfl⟩, rfl⟩, rfl⟩ := h
  rw [leafNode_dec_eq]
  simp only [List.append_assoc]
  refine rt_step opaque_rt e0 trivial ?_
  refine rt_step opaque_rt e1 trivial ?_
  refine rt_step credential_rt e2 trivial ?_
  refine rt_step capabilities_rt e3 trivial ?_
  refine rt_step source_rt e4 trivial ?_
  refine rt_step exts_rt e5 trivial ?_
  refine rt_step opaque_rt e6 trivial ?_
  rfl

theorem leafNode_canon : Canon LeafNode.enc LeafNode.dec Any := by
  intro s a rest h _
  simp only [leafNode_dec_eq, P.bind_ok_iff, P.pure_ok_iff] at h
  obtain ⟨a0, s0, h0, a1, s1, h1, a2, s2, h2, a3, s3, h3, a4, s4, h4, a5, s5, h5, a6, s6, h6, rfl, rfl⟩ := h
  obtain ⟨x0, e0, rfl⟩ := opaque_canon _ _ _ h0 trivial
  obtain ⟨x1, e1, rfl⟩ := opaque_canon _ _ _ h1 trivial
  obtain ⟨x2, e2, rfl⟩ := credential_canon _ _ _ h2 trivial
  obtain ⟨x3, e3, rfl⟩ := capabilities_canon _ _ _ h3 trivial
  obtain ⟨x4, e4, rfl⟩ := source_canon _ _ _ h4 trivial
  obtain ⟨x5, e5, rfl⟩ := exts_canon _ _ _ h5 trivial
  obtain ⟨x6, e6, rfl⟩ := opaque_canon _ _ _ h6 trivial
  refine ⟨x0 ++ x1 ++ x2 ++ x3 ++ x4 ++ x5 ++ x6, ?_, by simp only [List.append_assoc]⟩
  simp only [LeafNode.enc, LeafNode.encBase, e0, e1, e2, e3, e4, e5, e6, Enc.ok_append_ok]

theorem leafNode_safe : Safe LeafNode.dec := by
  rw [leafNode_dec_eq]
  refine opaque_safe.bind fun _ => ?_
  refine opaque_safe.bind fun _ => ?_
  refine credential_safe.bind fun _ => ?_
  refine capabilities_safe.bind fun _ => ?_
  refine source_safe.bind fun _ => ?_
  refine exts_safe.bind fun _ => ?_
  refine opaque_safe.bind fun _ => ?_
  exact Safe.pure _

theorem leafNode_consumes : Consumes LeafNode.dec := by
  rw [leafNode_dec_eq]
  refine opaque_consumes.bind fun _ => ?_
  refine opaque_consumes.shrinks.bind fun _ => ?_
  refine credential_consumes.shrinks.bind fun _ => ?_
  refine capabilities_consumes.shrinks.bind fun _ => ?_
  refine source_consumes.shrinks.bind fun _ => ?_
  refine exts_consumes.shrinks.bind fun _ => ?_
  refine opaque_consumes.shrinks.bind fun _ => ?_
  exact Shrinks.pure _
theorem updatePath_rt : RT UpdatePath.enc UpdatePath.dec Any := by
  intro a bs rest h _
  simp only [UpdatePath.enc, Enc.append_assoc, Enc.append_ok_iff] at h
  obtain ⟨x0, x1, e0, e1, rfl⟩ := h
  simp only [List.append_assoc]
  refine rt_step leafNode_rt e0 trivial ?_
  refine rt_step vecUpdatePathNode_rt e1 trivial ?_
  rfl

theorem updatePath_canon : Canon UpdatePath.enc UpdatePath.dec Any := by
  intro s a rest h _
  simp only [UpdatePath.dec, P.bind_ok_iff, P.pure_ok_iff] at h
  obtain ⟨a0, s0, h0, a1, s1, h1, rfl, rfl⟩ := h
  obtain ⟨x0, e0, rfl⟩ := leafNode_canon _ _ _ h0 trivial
  obtain ⟨x1, e1, rfl⟩ := vecUpdatePathNode_canon _ _ _ h1 trivial
  refine ⟨x0 ++ x1, ?_, by simp only [List.append_assoc]⟩
  simp only [UpdatePath.enc, e0, e1, Enc.ok_append_ok]

theorem updatePath_safe : Safe UpdatePath.dec := by
  unfold UpdatePath.dec
  refine leafNode_safe.bind fun _ => ?_
  refine vecUpdatePathNode_safe.bind fun _ => ?_
  exact Safe.pure _

theorem updatePath_consumes : Consumes UpdatePath.dec := by
  unfold UpdatePath.dec
  refine leafNode_consumes.bind fun _ => ?_
  refine vecUpdatePathNode_consumes.shrinks.bind fun _ => ?_
  exact Shrinks.pure _

/-! ### Nodes -/

theorem node_rt : RT Node.enc Node.dec Any := by
  intro a bs rest h _
  cases a with
  | leaf n =>
    simp only [Node.enc, Enc.append_ok_iff, addU8_eq, Res.ok.injEq] at h
    obtain ⟨x, y, rfl, e2, rfl⟩ := h
    exact tag8_step rfl (rt_step leafNode_rt e2 trivial rfl)
  | parent n =>
    simp only [Node.enc, Enc.append_ok_iff, addU8_eq, Res.ok.injEq] at h
    obtain ⟨x, y, rfl, e2, rfl⟩ := h
    exact tag8_step rfl (rt_step parentNode_rt e2 trivial rfl)

theorem node_canon : Canon Node.enc Node.dec Any := by
  intro s a rest h _
  unfold Node.dec at h
  rw [P.bind_ok_iff] at h
  simp only [nodeTypeTag, tag8_ok] at h
  obtain ⟨t, s1, ⟨rfl, hc⟩, h⟩ := h
  simp only [Bool.or_eq_true, beq_iff_eq] at hc
  rcases hc with rfl | rfl
  · change (do let n ← LeafNode.dec; return Node.leaf n : P Node).run s1 = _ at h
    simp only [P.bind_ok_iff, P.pure_ok_iff] at h
    obtain ⟨a1, s2, h1, rfl, rfl⟩ := h
    obtain ⟨x1, e1, rfl⟩ := leafNode_canon _ _ _ h1 trivial
    exact ⟨[1] ++ x1, Enc.append_ok (addU8_eq _) e1, rfl⟩
  · change (do let n ← ParentNode.dec; return Node.parent n : P Node).run s1 = _ at h
    simp only [P.bind_ok_iff, P.pure_ok_iff] at h
    obtain ⟨a1, s2, h1, rfl, rfl⟩ := h
    obtain ⟨x1, e1, rfl⟩ := parentNode_canon _ _ _ h1 trivial
    exact ⟨[2] ++ x1, Enc.append_ok (addU8_eq _) e1, rfl⟩

theorem node_safe : Safe Node.dec := by
  unfold Node.dec
  refine Safe.bind_mem tag8_safe fun s t s' ht => ?_
  simp only [nodeTypeTag, tag8_ok] at ht
  simp only [Bool.or_eq_true, beq_iff_eq] at ht
  rcases ht with ⟨_, rfl | rfl⟩
  · exact (leafNode_safe.bind fun _ => Safe.pure _) s'
  · exact (parentNode_safe.bind fun _ => Safe.pure _) s'

theorem node_consumes : Consumes Node.dec := by
  unfold Node.dec
  refine tag8_consumes.bind fun t => Shrinks.ite ?_ (Shrinks.ite ?_ Shrinks.panic)
  · exact leafNode_consumes.shrinks.bind fun _ => Shrinks.pure _
  · exact parentNode_consumes.shrinks.bind fun _ => Shrinks.pure _

theorem optNode_rt : RT encOptNode decOptNode Any := by
  intro a bs rest h _
  cases a with
  | none => exact rt_step (a := false) optional_rt h trivial rfl
  | some n =>
    simp only [encOptNode, Enc.append_ok_iff] at h
    obtain ⟨x, y, e1, e2, rfl⟩ := h
    rw [List.append_assoc]
    exact rt_step optional_rt e1 trivial (rt_step node_rt e2 trivial rfl)

theorem optNode_canon : Canon encOptNode decOptNode Any := by
  intro s a rest h _
  unfold decOptNode at h
  rw [P.bind_ok_iff] at h
  obtain ⟨b, s1, h0, h⟩ := h
  obtain ⟨x0, e0, rfl⟩ := optional_canon _ _ _ h0 trivial
  cases b with
  | false =>
    change (Pure.pure none : P (Option Node)).run s1 = _ at h
    simp only [P.pure_ok_iff] at h
    obtain ⟨rfl, rfl⟩ := h
    exact ⟨x0, e0, rfl⟩
  | true =>
    change (do let n ← Node.dec; return some n : P (Option Node)).run s1 = _ at h
    simp only [P.bind_ok_iff, P.pure_ok_iff] at h
    obtain ⟨a1, s2, h1, rfl, rfl⟩ := h
    obtain ⟨x1, e1, rfl⟩ := node_canon _ _ _ h1 trivial
    exact ⟨x0 ++ x1, Enc.append_ok e0 e1, by simp only [List.append_assoc]⟩

theorem optNode_safe : Safe decOptNode := by
  unfold decOptNode
  refine optional_safe.bind fun b => Safe.ite ?_ (Safe.pure _)
  exact node_safe.bind fun _ => Safe.pure _

theorem optNode_consumes : Consumes decOptNode := by
  unfold decOptNode
  refine optional_consumes.bind fun b => Shrinks.ite ?_ (Shrinks.pure _)
  exact node_consumes.shrinks.bind fun _ => Shrinks.pure _

theorem vecOptNode_rt : RT (writeVector encOptNode) (readVector decOptNode) Any := vector_rt_any optNode_rt optNode_consumes
theorem vecOptNode_canon : Canon (writeVector encOptNode) (readVector decOptNode) Any := vector_canon_any optNode_canon
theorem vecOptNode_safe : Safe (readVector decOptNode) := vector_safe optNode_safe optNode_consumes
theorem vecOptNode_consumes : Consumes (readVector decOptNode) := vector_consumes

end Mls
