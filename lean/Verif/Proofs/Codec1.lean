import Verif.Proofs.Wire
/-
Codec laws (round trip, canonicity, safety, consumption) of every wire type.
-/
set_option linter.unusedSimpArgs false

namespace Mls

theorem rt_step {α β : Type} {enc : α → Enc} {p : P α} {wf : α → Prop} {f : α → P β} {a : α}
    {x r : Bytes} {res : Res β × Bytes} (hrt : RT enc p wf) (he : enc a = .ok x) (hw : wf a)
    (h : (f a).run r = res) : (p >>= f).run (x ++ r) = res := by
  rw [P.bind_eq (hrt a x r he hw)]; exact h

theorem vector_rt_any {α : Type} {enc : α → Enc} {dec : P α} (hrt : RT enc dec Any)
    (hc : Consumes dec) : RT (writeVector enc) (readVector dec) Any :=
  fun l bs rest h _ => vector_rt hrt hc l bs rest h fun _ _ => trivial

theorem vector_canon_any {α : Type} {enc : α → Enc} {dec : P α} (hcan : Canon enc dec Any) :
    Canon (writeVector enc) (readVector dec) Any :=
  fun s l rest h _ => vector_canon hcan s l rest h fun _ _ => trivial

theorem rU8_rt : RT addU8 readU8 Any := addU8_rt
theorem rU8_canon : Canon addU8 readU8 Any := readU8_canon
theorem rU8_safe : Safe readU8 := readU8_safe
theorem rU8_consumes : Consumes readU8 := readU8_consumes
theorem rU16_rt : RT addU16 readU16 Any := addU16_rt
theorem rU16_canon : Canon addU16 readU16 Any := readU16_canon
theorem rU16_safe : Safe readU16 := readU16_safe
theorem rU16_consumes : Consumes readU16 := readU16_consumes
theorem rU32_rt : RT addU32 readU32 Any := addU32_rt
theorem rU32_canon : Canon addU32 readU32 Any := readU32_canon
theorem rU32_safe : Safe readU32 := readU32_safe
theorem rU32_consumes : Consumes readU32 := readU32_consumes
theorem rU64_rt : RT addU64 readU64 Any := addU64_rt
theorem rU64_canon : Canon addU64 readU64 Any := readU64_canon
theorem rU64_safe : Safe readU64 := readU64_safe
theorem rU64_consumes : Consumes readU64 := readU64_consumes

theorem vecU16_rt : RT (writeVector addU16) (readVector readU16) Any := vector_rt_any rU16_rt rU16_consumes
theorem vecU16_canon : Canon (writeVector addU16) (readVector readU16) Any := vector_canon_any rU16_canon
theorem vecU16_safe : Safe (readVector readU16) := vector_safe rU16_safe rU16_consumes
theorem vecU16_consumes : Consumes (readVector readU16) := vector_consumes

theorem vecU32_rt : RT (writeVector addU32) (readVector readU32) Any := vector_rt_any rU32_rt rU32_consumes
theorem vecU32_canon : Canon (writeVector addU32) (readVector readU32) Any := vector_canon_any rU32_canon
theorem vecU32_safe : Safe (readVector readU32) := vector_safe rU32_safe rU32_consumes
theorem vecU32_consumes : Consumes (readVector readU32) := vector_consumes

theorem vecOpaque_rt : RT (writeVector writeOpaqueVec) (readVector readOpaqueVec) Any := vector_rt_any opaque_rt opaque_consumes
theorem vecOpaque_canon : Canon (writeVector writeOpaqueVec) (readVector readOpaqueVec) Any := vector_canon_any opaque_canon
theorem vecOpaque_safe : Safe (readVector readOpaqueVec) := vector_safe opaque_safe opaque_consumes
theorem vecOpaque_consumes : Consumes (readVector readOpaqueVec) := vector_consumes

theorem hpkeCiphertext_rt : RT HpkeCiphertext.enc HpkeCiphertext.dec Any := by
  intro a bs rest h _
  simp only [HpkeCiphertext.enc, Enc.append_assoc, Enc.append_ok_iff] at h
  obtain ⟨x0, x1, e0, e1, rfl⟩ := h
  simp only [List.append_assoc]
  refine rt_step opaque_rt e0 trivial ?_
  refine rt_step opaque_rt e1 trivial ?_
  rfl

theorem hpkeCiphertext_canon : Canon HpkeCiphertext.enc HpkeCiphertext.dec Any := by
  intro s a rest h _
  simp only [HpkeCiphertext.dec, P.bind_ok_iff, P.pure_ok_iff] at h
  obtain ⟨a0, s0, h0, a1, s1, h1, rfl, rfl⟩ := h
  obtain ⟨x0, e0, rfl⟩ := opaque_canon _ _ _ h0 trivial
  obtain ⟨x1, e1, rfl⟩ := opaque_canon _ _ _ h1 trivial
  refine ⟨x0 ++ x1, ?_, by simp only [List.append_assoc]⟩
  simp only [HpkeCiphertext.enc, e0, e1, Enc.ok_append_ok]

theorem hpkeCiphertext_safe : Safe HpkeCiphertext.dec := by
  unfold HpkeCiphertext.dec
  refine opaque_safe.bind fun _ => ?_
  refine opaque_safe.bind fun _ => ?_
  exact Safe.pure _

theorem hpkeCiphertext_consumes : Consumes HpkeCiphertext.dec := by
  unfold HpkeCiphertext.dec
  refine opaque_consumes.bind fun _ => ?_
  refine opaque_consumes.shrinks.bind fun _ => ?_
  exact Shrinks.pure _
theorem vecHpke_rt : RT (writeVector HpkeCiphertext.enc) (readVector HpkeCiphertext.dec) Any := vector_rt_any hpkeCiphertext_rt hpkeCiphertext_consumes
theorem vecHpke_canon : Canon (writeVector HpkeCiphertext.enc) (readVector HpkeCiphertext.dec) Any := vector_canon_any hpkeCiphertext_canon
theorem vecHpke_safe : Safe (readVector HpkeCiphertext.dec) := vector_safe hpkeCiphertext_safe hpkeCiphertext_consumes
theorem vecHpke_consumes : Consumes (readVector HpkeCiphertext.dec) := vector_consumes

theorem parentNode_rt : RT ParentNode.enc ParentNode.dec Any := by
  intro a bs rest h _
  simp only [ParentNode.enc, Enc.append_assoc, Enc.append_ok_iff] at h
  obtain ⟨x0, _, e0, ⟨x1, x2, e1, e2, rfl⟩, rfl⟩ := h
  simp only [List.append_assoc]
  refine rt_step opaque_rt e0 trivial ?_
  refine rt_step opaque_rt e1 trivial ?_
  refine rt_step vecU32_rt e2 trivial ?_
  rfl

theorem parentNode_canon : Canon ParentNode.enc ParentNode.dec Any := by
  intro s a rest h _
  simp only [ParentNode.dec, P.bind_ok_iff, P.pure_ok_iff] at h
  obtain ⟨a0, s0, h0, a1, s1, h1, a2, s2, h2, rfl, rfl⟩ := h
  obtain ⟨x0, e0, rfl⟩ := opaque_canon _ _ _ h0 trivial
  obtain ⟨x1, e1, rfl⟩ := opaque_canon _ _ _ h1 trivial
  obtain ⟨x2, e2, rfl⟩ := vecU32_canon _ _ _ h2 trivial
  refine ⟨x0 ++ x1 ++ x2, ?_, by simp only [List.append_assoc]⟩
  simp only [ParentNode.enc, e0, e1, e2, Enc.ok_append_ok]

theorem parentNode_safe : Safe ParentNode.dec := by
  unfold ParentNode.dec
  refine opaque_safe.bind fun _ => ?_
  refine opaque_safe.bind fun _ => ?_
  refine vecU32_safe.bind fun _ => ?_
  exact Safe.pure _

theorem parentNode_consumes : Consumes ParentNode.dec := by
  unfold ParentNode.dec
  refine opaque_consumes.bind fun _ => ?_
  refine opaque_consumes.shrinks.bind fun _ => ?_
  refine vecU32_consumes.shrinks.bind fun _ => ?_
  exact Shrinks.pure _
theorem capabilities_rt : RT Capabilities.enc Capabilities.dec Any := by
  intro a bs rest h _
  simp only [Capabilities.enc, Enc.append_assoc, Enc.append_ok_iff] at h
  obtain ⟨x0, _, e0, ⟨x1, _, e1, ⟨x2, _, e2, ⟨x3, x4, e3, e4, rfl⟩, rfl⟩, rfl⟩, rfl⟩ := h
  simp only [List.append_assoc]
  refine rt_step vecU16_rt e0 trivial ?_
  refine rt_step vecU16_rt e1 trivial ?_
  refine rt_step vecU16_rt e2 trivial ?_
  refine rt_step vecU16_rt e3 trivial ?_
  refine rt_step vecU16_rt e4 trivial ?_
  rfl

theorem capabilities_canon : Canon Capabilities.enc Capabilities.dec Any := by
  intro s a rest h _
  simp only [Capabilities.dec, P.bind_ok_iff, P.pure_ok_iff] at h
  obtain ⟨a0, s0, h0, a1, s1, h1, a2, s2, h2, a3, s3, h3, a4, s4, h4, rfl, rfl⟩ := h
  obtain ⟨x0, e0, rfl⟩ := vecU16_canon _ _ _ h0 trivial
  obtain ⟨x1, e1, rfl⟩ := vecU16_canon _ _ _ h1 trivial
  obtain ⟨x2, e2, rfl⟩ := vecU16_canon _ _ _ h2 trivial
  obtain ⟨x3, e3, rfl⟩ := vecU16_canon _ _ _ h3 trivial
  obtain ⟨x4, e4, rfl⟩ := vecU16_canon _ _ _ h4 trivial
  refine ⟨x0 ++ x1 ++ x2 ++ x3 ++ x4, ?_, by simp only [List.append_assoc]⟩
  simp only [Capabilities.enc, e0, e1, e2, e3, e4, Enc.ok_append_ok]

theorem capabilities_safe : Safe Capabilities.dec := by
  unfold Capabilities.dec
  refine vecU16_safe.bind fun _ => ?_
  refine vecU16_safe.bind fun _ => ?_
  refine vecU16_safe.bind fun _ => ?_
  refine vecU16_safe.bind fun _ => ?_
  refine vecU16_safe.bind fun _ => ?_
  exact Safe.pure _

theorem capabilities_consumes : Consumes Capabilities.dec := by
  unfold Capabilities.dec
  refine vecU16_consumes.bind fun _ => ?_
  refine vecU16_consumes.shrinks.bind fun _ => ?_
  refine vecU16_consumes.shrinks.bind fun _ => ?_
  refine vecU16_consumes.shrinks.bind fun _ => ?_
  refine vecU16_consumes.shrinks.bind fun _ => ?_
  exact Shrinks.pure _
theorem lifetime_rt : RT Lifetime.enc Lifetime.dec Any := by
  intro a bs rest h _
  simp only [Lifetime.enc, Enc.append_assoc, Enc.append_ok_iff] at h
  obtain ⟨x0, x1, e0, e1, rfl⟩ := h
  simp only [List.append_assoc]
  refine rt_step rU64_rt e0 trivial ?_
  refine rt_step rU64_rt e1 trivial ?_
  rfl

theorem lifetime_canon : Canon Lifetime.enc Lifetime.dec Any := by
  intro s a rest h _
  simp only [Lifetime.dec, P.bind_ok_iff, P.pure_ok_iff] at h
  obtain ⟨a0, s0, h0, a1, s1, h1, rfl, rfl⟩ := h
  obtain ⟨x0, e0, rfl⟩ := rU64_canon _ _ _ h0 trivial
  obtain ⟨x1, e1, rfl⟩ := rU64_canon _ _ _ h1 trivial
  refine ⟨x0 ++ x1, ?_, by simp only [List.append_assoc]⟩
  simp only [Lifetime.enc, e0, e1, Enc.ok_append_ok]

theorem lifetime_safe : Safe Lifetime.dec := by
  unfold Lifetime.dec
  refine rU64_safe.bind fun _ => ?_
  refine rU64_safe.bind fun _ => ?_
  exact Safe.pure _

theorem lifetime_consumes : Consumes Lifetime.dec := by
  unfold Lifetime.dec
  refine rU64_consumes.bind fun _ => ?_
  refine rU64_consumes.shrinks.bind fun _ => ?_
  exact Shrinks.pure _
theorem extension_rt : RT Extension.enc Extension.dec Any := by
  intro a bs rest h _
  simp only [Extension.enc, Enc.append_assoc, Enc.append_ok_iff] at h
  obtain ⟨x0, x1, e0, e1, rfl⟩ := h
  simp only [List.append_assoc]
  refine rt_step rU16_rt e0 trivial ?_
  refine rt_step opaque_rt e1 trivial ?_
  rfl

theorem extension_canon : Canon Extension.enc Extension.dec Any := by
  intro s a rest h _
  simp only [Extension.dec, P.bind_ok_iff, P.pure_ok_iff] at h
  obtain ⟨a0, s0, h0, a1, s1, h1, rfl, rfl⟩ := h
  obtain ⟨x0, e0, rfl⟩ := rU16_canon _ _ _ h0 trivial
  obtain ⟨x1, e1, rfl⟩ := opaque_canon _ _ _ h1 trivial
  refine ⟨x0 ++ x1, ?_, by simp only [List.append_assoc]⟩
  simp only [Extension.enc, e0, e1, Enc.ok_append_ok]

theorem extension_safe : Safe Extension.dec := by
  unfold Extension.dec
  refine rU16_safe.bind fun _ => ?_
  refine opaque_safe.bind fun _ => ?_
  exact Safe.pure _

theorem extension_consumes : Consumes Extension.dec := by
  unfold Extension.dec
  refine rU16_consumes.bind fun _ => ?_
  refine opaque_consumes.shrinks.bind fun _ => ?_
  exact Shrinks.pure _
theorem exts_rt : RT encExtensions decExtensions Any := vector_rt_any extension_rt extension_consumes
theorem exts_canon : Canon encExtensions decExtensions Any := vector_canon_any extension_canon
theorem exts_safe : Safe decExtensions := vector_safe extension_safe extension_consumes
theorem exts_consumes : Consumes decExtensions := vector_consumes

theorem updatePathNode_rt : RT UpdatePathNode.enc UpdatePathNode.dec Any := by
  intro a bs rest h _
  simp only [UpdatePathNode.enc, Enc.append_assoc, Enc.append_ok_iff] at h
  obtain ⟨x0, x1, e0, e1, rfl⟩ := h
  simp only [List.append_assoc]
  refine rt_step opaque_rt e0 trivial ?_
  refine rt_step vecHpke_rt e1 trivial ?_
  rfl

theorem updatePathNode_canon : Canon UpdatePathNode.enc UpdatePathNode.dec Any := by
  intro s a rest h _
  simp only [UpdatePathNode.dec, P.bind_ok_iff, P.pure_ok_iff] at h
  obtain ⟨a0, s0, h0, a1, s1, h1, rfl, rfl⟩ := h
  obtain ⟨x0, e0, rfl⟩ := opaque_canon _ _ _ h0 trivial
  obtain ⟨x1, e1, rfl⟩ := vecHpke_canon _ _ _ h1 trivial
  refine ⟨x0 ++ x1, ?_, by simp only [List.append_assoc]⟩
  simp only [UpdatePathNode.enc, e0, e1, Enc.ok_append_ok]

theorem updatePathNode_safe : Safe UpdatePathNode.dec := by
  unfold UpdatePathNode.dec
  refine opaque_safe.bind fun _ => ?_
  refine vecHpke_safe.bind fun _ => ?_
  exact Safe.pure _

theorem updatePathNode_consumes : Consumes UpdatePathNode.dec := by
  unfold UpdatePathNode.dec
  refine opaque_consumes.bind fun _ => ?_
  refine vecHpke_consumes.shrinks.bind fun _ => ?_
  exact Shrinks.pure _
theorem vecUpdatePathNode_rt : RT (writeVector UpdatePathNode.enc) (readVector UpdatePathNode.dec) Any := vector_rt_any updatePathNode_rt updatePathNode_consumes
theorem vecUpdatePathNode_canon : Canon (writeVector UpdatePathNode.enc) (readVector UpdatePathNode.dec) Any := vector_canon_any updatePathNode_canon
theorem vecUpdatePathNode_safe : Safe (readVector UpdatePathNode.dec) := vector_safe updatePathNode_safe updatePathNode_consumes
theorem vecUpdatePathNode_consumes : Consumes (readVector UpdatePathNode.dec) := vector_consumes

theorem reInit_rt : RT ReInit.enc ReInit.dec Any := by
  intro a bs rest h _
  simp only [ReInit.enc, Enc.append_assoc, Enc.append_ok_iff] at h
  obtain ⟨x0, _, e0, ⟨x1, _, e1, ⟨x2, x3, e2, e3, rfl⟩, rfl⟩, rfl⟩ := h
  simp only [List.append_assoc]
  refine rt_step opaque_rt e0 trivial ?_
  refine rt_step rU16_rt e1 trivial ?_
  refine rt_step rU16_rt e2 trivial ?_
  refine rt_step exts_rt e3 trivial ?_
  rfl

theorem reInit_canon : Canon ReInit.enc ReInit.dec Any := by
  intro s a rest h _
  simp only [ReInit.dec, P.bind_ok_iff, P.pure_ok_iff] at h
  obtain ⟨a0, s0, h0, a1, s1, h1, a2, s2, h2, a3, s3, h3, rfl, rfl⟩ := h
  obtain ⟨x0, e0, rfl⟩ := opaque_canon _ _ _ h0 trivial
  obtain ⟨x1, e1, rfl⟩ := rU16_canon _ _ _ h1 trivial
  obtain ⟨x2, e2, rfl⟩ := rU16_canon _ _ _ h2 trivial
  obtain ⟨x3, e3, rfl⟩ := exts_canon _ _ _ h3 trivial
  refine ⟨x0 ++ x1 ++ x2 ++ x3, ?_, by simp only [List.append_assoc]⟩
  simp only [ReInit.enc, e0, e1, e2, e3, Enc.ok_append_ok]

theorem reInit_safe : Safe ReInit.dec := by
  unfold ReInit.dec
  refine opaque_safe.bind fun _ => ?_
  refine rU16_safe.bind fun _ => ?_
  refine rU16_safe.bind fun _ => ?_
  refine exts_safe.bind fun _ => ?_
  exact Safe.pure _

theorem reInit_consumes : Consumes ReInit.dec := by
  unfold ReInit.dec
  refine opaque_consumes.bind fun _ => ?_
  refine rU16_consumes.shrinks.bind fun _ => ?_
  refine rU16_consumes.shrinks.bind fun _ => ?_
  refine exts_consumes.shrinks.bind fun _ => ?_
  exact Shrinks.pure _
theorem encryptedGroupSecrets_rt : RT EncryptedGroupSecrets.enc EncryptedGroupSecrets.dec Any := by
  intro a bs rest h _
  simp only [EncryptedGroupSecrets.enc, Enc.append_assoc, Enc.append_ok_iff] at h
  obtain ⟨x0, x1, e0, e1, rfl⟩ := h
  simp only [List.append_assoc]
  refine rt_step opaque_rt e0 trivial ?_
  refine rt_step hpkeCiphertext_rt e1 trivial ?_
  rfl

theorem encryptedGroupSecrets_canon : Canon EncryptedGroupSecrets.enc EncryptedGroupSecrets.dec Any := by
  intro s a rest h _
  simp only [EncryptedGroupSecrets.dec, P.bind_ok_iff, P.pure_ok_iff] at h
  obtain ⟨a0, s0, h0, a1, s1, h1, rfl, rfl⟩ := h
  obtain ⟨x0, e0, rfl⟩ := opaque_canon _ _ _ h0 trivial
  obtain ⟨x1, e1, rfl⟩ := hpkeCiphertext_canon _ _ _ h1 trivial
  refine ⟨x0 ++ x1, ?_, by simp only [List.append_assoc]⟩
  simp only [EncryptedGroupSecrets.enc, e0, e1, Enc.ok_append_ok]

theorem encryptedGroupSecrets_safe : Safe EncryptedGroupSecrets.dec := by
  unfold EncryptedGroupSecrets.dec
  refine opaque_safe.bind fun _ => ?_
  refine hpkeCiphertext_safe.bind fun _ => ?_
  exact Safe.pure _

theorem encryptedGroupSecrets_consumes : Consumes EncryptedGroupSecrets.dec := by
  unfold EncryptedGroupSecrets.dec
  refine opaque_consumes.bind fun _ => ?_
  refine hpkeCiphertext_consumes.shrinks.bind fun _ => ?_
  exact Shrinks.pure _
theorem vecEgs_rt : RT (writeVector EncryptedGroupSecrets.enc) (readVector EncryptedGroupSecrets.dec) Any := vector_rt_any encryptedGroupSecrets_rt encryptedGroupSecrets_consumes
theorem vecEgs_canon : Canon (writeVector EncryptedGroupSecrets.enc) (readVector EncryptedGroupSecrets.dec) Any := vector_canon_any encryptedGroupSecrets_canon
theorem vecEgs_safe : Safe (readVector EncryptedGroupSecrets.dec) := vector_safe encryptedGroupSecrets_safe encryptedGroupSecrets_consumes
theorem vecEgs_consumes : Consumes (readVector EncryptedGroupSecrets.dec) := vector_consumes

theorem welcome_rt : RT Welcome.enc Welcome.dec Any := by
  intro a bs rest h _
  simp only [Welcome.enc, Enc.append_assoc, Enc.append_ok_iff] at h
  obtain ⟨x0, _, e0, ⟨x1, x2, e1, e2, rfl⟩, rfl⟩ := h
  simp only [List.append_assoc]
  refine rt_step rU16_rt e0 trivial ?_
  refine rt_step vecEgs_rt e1 trivial ?_
  refine rt_step opaque_rt e2 trivial ?_
  rfl

theorem welcome_canon : Canon Welcome.enc Welcome.dec Any := by
  intro s a rest h _
  simp only [Welcome.dec, P.bind_ok_iff, P.pure_ok_iff] at h
  obtain ⟨a0, s0, h0, a1, s1, h1, a2, s2, h2, rfl, rfl⟩ := h
  obtain ⟨x0, e0, rfl⟩ := rU16_canon _ _ _ h0 trivial
  obtain ⟨x1, e1, rfl⟩ := vecEgs_canon _ _ _ h1 trivial
  obtain ⟨x2, e2, rfl⟩ := opaque_canon _ _ _ h2 trivial
  refine ⟨x0 ++ x1 ++ x2, ?_, by simp only [List.append_assoc]⟩
  simp only [Welcome.enc, e0, e1, e2, Enc.ok_append_ok]

theorem welcome_safe : Safe Welcome.dec := by
  unfold Welcome.dec
  refine rU16_safe.bind fun _ => ?_
  refine vecEgs_safe.bind fun _ => ?_
  refine opaque_safe.bind fun _ => ?_
  exact Safe.pure _

theorem welcome_consumes : Consumes Welcome.dec := by
  unfold Welcome.dec
  refine rU16_consumes.bind fun _ => ?_
  refine vecEgs_consumes.shrinks.bind fun _ => ?_
  refine opaque_consumes.shrinks.bind fun _ => ?_
  exact Shrinks.pure _

end Mls
