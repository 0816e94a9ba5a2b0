import Verif.Proofs.Codec2
import Verif.Spec.Codec
/-
Codec laws of key packages, proposals, commits, framing and messages.
-/
set_option linter.unusedSimpArgs false

namespace Mls

/-! ### Key packages -/

theorem keyPackage_rt : RT KeyPackage.enc KeyPackage.dec KeyPackage.WF := by
  intro a bs rest h hw
  simp only [KeyPackage.enc, KeyPackage.encTBS, Enc.append_assoc, Enc.append_ok_iff] at h
  obtain ⟨x0, _, e0, ⟨x1, _, e1, ⟨x2, _, e2, ⟨x3, _, e3, ⟨x4, x5, e4, e5, rfl⟩, rfl⟩, rfl⟩, rfl⟩, rfl⟩ := h
  simp only [List.append_assoc]
  refine rt_step rU16_rt e0 trivial ?_
  refine rt_step rU16_rt e1 trivial ?_
  refine rt_step opaque_rt e2 trivial ?_
  rw [if_neg (by rw [show a.version = 1 from hw]; decide)]
  refine rt_step leafNode_rt e3 trivial ?_
  refine rt_step exts_rt e4 trivial ?_
  rw [P.bind_eq (P.attempt_ok (opaque_rt _ _ _ e5 trivial))]
  rfl

/-- What the key package decoder accepts: the encoding, or the signed part followed
by bytes which are not an opaque vector; then the signature is empty. -/
theorem keyPackage_dec_cases {s rest : Bytes} {k : KeyPackage}
    (h : KeyPackage.dec.run s = (.ok k, rest)) :
    k.version = 1 ∧
    ((∃ bs, k.enc = .ok bs ∧ s = bs ++ rest) ∨
     (k.signature = [] ∧ ∃ tbs junk, k.encTBS = .ok tbs ∧ s = tbs ++ junk ∧
        readOpaqueVec.run junk = (.err, rest))) := by
  unfold KeyPackage.dec at h
  simp only [P.bind_ok_iff] at h
  obtain ⟨a0, s0, h0, a1, s1, h1, a2, s2, h2, h⟩ := h
  obtain ⟨x0, e0, rfl⟩ := rU16_canon _ _ _ h0 trivial
  obtain ⟨x1, e1, rfl⟩ := rU16_canon _ _ _ h1 trivial
  obtain ⟨x2, e2, rfl⟩ := opaque_canon _ _ _ h2 trivial
  rw [P.ite_run] at h
  split at h
  · rw [P.fail_ok_iff] at h; exact h.elim
  · rename_i hv
    have hv : a0 = 1 := by simpa using hv
    simp only [P.bind_ok_iff, P.pure_ok_iff] at h
    obtain ⟨a3, s3, h3, a4, s4, h4, o, s5, h5, rfl, rfl⟩ := h
    obtain ⟨x3, e3, rfl⟩ := leafNode_canon _ _ _ h3 trivial
    obtain ⟨x4, e4, rfl⟩ := exts_canon _ _ _ h4 trivial
    refine ⟨hv, ?_⟩
    rw [P.attempt_ok_iff] at h5
    rcases h5 with ⟨sig, rfl, h5⟩ | ⟨rfl, h5⟩
    · left
      obtain ⟨x5, e5, rfl⟩ := opaque_canon _ _ _ h5 trivial
      refine ⟨x0 ++ x1 ++ x2 ++ x3 ++ x4 ++ x5, ?_, by simp only [List.append_assoc]⟩
      simp only [KeyPackage.enc, KeyPackage.encTBS, Option.getD_some, e0, e1, e2, e3, e4, e5, Enc.ok_append_ok]
    · right
      refine ⟨rfl, x0 ++ x1 ++ x2 ++ x3 ++ x4, s4, ?_, by simp only [List.append_assoc], h5⟩
      simp only [KeyPackage.encTBS, e0, e1, e2, e3, e4, Enc.ok_append_ok]

theorem keyPackage_dec_wf {s rest : Bytes} {k : KeyPackage}
    (h : KeyPackage.dec.run s = (.ok k, rest)) : k.WF := (keyPackage_dec_cases h).1

theorem keyPackage_canon : Canon KeyPackage.enc KeyPackage.dec KeyPackage.Signed := by
  intro s k rest h hg
  rcases (keyPackage_dec_cases h).2 with h | ⟨h, _⟩
  · exact h
  · exact absurd h hg

theorem keyPackage_safe : Safe KeyPackage.dec := by
  unfold KeyPackage.dec
  refine rU16_safe.bind fun v => rU16_safe.bind fun _ => opaque_safe.bind fun _ => Safe.ite Safe.fail ?_
  refine leafNode_safe.bind fun _ => exts_safe.bind fun _ => ?_
  exact (opaque_safe.attempt).bind fun _ => Safe.pure _

theorem readN_err_eq {n : Nat} {s s' : Bytes} (h : (readN n).run s = (.err, s')) : s' = s := by
  rw [readN_run] at h
  split at h
  · cases h; rfl
  · cases h

/-- A decoder that never grows the input, even when it fails. -/
def Mono {α : Type} (dec : P α) : Prop := ∀ s, ((dec.run s).2).length ≤ s.length

theorem Mono.bind {α β : Type} {p : P α} {f : α → P β} (hp : Mono p) (hf : ∀ a, Mono (f a)) :
    Mono (p >>= f) := by
  intro s
  rw [P.bind_run]
  have := hp s
  rcases hps : p.run s with ⟨r, s'⟩
  rw [hps] at this
  cases r with
  | ok a => exact Nat.le_trans (hf a s') this
  | err => exact this
  | panic => exact this
  | hang => exact this

theorem Mono.pure {α : Type} (a : α) : Mono (Pure.pure a : P α) := fun _ => Nat.le_refl _
theorem Mono.fail {α : Type} : Mono (P.fail : P α) := fun _ => Nat.le_refl _
theorem Mono.ite {α : Type} {c : Prop} [Decidable c] {p q : P α} (hp : Mono p) (hq : Mono q) :
    Mono (if c then p else q) := by split <;> assumption
theorem readN_mono (n : Nat) : Mono (readN n) := by
  intro s; rw [readN_run]; split <;> simp
theorem readU8_mono : Mono readU8 := (readN_mono _).bind fun _ => Mono.pure _
theorem readU32_mono : Mono readU32 := (readN_mono _).bind fun _ => Mono.pure _
theorem readVarintLoop_mono (k : Nat) (v : UInt32) : Mono (readVarintLoop k v) := by
  induction k generalizing v with
  | zero => exact Mono.pure _
  | succ k ih => exact readU8_mono.bind fun _ => ih _
theorem readVarint_mono : Mono readVarint := by
  unfold readVarint
  refine readU8_mono.bind fun b => Mono.ite Mono.fail ((readVarintLoop_mono _ _).bind fun v => ?_)
  exact Mono.ite Mono.fail (Mono.pure _)
theorem opaque_mono : Mono readOpaqueVec := readVarint_mono.bind fun _ => readN_mono _

theorem attempt_shrinks {α : Type} {p : P α} (h : Mono p) : Shrinks (P.attempt p) := by
  intro s a rest hr
  rw [P.attempt_run] at hr
  have := h s
  rcases hps : p.run s with ⟨r, s'⟩
  rw [hps] at this hr
  cases r <;> simp_all

theorem keyPackage_consumes : Consumes KeyPackage.dec := by
  unfold KeyPackage.dec
  refine rU16_consumes.bind fun v => rU16_consumes.shrinks.bind fun _ => opaque_shrinks.bind fun _ =>
    Shrinks.ite Shrinks.fail ?_
  refine leafNode_consumes.shrinks.bind fun _ => exts_consumes.shrinks.bind fun _ => ?_
  exact (attempt_shrinks opaque_mono).bind fun _ => Shrinks.pure _

/-! ### PSK ids -/

theorem pskUsage_rt : RT PskUsage.enc PskUsage.dec Any := by
  intro a bs rest h _
  cases a <;> exact rt_step rU8_rt h trivial rfl

theorem pskUsage_canon : Canon PskUsage.enc PskUsage.dec Any := by
  intro s a rest h _
  unfold PskUsage.dec at h
  rw [P.bind_ok_iff] at h
  simp only [readU8_ok_iff, P.ite_run] at h
  obtain ⟨t, s1, rfl, h⟩ := h
  split at h
  · rename_i ht
    rw [beq_iff_eq] at ht; subst ht
    rw [P.pure_ok_iff] at h
    obtain ⟨rfl, rfl⟩ := h
    exact ⟨[1], rfl, rfl⟩
  · split at h
    · rename_i ht
      rw [beq_iff_eq] at ht; subst ht
      rw [P.pure_ok_iff] at h
      obtain ⟨rfl, rfl⟩ := h
      exact ⟨[2], rfl, rfl⟩
    · split at h
      · rename_i ht
        rw [beq_iff_eq] at ht; subst ht
        rw [P.pure_ok_iff] at h
        obtain ⟨rfl, rfl⟩ := h
        exact ⟨[3], rfl, rfl⟩
      · rw [P.fail_ok_iff] at h; exact h.elim

theorem pskUsage_safe : Safe PskUsage.dec :=
  readU8_safe.bind fun _ => Safe.ite (Safe.pure _) (Safe.ite (Safe.pure _) (Safe.ite (Safe.pure _) Safe.fail))

theorem pskUsage_consumes : Consumes PskUsage.dec :=
  readU8_consumes.bind fun _ => Shrinks.ite (Shrinks.pure _) (Shrinks.ite (Shrinks.pure _)
    (Shrinks.ite (Shrinks.pure _) Shrinks.fail))

theorem pskID_rt : RT PreSharedKeyID.enc PreSharedKeyID.dec Any := by
  intro a bs rest h _
  obtain ⟨kind, nonce⟩ := a
  cases kind with
  | external pid =>
    simp only [PreSharedKeyID.enc, Enc.append_assoc, Enc.append_ok_iff, addU8_eq, Res.ok.injEq] at h
    obtain ⟨x0, _, rfl, ⟨x1, x2, e1, e2, rfl⟩, rfl⟩ := h
    simp only [List.append_assoc, List.cons_append, List.nil_append]
    refine tag8_step rfl ?_
    show ((do let pskID ← readOpaqueVec; return PskKind.external pskID : P PskKind) >>= _).run _ = _
    rw [P.bind_assoc]
    refine rt_step opaque_rt e1 trivial ?_
    show (do let nonce ← readOpaqueVec; return { kind := .external pid, nonce } : P PreSharedKeyID).run _ = _
    exact rt_step opaque_rt e2 trivial rfl
  | resumption u g e =>
    simp only [PreSharedKeyID.enc, Enc.append_assoc, Enc.append_ok_iff, Res.ok.injEq] at h
    obtain ⟨x0, _, e0, ⟨x1, _, e1, ⟨x2, _, e2, ⟨x3, x4, e3, e4, rfl⟩, rfl⟩, rfl⟩, rfl⟩ := h
    rw [addU8_eq] at e0
    cases e0
    simp only [List.append_assoc, List.cons_append, List.nil_append]
    refine tag8_step rfl ?_
    show ((do let usage ← PskUsage.dec; let groupID ← readOpaqueVec; let epoch ← readU64; return PskKind.resumption usage groupID epoch : P PskKind) >>= _).run _ = _
    simp only [P.bind_assoc]
    refine rt_step pskUsage_rt e1 trivial ?_
    refine rt_step opaque_rt e2 trivial ?_
    refine rt_step rU64_rt e3 trivial ?_
    show (do let nonce ← readOpaqueVec; return { kind := .resumption u g e, nonce } : P PreSharedKeyID).run _ = _
    exact rt_step opaque_rt e4 trivial rfl

theorem pskID_canon : Canon PreSharedKeyID.enc PreSharedKeyID.dec Any := by
  intro s a rest h _
  unfold PreSharedKeyID.dec at h
  rw [P.bind_ok_iff] at h
  simp only [pskTypeTag, tag8_ok] at h
  obtain ⟨t, s1, ⟨rfl, hc⟩, h⟩ := h
  simp only [Bool.or_eq_true, beq_iff_eq] at hc
  rw [P.bind_ok_iff] at h
  obtain ⟨kind, s2, hk, h⟩ := h
  simp only [P.bind_ok_iff, P.pure_ok_iff] at h
  obtain ⟨nonce, s3, h3, rfl, rfl⟩ := h
  rcases hc with rfl | rfl
  · change (do let pskID ← readOpaqueVec; return PskKind.external pskID : P PskKind).run s1 = _ at hk
    simp only [P.bind_ok_iff, P.pure_ok_iff] at hk
    obtain ⟨a1, s2, h1, rfl, rfl⟩ := hk
    obtain ⟨x1, e1, rfl⟩ := opaque_canon _ _ _ h1 trivial
    obtain ⟨x2, e2, rfl⟩ := opaque_canon _ _ _ h3 trivial
    refine ⟨[1] ++ x1 ++ x2, ?_, by simp⟩
    simp only [PreSharedKeyID.enc, addU8_eq, e1, e2, Enc.ok_append_ok]
  · change (do let usage ← PskUsage.dec; let groupID ← readOpaqueVec; let epoch ← readU64; return PskKind.resumption usage groupID epoch : P PskKind).run s1 = _ at hk
    simp only [P.bind_ok_iff, P.pure_ok_iff] at hk
    obtain ⟨a1, s4, h1, a2, s5, h2, a4, s6, h4, rfl, rfl⟩ := hk
    obtain ⟨x1, e1, rfl⟩ := pskUsage_canon _ _ _ h1 trivial
    obtain ⟨x2, e2, rfl⟩ := opaque_canon _ _ _ h2 trivial
    obtain ⟨x3, e3, rfl⟩ := rU64_canon _ _ _ h4 trivial
    obtain ⟨x4, e4, rfl⟩ := opaque_canon _ _ _ h3 trivial
    refine ⟨[2] ++ x1 ++ x2 ++ x3 ++ x4, ?_, by simp⟩
    simp only [PreSharedKeyID.enc, addU8_eq, e1, e2, e3, e4, Enc.ok_append_ok]

theorem pskID_safe : Safe PreSharedKeyID.dec := by
  unfold PreSharedKeyID.dec
  refine Safe.bind_mem tag8_safe fun s t s' ht => ?_
  simp only [pskTypeTag, tag8_ok] at ht
  simp only [Bool.or_eq_true, beq_iff_eq] at ht
  have tail : ∀ kind : PskKind, Safe (do let nonce ← readOpaqueVec; return { kind, nonce } : P PreSharedKeyID) :=
    fun _ => opaque_safe.bind fun _ => Safe.pure _
  rcases ht with ⟨_, rfl | rfl⟩
  · exact (Safe.bind (p := (do let pskID ← readOpaqueVec; return PskKind.external pskID : P PskKind))
      (opaque_safe.bind fun _ => Safe.pure _) tail) s'
  · exact (Safe.bind (p := (do let usage ← PskUsage.dec; let groupID ← readOpaqueVec; let epoch ← readU64; return PskKind.resumption usage groupID epoch : P PskKind))
      (pskUsage_safe.bind fun _ => opaque_safe.bind fun _ => rU64_safe.bind fun _ => Safe.pure _) tail) s'

theorem pskID_consumes : Consumes PreSharedKeyID.dec := by
  unfold PreSharedKeyID.dec
  refine tag8_consumes.bind fun t => Shrinks.bind (Shrinks.ite ?_ (Shrinks.ite ?_ Shrinks.panic)) fun kind => ?_
  · exact opaque_shrinks.bind fun _ => Shrinks.pure _
  · exact pskUsage_consumes.shrinks.bind fun _ => opaque_shrinks.bind fun _ =>
      rU64_consumes.shrinks.bind fun _ => Shrinks.pure _
  · exact opaque_shrinks.bind fun _ => Shrinks.pure _

theorem vecPskID_rt : RT (writeVector PreSharedKeyID.enc) (readVector PreSharedKeyID.dec) Any := vector_rt_any pskID_rt pskID_consumes
theorem vecPskID_canon : Canon (writeVector PreSharedKeyID.enc) (readVector PreSharedKeyID.dec) Any := vector_canon_any pskID_canon
theorem vecPskID_safe : Safe (readVector PreSharedKeyID.dec) := vector_safe pskID_safe pskID_consumes
theorem vecPskID_consumes : Consumes (readVector PreSharedKeyID.dec) := vector_consumes

/-! ### Proposals -/

theorem proposal_rt : RT Proposal.enc Proposal.dec Proposal.WF := by
  intro a bs rest h hw
  cases a with
  | add v =>
    simp only [Proposal.enc, Enc.append_ok_iff] at h
    obtain ⟨x, y, e1, e2, rfl⟩ := h
    rw [List.append_assoc]
    exact tag16_step e1 rfl (rt_step keyPackage_rt e2 hw rfl)
  | update v =>
    simp only [Proposal.enc, Enc.append_ok_iff] at h
    obtain ⟨x, y, e1, e2, rfl⟩ := h
    rw [List.append_assoc]
    exact tag16_step e1 rfl (rt_step leafNode_rt e2 trivial rfl)
  | remove v =>
    simp only [Proposal.enc, Enc.append_ok_iff] at h
    obtain ⟨x, y, e1, e2, rfl⟩ := h
    rw [List.append_assoc]
    exact tag16_step e1 rfl (rt_step rU32_rt e2 trivial rfl)
  | psk v =>
    simp only [Proposal.enc, Enc.append_ok_iff] at h
    obtain ⟨x, y, e1, e2, rfl⟩ := h
    rw [List.append_assoc]
    exact tag16_step e1 rfl (rt_step pskID_rt e2 trivial rfl)
  | reInit v =>
    simp only [Proposal.enc, Enc.append_ok_iff] at h
    obtain ⟨x, y, e1, e2, rfl⟩ := h
    rw [List.append_assoc]
    exact tag16_step e1 rfl (rt_step reInit_rt e2 trivial rfl)
  | externalInit v =>
    simp only [Proposal.enc, Enc.append_ok_iff] at h
    obtain ⟨x, y, e1, e2, rfl⟩ := h
    rw [List.append_assoc]
    exact tag16_step e1 rfl (rt_step opaque_rt e2 trivial rfl)
  | groupContextExtensions v =>
    simp only [Proposal.enc, Enc.append_ok_iff] at h
    obtain ⟨x, y, e1, e2, rfl⟩ := h
    rw [List.append_assoc]
    exact tag16_step e1 rfl (rt_step exts_rt e2 trivial rfl)

theorem proposal_canon : Canon Proposal.enc Proposal.dec Proposal.Signed := by
  intro s a rest h hg
  unfold Proposal.dec at h
  rw [P.bind_ok_iff] at h
  simp only [proposalTypeTag, tag16_ok] at h
  obtain ⟨t, s1, ⟨h0, hc⟩, h⟩ := h
  obtain ⟨x0, e0, rfl⟩ := rU16_canon _ _ _ h0 trivial
  simp only [Bool.or_eq_true, beq_iff_eq] at hc
  rcases hc with (((((rfl | rfl) | rfl) | rfl) | rfl) | rfl) | rfl
  · change (do let v ← KeyPackage.dec; return Proposal.add v : P Proposal).run s1 = _ at h
    simp only [P.bind_ok_iff, P.pure_ok_iff] at h
    obtain ⟨a1, s2, h1, rfl, rfl⟩ := h
    obtain ⟨x1, e1, rfl⟩ := keyPackage_canon _ _ _ h1 hg
    exact ⟨x0 ++ x1, Enc.append_ok e0 e1, by simp only [List.append_assoc]⟩
  · change (do let v ← LeafNode.dec; return Proposal.update v : P Proposal).run s1 = _ at h
    simp only [P.bind_ok_iff, P.pure_ok_iff] at h
    obtain ⟨a1, s2, h1, rfl, rfl⟩ := h
    obtain ⟨x1, e1, rfl⟩ := leafNode_canon _ _ _ h1 trivial
    exact ⟨x0 ++ x1, Enc.append_ok e0 e1, by simp only [List.append_assoc]⟩
  · change (do let v ← readU32; return Proposal.remove v : P Proposal).run s1 = _ at h
    simp only [P.bind_ok_iff, P.pure_ok_iff] at h
    obtain ⟨a1, s2, h1, rfl, rfl⟩ := h
    obtain ⟨x1, e1, rfl⟩ := rU32_canon _ _ _ h1 trivial
    exact ⟨x0 ++ x1, Enc.append_ok e0 e1, by simp only [List.append_assoc]⟩
  · change (do let v ← PreSharedKeyID.dec; return Proposal.psk v : P Proposal).run s1 = _ at h
    simp only [P.bind_ok_iff, P.pure_ok_iff] at h
    obtain ⟨a1, s2, h1, rfl, rfl⟩ := h
    obtain ⟨x1, e1, rfl⟩ := pskID_canon _ _ _ h1 trivial
    exact ⟨x0 ++ x1, Enc.append_ok e0 e1, by simp only [List.append_assoc]⟩
  · change (do let v ← ReInit.dec; return Proposal.reInit v : P Proposal).run s1 = _ at h
    simp only [P.bind_ok_iff, P.pure_ok_iff] at h
    obtain ⟨a1, s2, h1, rfl, rfl⟩ := h
    obtain ⟨x1, e1, rfl⟩ := reInit_canon _ _ _ h1 trivial
    exact ⟨x0 ++ x1, Enc.append_ok e0 e1, by simp only [List.append_assoc]⟩
  · change (do let v ← readOpaqueVec; return Proposal.externalInit v : P Proposal).run s1 = _ at h
    simp only [P.bind_ok_iff, P.pure_ok_iff] at h
    obtain ⟨a1, s2, h1, rfl, rfl⟩ := h
    obtain ⟨x1, e1, rfl⟩ := opaque_canon _ _ _ h1 trivial
    exact ⟨x0 ++ x1, Enc.append_ok e0 e1, by simp only [List.append_assoc]⟩
  · change (do let v ← decExtensions; return Proposal.groupContextExtensions v : P Proposal).run s1 = _ at h
    simp only [P.bind_ok_iff, P.pure_ok_iff] at h
    obtain ⟨a1, s2, h1, rfl, rfl⟩ := h
    obtain ⟨x1, e1, rfl⟩ := exts_canon _ _ _ h1 trivial
    exact ⟨x0 ++ x1, Enc.append_ok e0 e1, by simp only [List.append_assoc]⟩

theorem proposal_safe : Safe Proposal.dec := by
  unfold Proposal.dec
  refine Safe.bind_mem tag16_safe fun s t s' ht => ?_
  simp only [proposalTypeTag, tag16_ok] at ht
  simp only [Bool.or_eq_true, beq_iff_eq] at ht
  rcases ht with ⟨_, (((((rfl | rfl) | rfl) | rfl) | rfl) | rfl) | rfl⟩
  · exact (keyPackage_safe.bind fun _ => Safe.pure _) s'
  · exact (leafNode_safe.bind fun _ => Safe.pure _) s'
  · exact (rU32_safe.bind fun _ => Safe.pure _) s'
  · exact (pskID_safe.bind fun _ => Safe.pure _) s'
  · exact (reInit_safe.bind fun _ => Safe.pure _) s'
  · exact (opaque_safe.bind fun _ => Safe.pure _) s'
  · exact (exts_safe.bind fun _ => Safe.pure _) s'

theorem proposal_consumes : Consumes Proposal.dec := by
  unfold Proposal.dec
  refine tag16_consumes.bind fun t => ?_
  refine Shrinks.ite (keyPackage_consumes.shrinks.bind fun _ => Shrinks.pure _) ?_
  refine Shrinks.ite (leafNode_consumes.shrinks.bind fun _ => Shrinks.pure _) ?_
  refine Shrinks.ite (rU32_consumes.shrinks.bind fun _ => Shrinks.pure _) ?_
  refine Shrinks.ite (pskID_consumes.shrinks.bind fun _ => Shrinks.pure _) ?_
  refine Shrinks.ite (reInit_consumes.shrinks.bind fun _ => Shrinks.pure _) ?_
  refine Shrinks.ite (opaque_consumes.shrinks.bind fun _ => Shrinks.pure _) ?_
  refine Shrinks.ite (exts_consumes.shrinks.bind fun _ => Shrinks.pure _) ?_
  exact Shrinks.panic

theorem proposal_dec_wf {s rest : Bytes} {a : Proposal}
    (h : Proposal.dec.run s = (.ok a, rest)) : a.WF := by
  unfold Proposal.dec at h
  rw [P.bind_ok_iff] at h
  simp only [proposalTypeTag, tag16_ok] at h
  obtain ⟨t, s1, ⟨h0, hc⟩, h⟩ := h
  simp only [Bool.or_eq_true, beq_iff_eq] at hc
  rcases hc with (((((rfl | rfl) | rfl) | rfl) | rfl) | rfl) | rfl
  · change (do let v ← KeyPackage.dec; return Proposal.add v : P Proposal).run s1 = _ at h
    simp only [P.bind_ok_iff, P.pure_ok_iff] at h
    obtain ⟨a1, s2, h1, rfl, rfl⟩ := h
    exact keyPackage_dec_wf h1
  · change (do let v ← LeafNode.dec; return Proposal.update v : P Proposal).run s1 = _ at h
    simp only [P.bind_ok_iff, P.pure_ok_iff] at h
    obtain ⟨a1, s2, h1, rfl, rfl⟩ := h
    exact trivial
  · change (do let v ← readU32; return Proposal.remove v : P Proposal).run s1 = _ at h
    simp only [P.bind_ok_iff, P.pure_ok_iff] at h
    obtain ⟨a1, s2, h1, rfl, rfl⟩ := h
    exact trivial
  · change (do let v ← PreSharedKeyID.dec; return Proposal.psk v : P Proposal).run s1 = _ at h
    simp only [P.bind_ok_iff, P.pure_ok_iff] at h
    obtain ⟨a1, s2, h1, rfl, rfl⟩ := h
    exact trivial
  · change (do let v ← ReInit.dec; return Proposal.reInit v : P Proposal).run s1 = _ at h
    simp only [P.bind_ok_iff, P.pure_ok_iff] at h
    obtain ⟨a1, s2, h1, rfl, rfl⟩ := h
    exact trivial
  · change (do let v ← readOpaqueVec; return Proposal.externalInit v : P Proposal).run s1 = _ at h
    simp only [P.bind_ok_iff, P.pure_ok_iff] at h
    obtain ⟨a1, s2, h1, rfl, rfl⟩ := h
    exact trivial
  · change (do let v ← decExtensions; return Proposal.groupContextExtensions v : P Proposal).run s1 = _ at h
    simp only [P.bind_ok_iff, P.pure_ok_iff] at h
    obtain ⟨a1, s2, h1, rfl, rfl⟩ := h
    exact trivial

theorem por_rt : RT ProposalOrRef.enc ProposalOrRef.dec ProposalOrRef.WF := by
  intro a bs rest h hw
  cases a with
  | proposal v =>
    simp only [ProposalOrRef.enc, Enc.append_ok_iff, addU8_eq, Res.ok.injEq] at h
    obtain ⟨x, y, rfl, e2, rfl⟩ := h
    exact tag8_step rfl (rt_step proposal_rt e2 hw rfl)
  | reference v =>
    simp only [ProposalOrRef.enc, Enc.append_ok_iff, addU8_eq, Res.ok.injEq] at h
    obtain ⟨x, y, rfl, e2, rfl⟩ := h
    exact tag8_step rfl (rt_step opaque_rt e2 trivial rfl)

theorem por_canon : Canon ProposalOrRef.enc ProposalOrRef.dec ProposalOrRef.Signed := by
  intro s a rest h hg
  unfold ProposalOrRef.dec at h
  rw [P.bind_ok_iff] at h
  simp only [proposalOrRefTag, tag8_ok] at h
  obtain ⟨t, s1, ⟨rfl, hc⟩, h⟩ := h
  simp only [Bool.or_eq_true, beq_iff_eq] at hc
  rcases hc with rfl | rfl
  · change (do let v ← Proposal.dec; return ProposalOrRef.proposal v : P ProposalOrRef).run s1 = _ at h
    simp only [P.bind_ok_iff, P.pure_ok_iff] at h
    obtain ⟨a1, s2, h1, rfl, rfl⟩ := h
    obtain ⟨x1, e1, rfl⟩ := proposal_canon _ _ _ h1 hg
    exact ⟨[1] ++ x1, Enc.append_ok (addU8_eq _) e1, rfl⟩
  · change (do let v ← readOpaqueVec; return ProposalOrRef.reference v : P ProposalOrRef).run s1 = _ at h
    simp only [P.bind_ok_iff, P.pure_ok_iff] at h
    obtain ⟨a1, s2, h1, rfl, rfl⟩ := h
    obtain ⟨x1, e1, rfl⟩ := opaque_canon _ _ _ h1 trivial
    exact ⟨[2] ++ x1, Enc.append_ok (addU8_eq _) e1, rfl⟩

theorem por_dec_wf {s rest : Bytes} {a : ProposalOrRef}
    (h : ProposalOrRef.dec.run s = (.ok a, rest)) : a.WF := by
  unfold ProposalOrRef.dec at h
  rw [P.bind_ok_iff] at h
  simp only [proposalOrRefTag, tag8_ok] at h
  obtain ⟨t, s1, ⟨rfl, hc⟩, h⟩ := h
  simp only [Bool.or_eq_true, beq_iff_eq] at hc
  rcases hc with rfl | rfl
  · change (do let v ← Proposal.dec; return ProposalOrRef.proposal v : P ProposalOrRef).run s1 = _ at h
    simp only [P.bind_ok_iff, P.pure_ok_iff] at h
    obtain ⟨a1, s2, h1, rfl, rfl⟩ := h
    exact proposal_dec_wf h1
  · change (do let v ← readOpaqueVec; return ProposalOrRef.reference v : P ProposalOrRef).run s1 = _ at h
    simp only [P.bind_ok_iff, P.pure_ok_iff] at h
    obtain ⟨a1, s2, h1, rfl, rfl⟩ := h
    exact trivial

theorem por_safe : Safe ProposalOrRef.dec := by
  unfold ProposalOrRef.dec
  refine Safe.bind_mem tag8_safe fun s t s' ht => ?_
  simp only [proposalOrRefTag, tag8_ok] at ht
  simp only [Bool.or_eq_true, beq_iff_eq] at ht
  rcases ht with ⟨_, rfl | rfl⟩
  · exact (proposal_safe.bind fun _ => Safe.pure _) s'
  · exact (opaque_safe.bind fun _ => Safe.pure _) s'

theorem por_consumes : Consumes ProposalOrRef.dec := by
  unfold ProposalOrRef.dec
  refine tag8_consumes.bind fun t => Shrinks.ite ?_ (Shrinks.ite ?_ Shrinks.panic)
  · exact proposal_consumes.shrinks.bind fun _ => Shrinks.pure _
  · exact opaque_shrinks.bind fun _ => Shrinks.pure _

/-- Elements of a decoded vector have what the element decoder guarantees. -/
theorem readVector_all {α : Type} {dec : P α} {q : α → Prop}
    (hq : ∀ s a rest, dec.run s = (.ok a, rest) → q a) {s rest : Bytes} {l : List α}
    (h : (readVector dec).run s = (.ok l, rest)) : ∀ a ∈ l, q a := by
  unfold readVector at h
  simp only [P.bind_ok_iff] at h
  obtain ⟨n, s', _, raw, s'', hN, h⟩ := h
  clear hN
  simp only [Prod.mk.injEq] at h
  obtain ⟨h, _⟩ := h
  revert h
  generalize raw.length = fuel
  induction fuel generalizing raw l with
  | zero =>
    intro h
    match raw, h with
    | [], h => unfold readVectorLoop at h; cases h; intro a ha; cases ha
    | _ :: _, h => unfold readVectorLoop at h; cases h
  | succ fuel ih =>
    intro h
    match raw, h with
    | [], h => unfold readVectorLoop at h; cases h; intro a ha; cases ha
    | b :: bs, h =>
      unfold readVectorLoop at h
      rcases hd : dec.run (b :: bs) with ⟨r, ss⟩
      rw [hd] at h
      cases r with
      | ok a =>
        simp only at h
        rcases hr : readVectorLoop dec fuel ss with as | _ | _ | _ <;> rw [hr] at h <;>
          simp [Res.bind] at h
        subst h
        intro c hc
        rcases List.mem_cons.1 hc with rfl | hc
        · exact hq _ _ _ hd
        · exact ih ss hr c hc
      | err => cases h
      | panic => cases h
      | hang => cases h

/-! ### Commits -/

theorem commit_rt : RT Commit.enc Commit.dec Commit.WF := by
  intro a bs rest h hw
  obtain ⟨props, path⟩ := a
  cases path with
  | none =>
    simp only [Commit.enc, Enc.append_ok_iff] at h
    obtain ⟨x, y, e1, e2, rfl⟩ := h
    rw [List.append_assoc]
    refine rt_step (vector_rt por_rt por_consumes) e1 hw ?_
    exact rt_step (a := false) optional_rt e2 trivial rfl
  | some p =>
    simp only [Commit.enc, Enc.append_ok_iff] at h
    obtain ⟨x, y, e1, ⟨z, w, e2, e3, rfl⟩, rfl⟩ := h
    simp only [List.append_assoc]
    refine rt_step (vector_rt por_rt por_consumes) e1 hw ?_
    refine rt_step optional_rt e2 trivial ?_
    exact rt_step updatePath_rt e3 trivial rfl

theorem commit_canon : Canon Commit.enc Commit.dec Commit.Signed := by
  intro s a rest h hg
  unfold Commit.dec at h
  simp only [P.bind_ok_iff] at h
  obtain ⟨props, s1, h0, b, s2, h1, h⟩ := h
  cases b with
  | false =>
    change (Pure.pure _ : P Commit).run s2 = _ at h
    rw [P.pure_ok_iff] at h
    obtain ⟨rfl, rfl⟩ := h
    obtain ⟨x0, e0, rfl⟩ := vector_canon por_canon _ _ _ h0 hg
    obtain ⟨x1, e1, rfl⟩ := optional_canon _ _ _ h1 trivial
    exact ⟨x0 ++ x1, Enc.append_ok e0 e1, by simp only [List.append_assoc]⟩
  | true =>
    change (do let path ← UpdatePath.dec; return { proposals := props, path := some path } : P Commit).run s2 = _ at h
    simp only [P.bind_ok_iff, P.pure_ok_iff] at h
    obtain ⟨p, s3, h2, rfl, rfl⟩ := h
    obtain ⟨x0, e0, rfl⟩ := vector_canon por_canon _ _ _ h0 hg
    obtain ⟨x1, e1, rfl⟩ := optional_canon _ _ _ h1 trivial
    obtain ⟨x2, e2, rfl⟩ := updatePath_canon _ _ _ h2 trivial
    exact ⟨x0 ++ (x1 ++ x2), Enc.append_ok e0 (Enc.append_ok e1 e2), by simp only [List.append_assoc]⟩

theorem commit_dec_wf {s rest : Bytes} {a : Commit}
    (h : Commit.dec.run s = (.ok a, rest)) : a.WF := by
  unfold Commit.dec at h
  simp only [P.bind_ok_iff] at h
  obtain ⟨props, s1, h0, b, s2, h1, h⟩ := h
  have hall := readVector_all (q := ProposalOrRef.WF) (fun _ _ _ h => por_dec_wf h) h0
  cases b with
  | false =>
    change (Pure.pure _ : P Commit).run s2 = _ at h
    rw [P.pure_ok_iff] at h
    obtain ⟨rfl, rfl⟩ := h
    exact hall
  | true =>
    change (do let path ← UpdatePath.dec; return { proposals := props, path := some path } : P Commit).run s2 = _ at h
    simp only [P.bind_ok_iff, P.pure_ok_iff] at h
    obtain ⟨p, s3, h2, rfl, rfl⟩ := h
    exact hall

theorem commit_safe : Safe Commit.dec := by
  unfold Commit.dec
  refine (vector_safe por_safe por_consumes).bind fun _ => optional_safe.bind fun b => Safe.ite ?_ (Safe.pure _)
  exact updatePath_safe.bind fun _ => Safe.pure _

theorem commit_consumes : Consumes Commit.dec := by
  unfold Commit.dec
  refine vector_consumes.bind fun _ => optional_consumes.shrinks.bind fun b => Shrinks.ite ?_ (Shrinks.pure _)
  exact updatePath_consumes.shrinks.bind fun _ => Shrinks.pure _

end Mls
