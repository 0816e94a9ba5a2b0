import Verif.Proofs.Parser
import Verif.Spec.Wire
/-
Laws of variable-length integers, opaque vectors, vectors and optionals.
-/
namespace Mls

theorem readVarintLoop_ok_iff (k : Nat) (v : UInt32) (s rest : Bytes) (w : UInt32)
    (hv : (v.toNat + 1) * 256 ^ k ≤ 2 ^ 32) :
    (readVarintLoop k v).run s = (.ok w, rest) ↔
      ∃ bs : Bytes, bs.length = k ∧ s = bs ++ rest ∧ w.toNat = v.toNat * 256 ^ k + beVal bs := by
  induction k generalizing v s with
  | zero =>
    rw [readVarintLoop, P.pure_ok_iff]
    constructor
    · rintro ⟨rfl, rfl⟩
      exact ⟨[], rfl, rfl, by simp [beVal]⟩
    · rintro ⟨bs, hl, rfl, hw⟩
      have : bs = [] := List.length_eq_zero_iff.1 hl
      subst this
      simp only [beVal, List.foldl_nil, Nat.pow_zero, Nat.mul_one, Nat.add_zero] at hw
      exact ⟨UInt32.toNat_inj.1 hw.symm, rfl⟩
  | succ k ih =>
    rw [readVarintLoop, P.bind_ok_iff]
    have hp : 0 < 256 ^ k := Nat.pow_pos (by decide)
    have hstep : ∀ b : UInt8, ((v <<< 8) + b.toUInt32).toNat = v.toNat * 256 + b.toNat := by
      intro b
      have hb : b.toNat < 256 := b.toNat_lt
      have h1 : (v.toNat + 1) * 256 ≤ 2 ^ 32 := by
        refine Nat.le_trans ?_ hv
        refine Nat.mul_le_mul_left _ ?_
        rw [Nat.pow_succ]
        exact Nat.le_mul_of_pos_left _ hp
      simp only [UInt32.toNat_add, UInt32.toNat_shiftLeft, UInt8.toNat_toUInt32,
        UInt32.reduceToNat, Nat.shiftLeft_eq, Nat.reduceMod, Nat.reducePow]
      omega
    have hbound : ∀ b : UInt8, (((v <<< 8) + b.toUInt32).toNat + 1) * 256 ^ k ≤ 2 ^ 32 := by
      intro b
      rw [hstep]
      have hb : b.toNat < 256 := b.toNat_lt
      refine Nat.le_trans (Nat.mul_le_mul_right _ (?_ : _ ≤ (v.toNat + 1) * 256)) ?_
      · omega
      · rw [Nat.mul_assoc, Nat.mul_comm 256, ← Nat.pow_succ]; exact hv
    constructor
    · rintro ⟨b, s', h1, h2⟩
      rw [readU8_ok_iff] at h1
      rw [ih _ _ (hbound b)] at h2
      obtain ⟨bs, hl, rfl, hw⟩ := h2
      refine ⟨b :: bs, by simp [hl], by simp [h1], ?_⟩
      rw [hw, hstep, beVal_cons, hl, Nat.pow_succ, Nat.add_mul, Nat.mul_assoc, Nat.mul_comm 256,
        Nat.add_assoc]
    · rintro ⟨bs, hl, rfl, hw⟩
      match bs, hl with
      | b :: bs, hl =>
        have hl' : bs.length = k := by simpa using hl
        refine ⟨b, bs ++ rest, readU8_ok_iff.2 rfl, ?_⟩
        rw [ih _ _ (hbound b)]
        refine ⟨bs, hl', rfl, ?_⟩
        rw [hw, hstep, beVal_cons, hl', Nat.pow_succ, Nat.add_mul, Nat.mul_assoc, Nat.mul_comm 256,
          Nat.add_assoc]

/-- What the decoder of lengths accepts, in arithmetic terms. -/
theorem readVarint_ok_iff (s rest : Bytes) (w : UInt32) :
    readVarint.run s = (.ok w, rest) ↔
      ∃ (b : UInt8) (bs : Bytes), s = b :: (bs ++ rest) ∧
        ((b.toNat < 64 ∧ bs.length = 0 ∧ w.toNat = b.toNat) ∨
         (64 ≤ b.toNat ∧ b.toNat < 128 ∧ bs.length = 1 ∧
            w.toNat = (b.toNat - 64) * 256 + beVal bs ∧ 64 ≤ w.toNat) ∨
         (128 ≤ b.toNat ∧ b.toNat < 192 ∧ bs.length = 3 ∧
            w.toNat = (b.toNat - 128) * 16777216 + beVal bs ∧ 16384 ≤ w.toNat)) := by
  unfold readVarint
  rw [P.bind_ok_iff]
  simp only [readU8_ok_iff]
  have hpre : ∀ b : UInt8, (b >>> 6).toNat = b.toNat / 64 := by
    intro b; simp [UInt8.toNat_shiftRight, Nat.shiftRight_eq_div_pow]
  have hlow : ∀ b : UInt8, (b &&& 0x3F).toUInt32.toNat = b.toNat % 64 := by
    intro b
    simp only [UInt8.toNat_toUInt32, UInt8.toNat_and, UInt8.reduceToNat]
    exact Nat.and_two_pow_sub_one_eq_mod b.toNat 6
  have main : ∀ (b : UInt8) (s' : Bytes),
      (if (b >>> 6 == 3) = true then (P.fail : P UInt32)
        else do
          let v ← readVarintLoop (1 <<< (b >>> 6).toNat - 1) (b &&& 63).toUInt32
          if (b >>> 6).toNat ≥ 1 ∧ v.toNat < 1 <<< (8 * (1 <<< (b >>> 6).toNat / 2) - 2) then P.fail
          else Pure.pure v).run s' = (.ok w, rest) ↔
      ∃ bs : Bytes, s' = bs ++ rest ∧
        ((b.toNat < 64 ∧ bs.length = 0 ∧ w.toNat = b.toNat) ∨
         (64 ≤ b.toNat ∧ b.toNat < 128 ∧ bs.length = 1 ∧
            w.toNat = (b.toNat - 64) * 256 + beVal bs ∧ 64 ≤ w.toNat) ∨
         (128 ≤ b.toNat ∧ b.toNat < 192 ∧ bs.length = 3 ∧
            w.toNat = (b.toNat - 128) * 16777216 + beVal bs ∧ 16384 ≤ w.toNat)) := by
    intro b s'
    have hb : b.toNat < 256 := b.toNat_lt
    have h3 : (b >>> 6 == 3) = true ↔ 192 ≤ b.toNat := by
      rw [beq_iff_eq, ← UInt8.toNat_inj, hpre]
      simp only [UInt8.reduceToNat]
      omega
    rw [P.ite_run]
    by_cases hc : 192 ≤ b.toNat
    · rw [if_pos (h3.2 hc), P.fail_ok_iff]
      constructor
      · exact False.elim
      · rintro ⟨bs, _, h | h | h⟩ <;> omega
    · rw [if_neg (by rw [h3]; exact hc), P.bind_ok_iff]
      have hcases : b.toNat / 64 = 0 ∨ b.toNat / 64 = 1 ∨ b.toNat / 64 = 2 := by omega
      have hl := hlow b
      simp only [hpre]
      rcases hcases with h0 | h0 | h0 <;> rw [h0]
      · simp only [Nat.shiftLeft_zero, Nat.sub_self, readVarintLoop, P.pure_ok_iff]
        constructor
        · rintro ⟨v, s1, ⟨rfl, rfl⟩, h⟩
          rw [if_neg (by omega), P.pure_ok_iff] at h
          obtain ⟨rfl, rfl⟩ := h
          exact ⟨[], rfl, Or.inl ⟨by omega, rfl, by rw [hl]; omega⟩⟩
        · rintro ⟨bs, rfl, h | h | h⟩
          · obtain ⟨_, h2, h3⟩ := h
            have : bs = [] := List.length_eq_zero_iff.1 h2
            subst this
            refine ⟨w, rest, ⟨UInt32.toNat_inj.1 ?_, rfl⟩, ?_⟩
            · rw [hl, h3]; omega
            · rw [if_neg (by omega)]; rfl
          · omega
          · omega
      · have hbd : ((b &&& 63).toUInt32.toNat + 1) * 256 ^ 1 ≤ 2 ^ 32 := by rw [hl]; omega
        show (∃ (a : UInt32) (s1 : Bytes), (readVarintLoop 1 _).run s' = (.ok a, s1) ∧ (if 1 ≥ 1 ∧ a.toNat < 64 then P.fail else Pure.pure a : P UInt32).run s1 = (.ok w, rest)) ↔ _
        simp only [readVarintLoop_ok_iff 1 _ _ _ _ hbd, hl, Nat.reducePow]
        clear hbd
        constructor
        · rintro ⟨v, s1, ⟨bs, hlen, rfl, hv⟩, h⟩
          rw [P.ite_run] at h
          split at h
          · rw [P.fail_ok_iff] at h; exact h.elim
          · rename_i hge
            rw [P.pure_ok_iff] at h
            obtain ⟨rfl, rfl⟩ := h
            refine ⟨bs, rfl, Or.inr (Or.inl ⟨by omega, by omega, hlen, ?_, by omega⟩)⟩
            have hm : b.toNat % 64 = b.toNat - 64 := by omega
            rw [hv, hm]
        · rintro ⟨bs, rfl, h | h | h⟩
          · omega
          · obtain ⟨h1, h2, hlen, hv, hge⟩ := h
            refine ⟨w, rest, ⟨bs, hlen, rfl, by rw [hv, show b.toNat % 64 = b.toNat - 64 from by omega]⟩, ?_⟩
            rw [if_neg (by omega)]; rfl
          · omega
      · have hbd : ((b &&& 63).toUInt32.toNat + 1) * 256 ^ 3 ≤ 2 ^ 32 := by rw [hl]; omega
        show (∃ (a : UInt32) (s1 : Bytes), (readVarintLoop 3 _).run s' = (.ok a, s1) ∧ (if 2 ≥ 1 ∧ a.toNat < 16384 then P.fail else Pure.pure a : P UInt32).run s1 = (.ok w, rest)) ↔ _
        simp only [readVarintLoop_ok_iff 3 _ _ _ _ hbd, hl, Nat.reducePow]
        clear hbd
        constructor
        · rintro ⟨v, s1, ⟨bs, hlen, rfl, hv⟩, h⟩
          rw [P.ite_run] at h
          split at h
          · rw [P.fail_ok_iff] at h; exact h.elim
          · rename_i hge
            rw [P.pure_ok_iff] at h
            obtain ⟨rfl, rfl⟩ := h
            refine ⟨bs, rfl, Or.inr (Or.inr ⟨by omega, by omega, hlen, ?_, by omega⟩)⟩
            have hm : b.toNat % 64 = b.toNat - 128 := by omega
            rw [hv, hm]
        · rintro ⟨bs, rfl, h | h | h⟩
          · omega
          · omega
          · obtain ⟨h1, h2, hlen, hv, hge⟩ := h
            refine ⟨w, rest, ⟨bs, hlen, rfl, by rw [hv, show b.toNat % 64 = b.toNat - 128 from by omega]⟩, ?_⟩
            rw [if_neg (by omega)]; rfl
  constructor
  · rintro ⟨b, s', rfl, h⟩
    obtain ⟨bs, rfl, h'⟩ := (main b s').1 h
    exact ⟨b, bs, rfl, h'⟩
  · rintro ⟨b, bs, rfl, h⟩
    exact ⟨b, bs ++ rest, rfl, (main b _).2 ⟨bs, rfl, h⟩⟩

/-- The encoder of lengths writes the RFC form. -/
theorem writeVarint_eq_spec (n : UInt32) :
    writeVarint n = match Spec.varint n.toNat with
      | some bs => .ok bs
      | none => .err := by
  unfold writeVarint Spec.varint
  have hn : n.toNat < 4294967296 := n.toNat_lt
  simp only [Nat.shiftLeft_eq, Nat.one_mul, Nat.reducePow]
  split
  · simp only [addU8, beBytes]
    simp only [UInt32.toNat_toUInt8, Nat.pow_zero, Nat.div_one, Nat.reducePow]
    rw [Nat.mod_eq_of_lt (by omega)]
  · split
    · have h : ((0x4000 : UInt16) ||| n.toUInt16).toNat = 16384 + n.toNat := by
        simp only [UInt16.toNat_or, UInt32.toNat_toUInt16, UInt16.reduceToNat, Nat.reducePow]
        rw [Nat.mod_eq_of_lt (by omega)]
        have := Nat.two_pow_add_eq_or_of_lt (i := 14) (b := n.toNat) (by omega) 1
        simpa using this.symm
      simp only [addU16, h, beBytes, Res.ok.injEq, Nat.pow_one, Nat.pow_zero, Nat.div_one]
      congr 1
      · congr 1; omega
      · congr 1
        apply UInt8.toNat_inj.1
        simp only [UInt8.toNat_ofNat', Nat.reducePow]
        omega
    · split
      · have h : ((0x80000000 : UInt32) ||| n).toNat = 2147483648 + n.toNat := by
          simp only [UInt32.toNat_or, UInt32.reduceToNat]
          have := Nat.two_pow_add_eq_or_of_lt (i := 31) (b := n.toNat) (by omega) 1
          simpa using this.symm
        simp only [addU32, h, beBytes, Res.ok.injEq, Nat.pow_one, Nat.pow_zero, Nat.div_one,
          Nat.reducePow]
        congr 1
        · congr 1; omega
        · congr 1
          · apply UInt8.toNat_inj.1
            simp only [UInt8.toNat_ofNat', Nat.reducePow]
            omega
          · congr 1
            · apply UInt8.toNat_inj.1
              simp only [UInt8.toNat_ofNat', Nat.reducePow]
              omega
            · congr 1
              apply UInt8.toNat_inj.1
              simp only [UInt8.toNat_ofNat', Nat.reducePow]
              omega
      · rfl

/-- The RFC form of a length is read back by the decoder. -/
theorem readVarint_spec (n : UInt32) (bs rest : Bytes) (h : Spec.varint n.toNat = some bs) :
    readVarint.run (bs ++ rest) = (.ok n, rest) := by
  rw [readVarint_ok_iff]
  unfold Spec.varint at h
  split at h
  · cases h
    refine ⟨_, [], rfl, Or.inl ?_⟩
    simp only [UInt8.toNat_ofNat', Nat.reducePow, List.length_nil, true_and]
    omega
  · split at h
    · cases h
      refine ⟨_, [_], rfl, Or.inr (Or.inl ?_)⟩
      simp only [UInt8.toNat_ofNat', Nat.reducePow, List.length_cons, List.length_nil, beVal,
        List.foldl_cons, List.foldl_nil, true_and]
      omega
    · split at h
      · cases h
        refine ⟨_, [_, _, _], rfl, Or.inr (Or.inr ?_)⟩
        simp only [UInt8.toNat_ofNat', Nat.reducePow, List.length_cons, List.length_nil, beVal,
          List.foldl_cons, List.foldl_nil, true_and]
        omega
      · simp at h

/-- What the decoder accepts is the RFC form of the value it returns. -/
theorem readVarint_canon_spec (s rest : Bytes) (n : UInt32) (h : readVarint.run s = (.ok n, rest)) :
    ∃ bs, Spec.varint n.toNat = some bs ∧ s = bs ++ rest := by
  rw [readVarint_ok_iff] at h
  obtain ⟨b, bs, rfl, h | h | h⟩ := h
  · obtain ⟨h1, h2, h3⟩ := h
    have : bs = [] := List.length_eq_zero_iff.1 h2
    subst this
    refine ⟨[b], ?_, rfl⟩
    unfold Spec.varint
    rw [if_pos (by omega), h3]
    simp
  · obtain ⟨h1, h2, h3, h4, h5⟩ := h
    match bs, h3 with
    | [x], _ =>
      have hx : x.toNat < 256 := x.toNat_lt
      simp only [beVal, List.foldl_cons, List.foldl_nil] at h4
      refine ⟨[b, x], ?_, rfl⟩
      unfold Spec.varint
      rw [if_neg (by omega), if_pos (by omega)]
      have e1 : 64 + n.toNat / 256 = b.toNat := by omega
      have e2 : n.toNat % 256 = x.toNat := by omega
      rw [e1, e2]; simp
  · obtain ⟨h1, h2, h3, h4, h5⟩ := h
    match bs, h3 with
    | [x, y, z], _ =>
      have hx : x.toNat < 256 := x.toNat_lt
      have hy : y.toNat < 256 := y.toNat_lt
      have hz : z.toNat < 256 := z.toNat_lt
      simp only [beVal, List.foldl_cons, List.foldl_nil] at h4
      refine ⟨[b, x, y, z], ?_, rfl⟩
      unfold Spec.varint
      rw [if_neg (by omega), if_neg (by omega), if_pos (by omega)]
      have e1 : 128 + n.toNat / 16777216 = b.toNat := by omega
      have e2 : n.toNat / 65536 % 256 = x.toNat := by omega
      have e3 : n.toNat / 256 % 256 = y.toNat := by omega
      have e4 : n.toNat % 256 = z.toNat := by omega
      rw [e1, e2, e3, e4]; simp

theorem writeVarint_ok_iff (n : UInt32) (bs : Bytes) :
    writeVarint n = .ok bs ↔ Spec.varint n.toNat = some bs := by
  rw [writeVarint_eq_spec]
  cases Spec.varint n.toNat <;> simp

theorem varint_rt : RT writeVarint readVarint Any := by
  intro n bs rest h _
  exact readVarint_spec n bs rest ((writeVarint_ok_iff n bs).1 h)

theorem varint_canon : Canon writeVarint readVarint Any := by
  intro s n rest h _
  obtain ⟨bs, h1, h2⟩ := readVarint_canon_spec s rest n h
  exact ⟨bs, (writeVarint_ok_iff n bs).2 h1, h2⟩

theorem readVarintLoop_safe (k : Nat) (v : UInt32) : Safe (readVarintLoop k v) := by
  induction k generalizing v with
  | zero => exact Safe.pure _
  | succ k ih => exact readU8_safe.bind fun _ => ih _

theorem readVarint_safe : Safe readVarint := by
  unfold readVarint
  refine readU8_safe.bind fun b => ?_
  refine Safe.ite Safe.fail ((readVarintLoop_safe _ _).bind fun v => ?_)
  exact Safe.ite Safe.fail (Safe.pure _)

theorem readVarint_consumes : Consumes readVarint := by
  intro s n rest h
  rw [readVarint_ok_iff] at h
  obtain ⟨b, bs, rfl, _⟩ := h
  simp; omega

theorem varint_some_of_lt {n : Nat} (h : n < 1073741824) : ∃ bs, Spec.varint n = some bs := by
  unfold Spec.varint
  split
  · exact ⟨_, rfl⟩
  · split
    · exact ⟨_, rfl⟩
    · exact ⟨_, rfl⟩

theorem varint_none_of_ge {n : Nat} (h : 1073741824 ≤ n) : Spec.varint n = none := by
  unfold Spec.varint
  rw [if_neg (by omega), if_neg (by omega), if_neg (by omega)]

/-! ### Opaque vectors -/

theorem writeOpaqueVec_eq_spec (b : Bytes) :
    writeOpaqueVec b = match Spec.opaqueVec b with
      | some bs => .ok bs
      | none => .err := by
  unfold writeOpaqueVec Spec.opaqueVec
  simp only [Nat.shiftLeft_eq, Nat.one_mul, Nat.reducePow]
  split
  · rw [varint_none_of_ge (by omega)]; rfl
  · rename_i h
    rw [writeVarint_eq_spec]
    simp only [UInt32.toNat_ofNat', Nat.reducePow]
    rw [Nat.mod_eq_of_lt (by omega)]
    cases Spec.varint b.length <;> rfl

theorem opaque_rt : RT writeOpaqueVec readOpaqueVec Any := by
  intro b bs rest h _
  unfold writeOpaqueVec at h
  split at h
  · simp at h
  · rename_i hlen
    rw [Enc.append_ok_iff] at h
    obtain ⟨x, y, h1, h2, rfl⟩ := h
    cases h2
    unfold readOpaqueVec
    rw [List.append_assoc, P.bind_eq (varint_rt _ _ _ h1 trivial)]
    apply readN_append
    simp only [UInt32.toNat_ofNat', Nat.reducePow]
    simp only [Nat.shiftLeft_eq, Nat.one_mul, Nat.reducePow] at hlen
    rw [Nat.mod_eq_of_lt (by omega)]

theorem opaque_canon : Canon writeOpaqueVec readOpaqueVec Any := by
  intro s b rest h _
  unfold readOpaqueVec at h
  rw [P.bind_ok_iff] at h
  obtain ⟨n, s', h1, h2⟩ := h
  obtain ⟨x, hx, rfl⟩ := varint_canon _ _ _ h1 trivial
  rw [readN_ok_iff] at h2
  obtain ⟨hl, rfl⟩ := h2
  refine ⟨x ++ b, ?_, by simp⟩
  unfold writeOpaqueVec
  have hn : n.toNat < 4294967296 := n.toNat_lt
  rw [if_neg (by simp [Nat.shiftLeft_eq]; omega)]
  have : UInt32.ofNat b.length = n := by
    rw [hl]; simp
  rw [this]
  exact Enc.append_ok hx rfl

theorem opaque_safe : Safe readOpaqueVec := readVarint_safe.bind fun _ => readN_safe _

theorem opaque_consumes : Consumes readOpaqueVec :=
  readVarint_consumes.bind fun _ => readN_shrinks _

theorem opaque_shrinks : Shrinks readOpaqueVec := opaque_consumes.shrinks

/-! ### Vectors -/

section
variable {α : Type}

theorem readVectorLoop_rt {enc : α → Enc} {dec : P α} {wf : α → Prop} (hrt : RT enc dec wf)
    (hc : Consumes dec) (l : List α) (hw : ∀ a ∈ l, wf a) (raw : Bytes)
    (h : Enc.concat (l.map enc) = .ok raw) (fuel : Nat) (hf : raw.length ≤ fuel) :
    readVectorLoop dec fuel raw = .ok l := by
  induction l generalizing raw fuel with
  | nil =>
    simp only [List.map_nil, Enc.concat, Enc.nil, Res.ok.injEq] at h
    subst h
    unfold readVectorLoop; rfl
  | cons a l ih =>
    simp only [List.map_cons, Enc.concat] at h
    rw [Enc.append_ok_iff] at h
    obtain ⟨x, y, h1, h2, rfl⟩ := h
    have hne := hrt.nonempty hc h1 (hw a (by simp))
    match x, hne with
    | b :: x, _ =>
      match fuel, hf with
      | fuel + 1, hf =>
        rw [List.cons_append, readVectorLoop, ← List.cons_append,
          hrt _ _ _ h1 (hw a (by simp))]
        simp only
        rw [ih (fun c hc' => hw c (by simp [hc'])) y h2 fuel (by simp at hf; omega)]
        rfl

theorem readVectorLoop_canon {enc : α → Enc} {dec : P α} {good : α → Prop}
    (hcan : Canon enc dec good) (fuel : Nat) (raw : Bytes) (l : List α)
    (h : readVectorLoop dec fuel raw = .ok l) (hg : ∀ a ∈ l, good a) :
    Enc.concat (l.map enc) = .ok raw := by
  induction fuel generalizing raw l with
  | zero =>
    match raw, h with
    | [], h =>
      unfold readVectorLoop at h
      cases h; rfl
    | _ :: _, h => unfold readVectorLoop at h; simp at h
  | succ fuel ih =>
    match raw, h with
    | [], h =>
      unfold readVectorLoop at h
      cases h; rfl
    | b :: bs, h =>
      unfold readVectorLoop at h
      rcases hd : dec.run (b :: bs) with ⟨r, ss⟩
      rw [hd] at h
      cases r with
      | ok a =>
        simp only at h
        rcases hr : readVectorLoop dec fuel ss with as | _ | _ | _ <;> rw [hr] at h <;>
          simp [Res.bind] at h
        subst h
        obtain ⟨x, hx, he⟩ := hcan _ _ _ hd (hg a (by simp))
        rw [he]
        simp only [List.map_cons, Enc.concat]
        exact Enc.append_ok hx (ih ss as hr (fun c hc => hg c (by simp [hc])))
      | err => simp at h
      | panic => simp at h
      | hang => simp at h

theorem readVectorLoop_safe {dec : P α} (hs : Safe dec) (hc : Consumes dec) (fuel : Nat)
    (raw : Bytes) (hf : raw.length ≤ fuel) :
    readVectorLoop dec fuel raw ≠ .panic ∧ readVectorLoop dec fuel raw ≠ .hang := by
  induction fuel generalizing raw with
  | zero =>
    match raw, hf with
    | [], _ => unfold readVectorLoop; simp
  | succ fuel ih =>
    match raw, hf with
    | [], _ => unfold readVectorLoop; simp
    | b :: bs, hf =>
      unfold readVectorLoop
      have h1 := hs (b :: bs)
      rcases hd : dec.run (b :: bs) with ⟨r, ss⟩
      rw [hd] at h1
      cases r with
      | ok a =>
        have h2 := hc _ _ _ hd
        simp only [List.length_cons] at h2 hf
        have h3 := ih ss (by omega)
        rcases hr : readVectorLoop dec fuel ss with as | _ | _ | _ <;> rw [hr] at h3 <;>
          simp_all [Res.bind]
      | err => simp
      | panic => simp at h1
      | hang => simp at h1

theorem vector_rt {enc : α → Enc} {dec : P α} {wf : α → Prop} (hrt : RT enc dec wf)
    (hc : Consumes dec) : RT (writeVector enc) (readVector dec) (fun l => ∀ a ∈ l, wf a) := by
  intro l bs rest h hw
  unfold writeVector at h
  rcases hcat : Enc.concat (l.map enc) with raw | _ | _ | _ <;> rw [hcat] at h
  · simp only at h
    unfold writeOpaqueVec at h
    split at h
    · simp at h
    · rename_i hlen
      rw [Enc.append_ok_iff] at h
      obtain ⟨x, y, h1, h2, rfl⟩ := h
      cases h2
      unfold readVector
      rw [List.append_assoc, P.bind_eq (varint_rt _ _ _ h1 trivial)]
      rw [P.bind_eq (readN_append raw rest ?_)]
      · show (readVectorLoop dec raw.length raw, rest) = _
        rw [readVectorLoop_rt hrt hc l hw raw hcat _ (Nat.le_refl _)]
      · simp only [UInt32.toNat_ofNat', Nat.reducePow]
        simp only [Nat.shiftLeft_eq, Nat.one_mul, Nat.reducePow] at hlen
        rw [Nat.mod_eq_of_lt (by omega)]
  · simp at h
  · simp at h
  · simp at h

theorem vector_canon {enc : α → Enc} {dec : P α} {good : α → Prop} (hcan : Canon enc dec good) :
    Canon (writeVector enc) (readVector dec) (fun l => ∀ a ∈ l, good a) := by
  intro s l rest h hg
  unfold readVector at h
  simp only [P.bind_ok_iff, readN_ok_iff] at h
  obtain ⟨n, s', h1, raw, s'', ⟨hl, rfl⟩, h2⟩ := h
  simp only [Prod.mk.injEq] at h2
  obtain ⟨h2, rfl⟩ := h2
  obtain ⟨x, hx, rfl⟩ := varint_canon _ _ _ h1 trivial
  have hcat := readVectorLoop_canon hcan _ _ _ h2 hg
  refine ⟨x ++ raw, ?_, by simp⟩
  unfold writeVector
  rw [hcat]
  show writeOpaqueVec raw = _
  unfold writeOpaqueVec
  have hn : n.toNat < 4294967296 := n.toNat_lt
  rw [if_neg (by simp [Nat.shiftLeft_eq]; omega)]
  have : UInt32.ofNat raw.length = n := by
    rw [hl]; simp
  rw [this]
  exact Enc.append_ok hx rfl

theorem vector_safe {dec : P α} (hs : Safe dec) (hc : Consumes dec) : Safe (readVector dec) := by
  unfold readVector
  refine readVarint_safe.bind fun n => (readN_safe _).bind fun raw => ?_
  intro s
  exact readVectorLoop_safe hs hc _ _ (Nat.le_refl _)

theorem vector_consumes {dec : P α} : Consumes (readVector dec) := by
  unfold readVector
  refine readVarint_consumes.bind fun n => (readN_shrinks _).bind fun raw => ?_
  intro s a rest h
  simp only [Prod.mk.injEq] at h
  rw [h.2]; exact Nat.le_refl _

theorem vector_shrinks {dec : P α} : Shrinks (readVector dec) := vector_consumes.shrinks

end

/-! ### Optionals -/

theorem optional_rt : RT writeOptional readOptional Any := by
  intro b bs rest h _
  unfold readOptional
  unfold writeOptional at h
  rw [P.bind_eq (addU8_rt _ _ rest h trivial)]
  cases b <;> rfl

theorem optional_canon : Canon writeOptional readOptional Any := by
  intro s b rest h _
  unfold readOptional at h
  simp only [P.bind_ok_iff, readU8_ok_iff, P.ite_run] at h
  obtain ⟨v, s', rfl, h⟩ := h
  split at h
  · rename_i hv
    rw [P.pure_ok_iff] at h
    obtain ⟨rfl, rfl⟩ := h
    rw [beq_iff_eq] at hv
    subst hv
    exact ⟨[0], rfl, rfl⟩
  · split at h
    · rename_i hv
      rw [P.pure_ok_iff] at h
      obtain ⟨rfl, rfl⟩ := h
      rw [beq_iff_eq] at hv
      subst hv
      exact ⟨[1], rfl, rfl⟩
    · rw [P.fail_ok_iff] at h; exact h.elim

theorem optional_safe : Safe readOptional :=
  readU8_safe.bind fun _ => Safe.ite (Safe.pure _) (Safe.ite (Safe.pure _) Safe.fail)

theorem optional_consumes : Consumes readOptional :=
  readU8_consumes.bind fun _ => Shrinks.ite (Shrinks.pure _) (Shrinks.ite (Shrinks.pure _) Shrinks.fail)

/-! ### Whole inputs -/

theorem unmarshal_rt {α : Type} {enc : α → Enc} {dec : P α} {wf : α → Prop} (h : RT enc dec wf)
    {a : α} {bs : Bytes} (he : enc a = .ok bs) (hw : wf a) : unmarshal dec bs = .ok a := by
  have := h a bs [] he hw
  rw [List.append_nil] at this
  unfold unmarshal
  rw [this]

theorem unmarshal_ok_iff {α : Type} {dec : P α} {raw : Bytes} {a : α} :
    unmarshal dec raw = .ok a ↔ dec.run raw = (.ok a, []) := by
  unfold unmarshal
  rcases dec.run raw with ⟨r, s⟩
  cases r <;> cases s <;> simp

theorem unmarshal_safe {α : Type} {dec : P α} (h : Safe dec) (raw : Bytes) :
    unmarshal dec raw ≠ .panic ∧ unmarshal dec raw ≠ .hang := by
  have := h raw
  unfold unmarshal
  rcases hd : dec.run raw with ⟨r, s⟩
  rw [hd] at this
  cases r <;> cases s <;> simp_all

end Mls
