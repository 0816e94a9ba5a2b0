import Verif.Model.Codec
/-
Laws of the parser and builder combinators, and the codec laws
(round trip, canonicity, safety, consumption) used by all codec proofs.
-/
namespace Mls

namespace P
variable {α β : Type}

theorem pure_run (a : α) (s : Bytes) : (Pure.pure a : P α).run s = (.ok a, s) := rfl

theorem bind_run (p : P α) (f : α → P β) (s : Bytes) : (p >>= f).run s =
    match p.run s with
    | (.ok a, s') => (f a).run s'
    | (.err, s') => (.err, s')
    | (.panic, s') => (.panic, s')
    | (.hang, s') => (.hang, s') := rfl

theorem attempt_run (p : P α) (s : Bytes) : (P.attempt p).run s =
    match p.run s with
    | (.ok a, s') => (.ok (some a), s')
    | (.err, s') => (.ok none, s')
    | (.panic, s') => (.panic, s')
    | (.hang, s') => (.hang, s') := rfl

theorem bind_eq {p : P α} {f : α → P β} {s s' : Bytes} {a : α} (h : p.run s = (.ok a, s')) :
    (p >>= f).run s = (f a).run s' := by
  rw [bind_run, h]

theorem bind_ok_iff {p : P α} {f : α → P β} {s s'' : Bytes} {b : β} :
    (p >>= f).run s = (.ok b, s'') ↔
      ∃ a s', p.run s = (.ok a, s') ∧ (f a).run s' = (.ok b, s'') := by
  rw [bind_run]
  rcases p.run s with ⟨r, s'⟩
  cases r <;> simp
  constructor
  · intro h; exact ⟨_, _, ⟨rfl, rfl⟩, h⟩
  · rintro ⟨_, _, ⟨rfl, rfl⟩, h⟩; exact h

theorem pure_ok_iff {a b : α} {s s' : Bytes} :
    (Pure.pure a : P α).run s = (.ok b, s') ↔ a = b ∧ s = s' := by
  rw [pure_run]; simp

theorem ite_run {c : Prop} [Decidable c] (p q : P α) (s : Bytes) :
    (if c then p else q).run s = if c then p.run s else q.run s := by split <;> rfl

theorem fail_ok_iff {b : α} {s s' : Bytes} : (P.fail : P α).run s = (.ok b, s') ↔ False := by
  simp [P.fail]

theorem panic_ok_iff {b : α} {s s' : Bytes} : (P.panic : P α).run s = (.ok b, s') ↔ False := by
  simp [P.panic]

theorem attempt_ok {p : P α} {s s' : Bytes} {a : α} (h : p.run s = (.ok a, s')) :
    (P.attempt p).run s = (.ok (some a), s') := by rw [attempt_run, h]

theorem attempt_ok_iff {p : P α} {s s' : Bytes} {o : Option α} :
    (P.attempt p).run s = (.ok o, s') ↔
      (∃ a, o = some a ∧ p.run s = (.ok a, s')) ∨ (o = none ∧ p.run s = (.err, s')) := by
  rw [attempt_run]
  rcases p.run s with ⟨r, s1⟩
  cases r <;> cases o <;> simp

end P

namespace Enc

theorem append_def (a b : Enc) : a ++ b = Enc.append a b := rfl

theorem append_ok_iff {a b : Enc} {bs : Bytes} :
    a ++ b = .ok bs ↔ ∃ x y, a = .ok x ∧ b = .ok y ∧ bs = x ++ y := by
  rw [append_def]
  cases a <;> cases b <;> simp [Enc.append, eq_comm]

theorem append_ok {a b : Enc} {x y : Bytes} (ha : a = .ok x) (hb : b = .ok y) :
    a ++ b = .ok (x ++ y) := append_ok_iff.2 ⟨x, y, ha, hb, rfl⟩

@[simp] theorem ok_append_ok (x y : Bytes) : ((.ok x : Enc) ++ (.ok y : Enc)) = .ok (x ++ y) := rfl

theorem append_assoc (a b c : Enc) : a ++ b ++ c = a ++ (b ++ c) := by
  simp only [append_def]
  cases a <;> cases b <;> cases c <;> simp [Enc.append]

end Enc

/-- What `enc` writes, `dec` reads back, leaving what follows. -/
def RT {α : Type} (enc : α → Enc) (dec : P α) (wf : α → Prop) : Prop :=
  ∀ a bs rest, enc a = .ok bs → wf a → dec.run (bs ++ rest) = (.ok a, rest)

/-- What `dec` accepts is what `enc` writes. -/
def Canon {α : Type} (enc : α → Enc) (dec : P α) (good : α → Prop) : Prop :=
  ∀ s a rest, dec.run s = (.ok a, rest) → good a → ∃ bs, enc a = .ok bs ∧ s = bs ++ rest

/-- No panic, no endless loop. -/
def Safe {α : Type} (dec : P α) : Prop := ∀ s, (dec.run s).1 ≠ .panic ∧ (dec.run s).1 ≠ .hang

/-- On success the remaining input is not longer. -/
def Shrinks {α : Type} (dec : P α) : Prop :=
  ∀ s a rest, dec.run s = (.ok a, rest) → rest.length ≤ s.length

/-- On success at least one byte was read. -/
def Consumes {α : Type} (dec : P α) : Prop :=
  ∀ s a rest, dec.run s = (.ok a, rest) → rest.length < s.length

/-- No condition. -/
abbrev Any {α : Type} : α → Prop := fun _ => True

section
variable {α β : Type}

theorem Safe.pure (a : α) : Safe (Pure.pure a : P α) := by
  intro s; rw [P.pure_run]; simp

theorem Safe.fail : Safe (P.fail : P α) := by
  intro s; simp [P.fail]

theorem Safe.bind_mem {p : P α} {f : α → P β} (hp : Safe p)
    (hf : ∀ s a s', p.run s = (.ok a, s') →
      (((f a).run s').1 ≠ .panic ∧ ((f a).run s').1 ≠ .hang)) :
    Safe (p >>= f) := by
  intro s
  have h := hp s
  rw [P.bind_run]
  rcases hps : p.run s with ⟨r, s'⟩
  rw [hps] at h
  cases r with
  | ok a => exact hf _ _ _ hps
  | err => simp
  | panic => simp at h
  | hang => simp at h

theorem Safe.bind {p : P α} {f : α → P β} (hp : Safe p) (hf : ∀ a, Safe (f a)) :
    Safe (p >>= f) := Safe.bind_mem hp fun _ a s' _ => hf a s'

theorem Safe.ite {c : Prop} [Decidable c] {p q : P α} (hp : Safe p) (hq : Safe q) :
    Safe (if c then p else q) := by split <;> assumption

theorem Safe.attempt {p : P α} (hp : Safe p) : Safe (P.attempt p) := by
  intro s
  have h := hp s
  rw [P.attempt_run]
  rcases hps : p.run s with ⟨r, s'⟩
  rw [hps] at h
  cases r <;> simp_all

theorem Shrinks.pure (a : α) : Shrinks (Pure.pure a : P α) := by
  intro s b rest h
  rw [P.pure_ok_iff] at h
  rw [h.2]; exact Nat.le_refl _

theorem Shrinks.fail : Shrinks (P.fail : P α) := by
  intro s b rest h
  rw [P.fail_ok_iff] at h; exact h.elim

theorem Shrinks.panic : Shrinks (P.panic : P α) := by
  intro s b rest h
  rw [P.panic_ok_iff] at h; exact h.elim

theorem Shrinks.bind {p : P α} {f : α → P β} (hp : Shrinks p) (hf : ∀ a, Shrinks (f a)) :
    Shrinks (p >>= f) := by
  intro s b rest h
  rw [P.bind_ok_iff] at h
  obtain ⟨a, s', h1, h2⟩ := h
  exact Nat.le_trans (hf _ _ _ _ h2) (hp _ _ _ h1)

theorem Shrinks.ite {c : Prop} [Decidable c] {p q : P α} (hp : Shrinks p) (hq : Shrinks q) :
    Shrinks (if c then p else q) := by split <;> assumption

theorem Consumes.shrinks {p : P α} (hp : Consumes p) : Shrinks p :=
  fun s a rest h => Nat.le_of_lt (hp s a rest h)

theorem Consumes.bind {p : P α} {f : α → P β} (hp : Consumes p) (hf : ∀ a, Shrinks (f a)) :
    Consumes (p >>= f) := by
  intro s b rest h
  rw [P.bind_ok_iff] at h
  obtain ⟨a, s', h1, h2⟩ := h
  exact Nat.lt_of_le_of_lt (hf _ _ _ _ h2) (hp _ _ _ h1)

/-- A decoder with a canonical encoder shrinks its input. -/
theorem Canon.shrinks {enc : α → Enc} {dec : P α} (h : Canon enc dec Any) : Shrinks dec := by
  intro s a rest hd
  obtain ⟨bs, _, rfl⟩ := h s a rest hd trivial
  simp

theorem RT.nonempty {enc : α → Enc} {dec : P α} {wf : α → Prop} (hrt : RT enc dec wf)
    (hc : Consumes dec) {a : α} {bs : Bytes} (he : enc a = .ok bs) (hw : wf a) : bs ≠ [] := by
  rintro rfl
  have h := hrt a [] [] he hw
  have := hc _ _ _ h
  simp at this

end

/-! ### Integers -/

theorem beBytes_length (k n : Nat) : (beBytes k n).length = k := by
  induction k with
  | zero => rfl
  | succ k ih => simp [beBytes, ih]

theorem beVal_append (l : Bytes) (b : Bytes) :
    beVal (l ++ b) = beVal l * 256 ^ b.length + beVal b := by
  unfold beVal
  rw [List.foldl_append]
  generalize List.foldl (fun acc (b : UInt8) => acc * 256 + b.toNat) 0 l = v
  have key : ∀ (b : Bytes) (v : Nat),
      List.foldl (fun acc (b : UInt8) => acc * 256 + b.toNat) v b =
      v * 256 ^ b.length + List.foldl (fun acc (b : UInt8) => acc * 256 + b.toNat) 0 b := by
    intro b
    induction b with
    | nil => intro v; simp
    | cons x xs ih =>
      intro v
      simp only [List.foldl_cons, List.length_cons]
      rw [ih (v * 256 + x.toNat), ih (0 * 256 + x.toNat), Nat.pow_succ]
      simp only [Nat.add_mul, Nat.zero_mul, Nat.zero_add]
      rw [Nat.mul_assoc v, Nat.mul_comm 256, Nat.add_assoc]
  exact key b v

theorem beVal_cons (x : UInt8) (b : Bytes) :
    beVal (x :: b) = x.toNat * 256 ^ b.length + beVal b := by
  have := beVal_append [x] b
  simpa [beVal] using this

theorem beVal_lt (b : Bytes) : beVal b < 256 ^ b.length := by
  induction b with
  | nil => simp [beVal]
  | cons x xs ih =>
    rw [beVal_cons, List.length_cons, Nat.pow_succ]
    have hx : x.toNat < 256 := x.toNat_lt
    have : x.toNat * 256 ^ xs.length ≤ 255 * 256 ^ xs.length := Nat.mul_le_mul_right _ (by omega)
    omega

theorem beVal_beBytes (k n : Nat) : beVal (beBytes k n) = n % 256 ^ k := by
  induction k with
  | zero => simp [beBytes, beVal, Nat.mod_one]
  | succ k ih =>
    rw [beBytes, beVal_cons, beBytes_length, ih]
    simp only [UInt8.toNat_ofNat']
    simp only [Nat.reducePow]
    rw [Nat.pow_succ, Nat.mod_mul (x := n), Nat.mul_comm, Nat.add_comm]

theorem beBytes_beVal (b : Bytes) : beBytes b.length (beVal b) = b := by
  have key : ∀ (b : Bytes) (m : Nat), beBytes b.length (m * 256 ^ b.length + beVal b) = b := by
    intro b
    induction b with
    | nil => intro m; rfl
    | cons x xs ih =>
      intro m
      rw [List.length_cons, beBytes, beVal_cons]
      have h1 : m * 256 ^ (xs.length + 1) + (x.toNat * 256 ^ xs.length + beVal xs) =
          (m * 256 + x.toNat) * 256 ^ xs.length + beVal xs := by
        rw [Nat.pow_succ, Nat.add_mul, ← Nat.add_assoc, Nat.mul_assoc m, Nat.mul_comm 256]
      rw [h1, ih]
      congr 1
      have hlt := beVal_lt xs
      have hpos : 0 < 256 ^ xs.length := Nat.pow_pos (by decide)
      rw [Nat.add_comm, Nat.add_mul_div_right _ _ hpos, Nat.div_eq_of_lt hlt, Nat.zero_add]
      apply UInt8.toNat_inj.1
      simp only [UInt8.toNat_ofNat']
      have hx : x.toNat < 256 := x.toNat_lt
      simp only [Nat.reducePow]
      omega
  simpa using key b 0

theorem readN_run (n : Nat) (s : Bytes) : (readN n).run s =
    if s.length < n then (.err, s) else (.ok (s.take n), s.drop n) := rfl

theorem readN_append (bs rest : Bytes) {n : Nat} (h : bs.length = n) :
    (readN n).run (bs ++ rest) = (.ok bs, rest) := by
  subst h
  simp [readN_run]

theorem readN_ok_iff {n : Nat} {s bs rest : Bytes} :
    (readN n).run s = (.ok bs, rest) ↔ bs.length = n ∧ s = bs ++ rest := by
  constructor
  · intro h
    rw [readN_run] at h
    split at h
    · simp at h
    · rename_i hlen
      simp only [Prod.mk.injEq, Res.ok.injEq] at h
      obtain ⟨rfl, rfl⟩ := h
      constructor
      · simp; omega
      · simp
  · rintro ⟨h, rfl⟩
    exact readN_append _ _ h

theorem readN_safe (n : Nat) : Safe (readN n) := by
  intro s; rw [readN_run]; split <;> simp

theorem readN_shrinks (n : Nat) : Shrinks (readN n) := by
  intro s a rest h
  rw [readN_ok_iff] at h
  obtain ⟨_, rfl⟩ := h
  simp

theorem addU8_rt : RT addU8 readU8 Any := by
  intro a bs rest h _
  cases h
  unfold readU8
  rw [P.bind_eq (readN_append _ _ (beBytes_length _ _)), P.pure_run, beVal_beBytes]
  congr 2
  apply UInt8.toNat_inj.1
  simp

theorem addU16_rt : RT addU16 readU16 Any := by
  intro a bs rest h _
  cases h
  unfold readU16
  rw [P.bind_eq (readN_append _ _ (beBytes_length _ _)), P.pure_run, beVal_beBytes]
  congr 2
  apply UInt16.toNat_inj.1
  simp

theorem addU32_rt : RT addU32 readU32 Any := by
  intro a bs rest h _
  cases h
  unfold readU32
  rw [P.bind_eq (readN_append _ _ (beBytes_length _ _)), P.pure_run, beVal_beBytes]
  congr 2
  apply UInt32.toNat_inj.1
  simp

theorem addU64_rt : RT addU64 readU64 Any := by
  intro a bs rest h _
  cases h
  unfold readU64
  rw [P.bind_eq (readN_append _ _ (beBytes_length _ _)), P.pure_run, beVal_beBytes]
  congr 2
  apply UInt64.toNat_inj.1
  simp

theorem readU8_ok_iff {s : Bytes} {v : UInt8} {rest : Bytes} :
    readU8.run s = (.ok v, rest) ↔ s = v :: rest := by
  unfold readU8
  simp only [P.bind_ok_iff, readN_ok_iff, P.pure_ok_iff]
  constructor
  · rintro ⟨b, s', ⟨hl, rfl⟩, rfl, rfl⟩
    match b, hl with
    | [x], _ => simp [beVal]
  · rintro rfl
    refine ⟨[v], rest, ⟨rfl, rfl⟩, ?_, rfl⟩
    simp [beVal]

theorem readU8_canon : Canon addU8 readU8 Any := by
  intro s a rest h _
  rw [readU8_ok_iff] at h
  refine ⟨_, rfl, ?_⟩
  subst h
  simp [beBytes]

theorem readU16_canon : Canon addU16 readU16 Any := by
  intro s a rest h _
  unfold readU16 at h
  simp only [P.bind_ok_iff, readN_ok_iff, P.pure_ok_iff] at h
  obtain ⟨b, s', ⟨hl, rfl⟩, rfl, rfl⟩ := h
  refine ⟨_, rfl, ?_⟩
  have hlt := beVal_lt b
  rw [hl] at hlt
  simp only [UInt16.toNat_ofNat']
  rw [Nat.mod_eq_of_lt (by simpa using hlt)]
  have := beBytes_beVal b
  rw [hl] at this
  rw [this]

theorem readU32_canon : Canon addU32 readU32 Any := by
  intro s a rest h _
  unfold readU32 at h
  simp only [P.bind_ok_iff, readN_ok_iff, P.pure_ok_iff] at h
  obtain ⟨b, s', ⟨hl, rfl⟩, rfl, rfl⟩ := h
  refine ⟨_, rfl, ?_⟩
  have hlt := beVal_lt b
  rw [hl] at hlt
  simp only [UInt32.toNat_ofNat']
  rw [Nat.mod_eq_of_lt (by simpa using hlt)]
  have := beBytes_beVal b
  rw [hl] at this
  rw [this]

theorem readU64_canon : Canon addU64 readU64 Any := by
  intro s a rest h _
  unfold readU64 at h
  simp only [P.bind_ok_iff, readN_ok_iff, P.pure_ok_iff] at h
  obtain ⟨b, s', ⟨hl, rfl⟩, rfl, rfl⟩ := h
  refine ⟨_, rfl, ?_⟩
  have hlt := beVal_lt b
  rw [hl] at hlt
  simp only [UInt64.toNat_ofNat']
  rw [Nat.mod_eq_of_lt (by simpa using hlt)]
  have := beBytes_beVal b
  rw [hl] at this
  rw [this]

theorem readU8_safe : Safe readU8 := (readN_safe 1).bind fun _ => Safe.pure _
theorem readU16_safe : Safe readU16 := (readN_safe 2).bind fun _ => Safe.pure _
theorem readU32_safe : Safe readU32 := (readN_safe 4).bind fun _ => Safe.pure _
theorem readU64_safe : Safe readU64 := (readN_safe 8).bind fun _ => Safe.pure _

theorem readN_consumes {n : Nat} (hn : 0 < n) : Consumes (readN n) := by
  intro s a rest h
  rw [readN_ok_iff] at h
  obtain ⟨h1, rfl⟩ := h
  simp; omega

theorem readU8_consumes : Consumes readU8 := (readN_consumes (by decide)).bind fun _ => Shrinks.pure _
theorem readU16_consumes : Consumes readU16 := (readN_consumes (by decide)).bind fun _ => Shrinks.pure _
theorem readU32_consumes : Consumes readU32 := (readN_consumes (by decide)).bind fun _ => Shrinks.pure _
theorem readU64_consumes : Consumes readU64 := (readN_consumes (by decide)).bind fun _ => Shrinks.pure _

end Mls
