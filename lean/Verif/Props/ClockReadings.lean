import Verif.Model.Clock
import Verif.Props.Clock
/-
C103: GroupFromWelcome when the clock runs during the call.
-/
namespace Mls

open Spec

variable {pr : Prims}

/-- time.Time{}, at which lifetimes are not looked at (tree.go:423). -/
def GoTime.zero : GoTime := ⟨0, 0⟩

theorem lifetimeOk_zero (n : LeafNode) : n.lifetimeOk .zero = true := by
  unfold LeafNode.lifetimeOk
  cases n.source <;> rfl

/-! ### One reading -/

theorem leavesLoopAt_one (ctx : GroupContext) (now : GoTime) (creds : List UInt16) (t : VTree) (k li : Nat) (S E : List Bytes) :
    verifyLeavesLoopAt pr ctx (fun _ => now) creds t k li S E = verifyLeavesLoop pr ctx now creds t k li S E := by
  induction k generalizing li S E with
  | zero => rfl
  | succ k ih =>
    rw [verifyLeavesLoopAt, verifyLeavesLoop]
    congr 1
    funext n
    cases n with
    | none => exact ih ..
    | some l => simp only [ih]

theorem integrityAt_one (t : VTree) (ctx : GroupContext) (now : GoTime) :
    verifyIntegrityAt pr t ctx (fun _ => now) = verifyIntegrity pr t ctx now := by
  unfold verifyIntegrityAt verifyIntegrity
  simp only [leavesLoopAt_one]

/-- **C103.** With a clock that stands still GroupFromWelcome is what the rest of the model says. -/
theorem C103_still (w : Welcome) (kp : KeyPairPackage) (now : GoTime) :
    groupFromWelcomeAt pr w kp (fun _ => now) = groupFromWelcome pr w kp now := by
  unfold groupFromWelcomeAt groupFromWelcome groupFromSecretsAt groupFromSecrets
  simp only [integrityAt_one]

/-! ### An error, or what happens without a clock -/

/-- The first result is an error, or it is the second. -/
def Res.OrErr {α : Type} (a b : Res α) : Prop := a = .err ∨ a = b

theorem Res.OrErr.rfl' {α : Type} (a : Res α) : Res.OrErr a a := .inr rfl

theorem Res.OrErr.bind {α β : Type} {a b : Res α} {f g : α → Res β} (h : Res.OrErr a b) (hf : ∀ x, Res.OrErr (f x) (g x)) :
    Res.OrErr (a >>= f) (b >>= g) := by
  rcases h with h | h
  · subst h
    exact .inl rfl
  · subst h
    cases a with
    | ok x => exact hf x
    | err => exact .inl rfl
    | panic => exact .inr rfl
    | hang => exact .inr rfl

theorem verify_orErr (n : LeafNode) (o : VerifyOptions) : Res.OrErr (n.verify pr o) (n.verify pr { o with now := .zero }) := by
  unfold LeafNode.verify
  refine (Res.OrErr.rfl' _).bind fun b => (Res.OrErr.rfl' _).bind fun _ => (Res.OrErr.rfl' _).bind fun _ => Res.OrErr.bind ?_ fun _ => Res.OrErr.rfl' _
  show Res.OrErr _ (Res.guardErr (n.lifetimeOk .zero))
  rw [lifetimeOk_zero]
  cases n.lifetimeOk o.now
  · exact .inl rfl
  · exact .inr rfl

theorem leavesLoopAt_orErr (ctx : GroupContext) (clock : Nat → GoTime) (creds : List UInt16) (t : VTree) (k li : Nat) (S E : List Bytes) :
    Res.OrErr (verifyLeavesLoopAt pr ctx clock creds t k li S E) (verifyLeavesLoop pr ctx .zero creds t k li S E) := by
  induction k generalizing li S E with
  | zero => exact Res.OrErr.rfl' _
  | succ k ih =>
    rw [verifyLeavesLoopAt, verifyLeavesLoop]
    refine (Res.OrErr.rfl' _).bind fun n => ?_
    cases n with
    | none => exact ih ..
    | some l => exact (verify_orErr l _).bind fun _ => ih ..

theorem integrityAt_orErr (t : VTree) (ctx : GroupContext) (clock : Nat → GoTime) :
    Res.OrErr (verifyIntegrityAt pr t ctx clock) (verifyIntegrity pr t ctx .zero) := by
  unfold verifyIntegrityAt verifyIntegrity
  exact (Res.OrErr.rfl' _).bind fun _ => (Res.OrErr.rfl' _).bind fun _ => (Res.OrErr.rfl' _).bind fun _ => (Res.OrErr.rfl' _).bind fun _ =>
    (Res.OrErr.rfl' _).bind fun _ => (leavesLoopAt_orErr ..).bind fun _ => Res.OrErr.rfl' _

/-- **C103.** Whatever the clock shows during the call, GroupFromWelcome returns an error, or does what it does without a clock: return the same
group, panic, or not return. So what holds for the outcome of `groupFromWelcome` at all times also holds when the clock runs. -/
theorem C103_outcome (w : Welcome) (kp : KeyPairPackage) (clock : Nat → GoTime) :
    groupFromWelcomeAt pr w kp clock = .err ∨ groupFromWelcomeAt pr w kp clock = groupFromWelcome pr w kp .zero := by
  unfold groupFromWelcomeAt groupFromWelcome
  refine (Res.OrErr.rfl' _).bind fun ref => (Res.OrErr.rfl' _).bind fun gs => (Res.OrErr.rfl' _).bind fun _ => (Res.OrErr.rfl' _).bind fun _ => ?_
  unfold groupFromSecretsAt groupFromSecrets
  exact (Res.OrErr.rfl' _).bind fun _ => (Res.OrErr.rfl' _).bind fun _ => (Res.OrErr.rfl' _).bind fun _ => (Res.OrErr.rfl' _).bind fun _ =>
    (Res.OrErr.rfl' _).bind fun _ => (Res.OrErr.rfl' _).bind fun _ => (Res.OrErr.rfl' _).bind fun _ => (Res.OrErr.rfl' _).bind fun _ =>
    (Res.OrErr.rfl' _).bind fun _ => (Res.OrErr.rfl' _).bind fun _ => (Res.OrErr.rfl' _).bind fun _ => (integrityAt_orErr ..).bind fun _ =>
    Res.OrErr.rfl' _

/-! ### When it is accepted -/

theorem leavesLoopAt_ok_iff (ctx : GroupContext) (clock : Nat → GoTime) (creds : List UInt16) (t : VTree) (k li : Nat) (S E E' : List Bytes) :
    verifyLeavesLoopAt pr ctx clock creds t k li S E = .ok E' ↔
      verifyLeavesLoop pr ctx .zero creds t k li S E = .ok E' ∧
      ∀ i l, li ≤ i → i < li + k → getLeaf t i = .ok (some l) → l.lifetimeOk (clock i) = true := by
  induction k generalizing li S E with
  | zero => exact ⟨fun h => ⟨h, fun i _ _ _ => by omega⟩, fun h => h.1⟩
  | succ k ih =>
    rw [verifyLeavesLoopAt, verifyLeavesLoop]
    simp only [Res.bind_ok_iff]
    have split : ∀ {P : Nat → LeafNode → Prop}, (∀ i l, li ≤ i → i < li + (k + 1) → getLeaf t i = .ok (some l) → P i l) ↔
        (∀ l, getLeaf t li = .ok (some l) → P li l) ∧ ∀ i l, li + 1 ≤ i → i < li + 1 + k → getLeaf t i = .ok (some l) → P i l := by
      intro P
      refine ⟨fun h => ⟨fun l hl => h li l (Nat.le_refl _) (by omega) hl, fun i l h1 h2 => h i l (by omega) (by omega)⟩, fun h i l h1 h2 hl => ?_⟩
      by_cases hi : i = li
      · subst hi
        exact h.1 l hl
      · exact h.2 i l (by omega) (by omega) hl
    rw [split]
    constructor
    · rintro ⟨n, hn, h⟩
      cases n with
      | none =>
        obtain ⟨h1, h2⟩ := (ih ..).1 h
        refine ⟨⟨none, hn, h1⟩, fun l hl => ?_, h2⟩
        rw [hn] at hl
        cases hl
      | some m =>
        simp only [Res.bind_ok_iff] at h
        obtain ⟨_, hm, h⟩ := h
        obtain ⟨h1, h2⟩ := (ih ..).1 h
        refine ⟨⟨some m, hn, ?_⟩, fun l hl => ?_, h2⟩
        · have := verify_clock hm .zero
          rw [lifetimeOk_zero] at this
          dsimp only at this ⊢
          rw [this]
          exact h1
        · rw [hn] at hl
          cases hl
          have := verify_clock hm (clock li)
          rw [show (⟨_, _, _, _, _, _, _⟩ : VerifyOptions) = ⟨_, _, _, _, _, _, _⟩ from rfl, hm] at this
          exact Res.guardErr_ok_iff.1 this.symm
    · rintro ⟨⟨n, hn, h⟩, hl, h2⟩
      refine ⟨n, hn, ?_⟩
      cases n with
      | none => exact (ih ..).2 ⟨h, h2⟩
      | some m =>
        simp only [Res.bind_ok_iff] at h ⊢
        obtain ⟨_, hm, h⟩ := h
        refine ⟨(), ?_, (ih ..).2 ⟨h, h2⟩⟩
        have := verify_clock hm (clock li)
        rw [hl m hn] at this
        exact this

theorem integrityAt_ok_iff (t : VTree) (ctx : GroupContext) (clock : Nat → GoTime) :
    verifyIntegrityAt pr t ctx clock = .ok () ↔ verifyIntegrity pr t ctx .zero = .ok () ∧
      ∀ i l, i < treeNumLeaves t → getLeaf t i = .ok (some l) → l.lifetimeOk (clock i) = true := by
  unfold verifyIntegrityAt verifyIntegrity
  simp only [Res.bind_ok_iff, leavesLoopAt_ok_iff]
  constructor
  · rintro ⟨th, h1, _, h2, ph, h3, _, h4, creds, h5, E, ⟨h6, h8⟩, h7⟩
    exact ⟨⟨th, h1, _, h2, ph, h3, _, h4, creds, h5, E, h6, h7⟩, fun i l hi => h8 i l (by omega) (by omega)⟩
  · rintro ⟨⟨th, h1, _, h2, ph, h3, _, h4, creds, h5, E, h6, h7⟩, h8⟩
    exact ⟨th, h1, _, h2, ph, h3, _, h4, creds, h5, E, ⟨h6, fun i l _ hi => h8 i l (by omega)⟩, h7⟩

/-- **C103.** GroupFromWelcome accepts a welcome exactly if it would without a clock, and the key package of each member is in date at the time when
it is its turn. -/
theorem C103_accepts (w : Welcome) (kp : KeyPairPackage) (clock : Nat → GoTime) (st : GroupState) :
    groupFromWelcomeAt pr w kp clock = .ok st ↔ groupFromWelcome pr w kp .zero = .ok st ∧
      ∀ i l, nodeAt st.vtree (2 * i) = some (.leaf l) → Spec.InDate (clock i) l := by
  have key : ∀ gs, groupFromSecretsAt pr w kp gs none [] clock = .ok st ↔ groupFromSecrets pr w kp gs none [] .zero = .ok st ∧
      ∀ i l, nodeAt st.vtree (2 * i) = some (.leaf l) → Spec.InDate (clock i) l := by
    intro gs
    have main : ∀ {info : UInt32} {raw : Bytes} {t : VTree} {o : Option LeafNode} {o' : LeafNode}, unmarshal decTree raw = .ok t →
        getLeaf t info.toNat = .ok o → orErr o = .ok o' → st.heap = (allocTree [] t).1 ∧ st.group.tree = (allocTree [] t).2 →
        ((∀ i l, i < treeNumLeaves t → getLeaf t i = .ok (some l) → l.lifetimeOk (clock i) = true) ↔
          ∀ i l, nodeAt st.vtree (2 * i) = some (.leaf l) → Spec.InDate (clock i) l) := by
      intro info raw t o o' hdec hget ho hst
      have hvt : st.vtree = t := by
        unfold GroupState.vtree
        rw [hst.1, hst.2]
        exact (deref_alloc t []).2
      rw [hvt]
      obtain ⟨k, hk, hlen⟩ := C26_decoded_length hdec
      cases k with
      | zero =>
        have : t = [] := List.eq_nil_of_length_eq_zero (by simpa using hlen)
        subst this
        simp [getLeaf, Res.idx] at hget
      | succ d =>
        have hd : d ≤ 31 := by omega
        have hp := Nat.pow_le_pow_right (n := 2) (by decide) hd
        rw [numLeaves_pow hd hlen]
        have hidx : ∀ i, i < 2 ^ d → nodeOfLeaf i = 2 * i := fun i hi => by
          unfold nodeOfLeaf
          omega
        refine ⟨fun h i l hl => ?_, fun h i l hi hl => ?_⟩
        · have hl' := nodeAt_some.1 hl
          have hlt := (List.getElem?_eq_some_iff.1 hl').1
          rw [hlen, Nat.pow_succ] at hlt
          have hi : i < 2 ^ d := by omega
          exact lifetimeOk_iff.1 (h i l hi (getLeaf_ok_some_iff.2 (by rw [hidx i hi]; exact hl')))
        · rw [getLeaf_ok_some_iff, hidx i hi] at hl
          exact lifetimeOk_iff.2 (h i l (nodeAt_some.2 hl))
    constructor
    · intro h
      unfold groupFromSecretsAt at h
      simp only [Res.bind_ok_iff] at h
      obtain ⟨psk, g1, info, g2, raw, g3, t, g4, o, g5, leaf, g6, b1, g7, _, g8, b2, g9, _, g10, _, g11, _, g12, es, g13, is, g14, itm, g15,
        o2, g16, li, g17, pt, g18, g⟩ := h
      obtain ⟨g12, gx⟩ := (integrityAt_ok_iff ..).1 g12
      have hst : groupFromSecrets pr w kp gs none [] .zero = .ok st := by
        unfold groupFromSecrets
        simp only [Res.bind_ok_iff]
        exact ⟨psk, g1, info, g2, raw, g3, t, g4, o, g5, leaf, g6, b1, g7, _, g8, b2, g9, _, g10, _, g11, _, g12, es, g13, is, g14, itm, g15,
          o2, g16, li, g17, pt, g18, g⟩
      refine ⟨hst, (main g4 g5 g6 ?_).1 gx⟩
      rw [Res.pure_eq] at g
      cases g
      exact ⟨rfl, rfl⟩
    · rintro ⟨h, hx⟩
      unfold groupFromSecrets at h
      simp only [Res.bind_ok_iff] at h
      obtain ⟨psk, g1, info, g2, raw, g3, t, g4, o, g5, leaf, g6, b1, g7, _, g8, b2, g9, _, g10, _, g11, _, g12, es, g13, is, g14, itm, g15,
        o2, g16, li, g17, pt, g18, g⟩ := h
      unfold groupFromSecretsAt
      simp only [Res.bind_ok_iff]
      refine ⟨psk, g1, info, g2, raw, g3, t, g4, o, g5, leaf, g6, b1, g7, _, g8, b2, g9, _, g10, _, g11, _,
        (integrityAt_ok_iff ..).2 ⟨g12, (main g4 g5 g6 ?_).2 hx⟩,
        es, g13, is, g14, itm, g15, o2, g16, li, g17, pt, g18, g⟩
      rw [Res.pure_eq] at g
      cases g
      exact ⟨rfl, rfl⟩
  unfold groupFromWelcomeAt groupFromWelcome
  simp only [Res.bind_ok_iff, key]
  constructor
  · rintro ⟨ref, h1, gs, h2, _, h3, _, h4, h5, h6⟩
    exact ⟨⟨ref, h1, gs, h2, _, h3, _, h4, h5⟩, h6⟩
  · rintro ⟨⟨ref, h1, gs, h2, _, h3, _, h4, h5⟩, h6⟩
    exact ⟨ref, h1, gs, h2, _, h3, _, h4, h5, h6⟩

/-- **C103.** Whoever could join at the time `t1` and at the time `t3`, with a clock that stands still, joins in a call during which the clock only
shows times between the two; into the same group. -/
theorem C103_between {w : Welcome} {kp : KeyPairPackage} {t1 t3 : GoTime} {clock : Nat → GoTime} {st st' : GroupState}
    (h1 : groupFromWelcome pr w kp t1 = .ok st) (h3 : groupFromWelcome pr w kp t3 = .ok st') (z1 : t1.isZero = false) (z3 : t3.isZero = false)
    (hb : ∀ i, t1.after (clock i) = false ∧ (clock i).after t3 = false) : st' = st ∧ groupFromWelcomeAt pr w kp clock = .ok st := by
  rw [← C103_still, C103_accepts] at h1 h3
  obtain ⟨h1, i1⟩ := h1
  obtain ⟨h3, i3⟩ := h3
  rw [h1, Res.ok.injEq] at h3
  subst h3
  refine ⟨rfl, (C103_accepts ..).2 ⟨h1, fun i l hl lt hs => .inr (verify_between (lt := lt) ?_ ?_ (hb i).1 (hb i).2)⟩⟩
  · rcases i1 i l hl lt hs with h | h
    · rw [z1] at h; cases h
    · exact h
  · rcases i3 i l hl lt hs with h | h
    · rw [z3] at h; cases h
    · exact h

/-- The hypotheses are met: `1` joins with a clock that shows a time of its own for each of the two members; and the time matters for each: nobody
can join when the clock is a hundred days late as the second leaf is verified. -/
theorem toyRunning : ∃ w st, groupFromWelcomeAt toyPrims w (toyMember 1) (fun i => if i = 0 then toyLater else toyNextDay) = .ok st ∧
    st.group.groupContext.epoch = 1 ∧
    groupFromWelcomeAt toyPrims w (toyMember 1) (fun i => if i = 0 then toyLater else toyLate) = .err ∧
    groupFromWelcome toyPrims w (toyMember 1) toyLater = .ok st ∧ groupFromWelcome toyPrims w (toyMember 1) .zero = .ok st := by
  have key : toyCreated.holds (fun a => (a.invite [1]).holds fun (_, w) =>
      (groupFromWelcomeAt toyPrims w (toyMember 1) (fun i => if i = 0 then toyLater else toyNextDay)).holds (fun st =>
        decide (st.group.groupContext.epoch = 1 ∧
          groupFromWelcomeAt toyPrims w (toyMember 1) (fun i => if i = 0 then toyLater else toyLate) = .err ∧
          groupFromWelcome toyPrims w (toyMember 1) toyLater = .ok st ∧ groupFromWelcome toyPrims w (toyMember 1) .zero = .ok st))) = true := by
    decide +kernel
  obtain ⟨a, -, key⟩ := Res.holds_ok key
  obtain ⟨⟨_, w⟩, -, key⟩ := Res.holds_ok key
  obtain ⟨st, h, key⟩ := Res.holds_ok key
  exact ⟨w, st, h, of_decide_eq_true key⟩

/-- What holds for every group that is joined with a clock that stands still, holds when the clock runs. -/
example {w : Welcome} {kp : KeyPairPackage} {clock : Nat → GoTime} {st : GroupState} (P : GroupState → Prop)
    (hP : ∀ now st, groupFromWelcome pr w kp now = .ok st → P st) (h : groupFromWelcomeAt pr w kp clock = .ok st) : P st := by
  rcases C103_outcome w kp clock with e | e
  · rw [h] at e; cases e
  · exact hP _ st (e ▸ h)

end Mls
