import Verif.Model.Crypto
import Verif.Proofs.Codec4
/-
Rules for computing with outcomes, and evaluation of the labelled primitives.
-/
namespace Mls

namespace Res

variable {α β : Type}

theorem bind_def (x : Res α) (f : α → Res β) : (x >>= f) = x.bind f := rfl

@[simp] theorem ok_bind (a : α) (f : α → Res β) : ((Res.ok a : Res α) >>= f) = f a := rfl
@[simp] theorem err_bind (f : α → Res β) : ((Res.err : Res α) >>= f) = .err := rfl
@[simp] theorem panic_bind (f : α → Res β) : ((Res.panic : Res α) >>= f) = .panic := rfl
@[simp] theorem hang_bind (f : α → Res β) : ((Res.hang : Res α) >>= f) = .hang := rfl
@[simp] theorem pure_eq (a : α) : (pure a : Res α) = .ok a := rfl
@[simp] theorem bind_ok' (a : α) (f : α → Res β) : Res.bind (.ok a) f = f a := rfl

theorem bind_ok_iff {x : Res α} {f : α → Res β} {b : β} :
    (x >>= f) = .ok b ↔ ∃ a, x = .ok a ∧ f a = .ok b := by
  cases x <;> simp

theorem bind_assoc' {γ : Type} (x : Res α) (f : α → Res β) (g : β → Res γ) :
    ((x >>= f) >>= g) = (x >>= fun a => f a >>= g) := by cases x <;> rfl

theorem guardErr_ok_iff {b : Bool} {u : Unit} : guardErr b = .ok u ↔ b = true := by
  cases b <;> simp [guardErr]

@[simp] theorem guardErr_true : guardErr true = .ok () := rfl
@[simp] theorem guardErr_false : guardErr false = .err := rfl

theorem idx_ok_iff {l : List α} {i : Nat} {a : α} : idx l i = .ok a ↔ l[i]? = some a := by
  unfold idx; cases l[i]? <;> simp

theorem idx_of_lt {l : List α} {i : Nat} (h : i < l.length) : idx l i = .ok l[i] := by
  unfold idx; simp [h]

theorem idx_panic_iff {l : List α} {i : Nat} : idx l i = .panic ↔ l.length ≤ i := by
  unfold idx
  cases h : l[i]? with
  | none => simpa using h
  | some a =>
    have := (List.getElem?_eq_some_iff.1 h).1
    simp; omega

theorem deref_ok_iff {o : Option α} {a : α} : deref o = .ok a ↔ o = some a := by
  cases o <;> simp [deref]

theorem setIdx_ok_iff {l m : List α} {i : Nat} {a : α} :
    setIdx l i a = .ok m ↔ i < l.length ∧ m = l.set i a := by
  unfold setIdx
  split
  · next h => simp [h, eq_comm]
  · next h => simp [h]

theorem setIdx_of_lt {l : List α} {i : Nat} (a : α) (h : i < l.length) :
    setIdx l i a = .ok (l.set i a) := by
  unfold setIdx; simp [h]

/-- Neither a panic nor a loop without end. -/
def Fine (x : Res α) : Prop := x ≠ .panic ∧ x ≠ .hang

theorem fine_ok (a : α) : Fine (.ok a) := ⟨by simp, by simp⟩
theorem fine_err : Fine (.err : Res α) := ⟨by simp, by simp⟩

theorem Fine.bind {x : Res α} {f : α → Res β} (hx : Fine x) (hf : ∀ a, x = .ok a → Fine (f a)) :
    Fine (x >>= f) := by
  cases h : x with
  | ok a => exact hf a h
  | err => exact fine_err
  | panic => exact absurd h hx.1
  | hang => exact absurd h hx.2

theorem fine_guardErr (b : Bool) : Fine (guardErr b) := by
  cases b
  · exact fine_err
  · exact fine_ok _

theorem Fine.of_ok {x : Res α} {a : α} (h : x = .ok a) : Fine x := h ▸ fine_ok a

theorem fine_iff {x : Res α} : Fine x ↔ x = .err ∨ ∃ a, x = .ok a := by
  cases x <;> simp [Fine]

end Res

theorem fine_orErr {α : Type} (o : Option α) : (orErr o).Fine := by
  cases o
  · exact Res.fine_err
  · exact Res.fine_ok _

theorem orErr_ok_iff {α : Type} {o : Option α} {a : α} : orErr o = .ok a ↔ o = some a := by
  cases o <;> simp [orErr]

/-! ### Encoders never panic -/

theorem writeOpaqueVec_fine (b : Bytes) : (writeOpaqueVec b : Res Bytes).Fine := by
  rw [writeOpaqueVec_eq_spec]
  cases Spec.opaqueVec b
  · exact Res.fine_err
  · exact Res.fine_ok _

theorem enc_append_fine {a b : Enc} (ha : Res.Fine a) (hb : Res.Fine b) : Res.Fine (a ++ b : Enc) := by
  rcases Res.fine_iff.1 ha with rfl | ⟨x, rfl⟩ <;> rcases Res.fine_iff.1 hb with rfl | ⟨y, rfl⟩ <;>
    first | exact Res.fine_err | exact Res.fine_ok _

theorem writeOpaqueVec_ok {b : Bytes} (h : b.length < 2 ^ 30) :
    ∃ x, Spec.opaqueVec b = some x ∧ writeOpaqueVec b = .ok x := by
  obtain ⟨bs, hbs⟩ := varint_some_of_lt (n := b.length) h
  refine ⟨bs ++ b, by simp [Spec.opaqueVec, hbs], ?_⟩
  rw [writeOpaqueVec_eq_spec]; simp [Spec.opaqueVec, hbs]

/-! ### Cipher suites -/

theorem suite_ok_of_known {cs : UInt16} {d : SuiteDesc} (h : cipherSuiteDescriptions cs = some d) :
    suite cs = .ok d := by simp [suite, h, Res.deref]

theorem suite_ok_iff {cs : UInt16} {d : SuiteDesc} :
    suite cs = .ok d ↔ cipherSuiteDescriptions cs = some d := Res.deref_ok_iff

theorem suite_ok_or_panic (cs : UInt16) : suite cs = .panic ∨ ∃ d, suite cs = .ok d := by
  unfold suite
  cases cipherSuiteDescriptions cs <;> simp [Res.deref]

/-- A result that satisfies a test. -/
def Res.holds {α : Type} (x : Res α) (f : α → Bool) : Bool :=
  match x with
  | .ok a => f a
  | _ => false

theorem Res.holds_ok {α : Type} {x : Res α} {f : α → Bool} (h : x.holds f = true) : ∃ a, x = .ok a ∧ f a = true := by
  cases x with
  | ok a => exact ⟨a, rfl, h⟩
  | err => cases h
  | panic => cases h
  | hang => cases h

end Mls
