import Verif.Props.Fork
import Verif.Props.Follow
/-
C86: what the caller of UnmarshalAndProcessMessage learns.
-/
namespace Mls

variable {pr : Prims}

/-- **C86**, what the caller learns of an accepted message: whether it was application data, and then the data. Missing: who sent it, and who was added or removed. -/
theorem C86_partial {st st' : GroupState} {raw : Bytes} {now : GoTime} {r : Option Bytes} (h : unmarshalAndProcessMessage pr st raw now = (.ok r, st')) :
    ∃ a e, Carries pr st raw a e ∧ ∀ data, r = some data ↔ a.content.content = .application data := by
  obtain ⟨a, e, hca, hcase⟩ := accepted_cases h
  refine ⟨a, e, hca, fun data => ?_⟩
  rcases hcase with ⟨p, hk, rfl, _⟩ | ⟨c, hk, rfl, _⟩ | ⟨data', hk, rfl, _⟩
  · rw [hk]; constructor <;> intro h <;> cases h
  · rw [hk]; constructor <;> intro h <;> cases h
  · rw [hk]; constructor <;> intro h <;> cases h <;> rfl

/-- C86 is false: in every group, the same data from two members is processed to the same result and the same state, so nothing the caller sees ever after depends on
who sent it. -/
theorem C86_sender (hc : pr.Correct) {sa sb st : GroupState} (hra : Reachable pr sa) (hrb : Reachable pr sb) (ha : Spec.OwnLeaf pr sa)
    (hb : Spec.OwnLeaf pr sb) (hsa : Spec.SameEpoch sa st) (hsb : Spec.SameEpoch sb st) {data rand rand' : Bytes} {guard guard' : Bytes4}
    {raw raw' : Bytes} (h : createApplicationMessage pr sa data rand guard = .ok raw)
    (h' : createApplicationMessage pr sb data rand' guard' = .ok raw') (now now' : GoTime) :
    unmarshalAndProcessMessage pr st raw now = unmarshalAndProcessMessage pr st raw' now' := by
  obtain ⟨da, hda, la⟩ := (hra.inv hc).tree.complete
  obtain ⟨db, hdb, lb⟩ := (hrb.inv hc).tree.complete
  rw [C46_delivery pr hc sa st da hda la ha hsa data rand guard raw now h, C46_delivery pr hc sb st db hdb lb hb hsb data rand' guard' raw' now' h']

/-- Nor does the caller see whom a commit adds or removes: what is returned is the same for all commits and proposals. -/
theorem C86_change {st st' : GroupState} {raw : Bytes} {now : GoTime} {r : Option Bytes} (h : unmarshalAndProcessMessage pr st raw now = (.ok r, st'))
    (hne : st' ≠ st) : r = none := by
  obtain ⟨a, e, hca, hcase⟩ := accepted_cases h
  rcases hcase with ⟨p, hk, rfl, _⟩ | ⟨c, hk, rfl, _⟩ | ⟨data', hk, rfl, hs, _⟩
  · rfl
  · rfl
  · exact absurd hs hne

/-- The hypotheses of C86_sender are met by two different members. -/
theorem C86_refuted : ∃ sa sb st raw raw', Reachable toyPrims sa ∧ Reachable toyPrims sb ∧ Reachable toyPrims st ∧
    sa.group.myLeafIndex ≠ sb.group.myLeafIndex ∧ raw ≠ raw' ∧ createApplicationMessage toyPrims sa [1, 2] [] ⟨1, 2, 3, 4⟩ = .ok raw ∧
    createApplicationMessage toyPrims sb [1, 2] [] ⟨1, 2, 3, 4⟩ = .ok raw' ∧
    unmarshalAndProcessMessage toyPrims st raw toyLater = (.ok (some [1, 2]), st) ∧
    unmarshalAndProcessMessage toyPrims st raw' toyLater = (.ok (some [1, 2]), st) := by
  have key : toyThree.holds (fun (a, b, c) => decide (a.group.myLeafIndex ≠ b.group.myLeafIndex) &&
      (createApplicationMessage toyPrims a [1, 2] [] ⟨1, 2, 3, 4⟩).holds (fun raw =>
        (createApplicationMessage toyPrims b [1, 2] [] ⟨1, 2, 3, 4⟩).holds (fun raw' => decide (raw ≠ raw') &&
          decide (unmarshalAndProcessMessage toyPrims c raw toyLater = (.ok (some [1, 2]), c)) &&
          decide (unmarshalAndProcessMessage toyPrims c raw' toyLater = (.ok (some [1, 2]), c))))) = true := by
    decide +kernel
  obtain ⟨⟨a, b, c⟩, h, key⟩ := Res.holds_ok key
  simp only [Bool.and_eq_true, decide_eq_true_eq] at key
  obtain ⟨k1, key⟩ := key
  obtain ⟨raw, h1, key⟩ := Res.holds_ok key
  obtain ⟨raw', h2, key⟩ := Res.holds_ok key
  simp only [Bool.and_eq_true, decide_eq_true_eq] at key
  obtain ⟨⟨k2, k3⟩, k4⟩ := key
  obtain ⟨ra, rb, rc⟩ := toyThree_reachable h
  exact ⟨a, b, c, raw, raw', ra, rb, rc, k1, k2, h1, h2, k3, k4⟩

end Mls
