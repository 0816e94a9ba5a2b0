import Verif.Props.Library
import Verif.Props.Admission
/-
C92: what a group requires of its members.
-/
namespace Mls

variable {pr : Prims}

/-! ### Independent specification -/

/-- 16-bit numbers, big-endian. -/
def Spec.u16s (l : List UInt16) : Bytes := l.flatMap fun x => [UInt8.ofNat (x.toNat / 256), UInt8.ofNat (x.toNat % 256)]

/-- RFC 9420 section 11.1: the group context requires these types of extensions, proposals and credentials with a
required_capabilities extension (type 3). -/
def Spec.Requires (ctx : GroupContext) (exts props creds : List UInt16) : Prop :=
  ⟨3, Spec.vec (Spec.u16s exts) ++ Spec.vec (Spec.u16s props) ++ Spec.vec (Spec.u16s creds)⟩ ∈ ctx.extensions

/-- The capabilities of a leaf cover them: the types of RFC 9420 sections 13.5 and 17.4 that all clients must support need not be listed. -/
structure Spec.Covers (l : LeafNode) (exts props creds : List UInt16) : Prop where
  extensions : ∀ x ∈ exts, x.toNat ≤ 5 ∨ x ∈ l.capabilities.extensions
  proposals : ∀ x ∈ props, x.toNat ≤ 7 ∨ x ∈ l.capabilities.proposals
  credentials : ∀ x ∈ creds, x ∈ l.capabilities.credentials

/-- Every member supports what the group requires (section 7.3), and the extensions that the group uses (section 12.4.3.1). -/
structure Spec.RequirementsMet (st : GroupState) : Prop where
  required : ∀ exts props creds, Spec.Requires st.group.groupContext exts props creds → ∀ l ∈ Spec.members st.vtree, Spec.Covers l exts props creds
  used : ∀ e ∈ st.group.groupContext.extensions, ∀ l ∈ Spec.members st.vtree, e.ty.toNat ≤ 5 ∨ e.ty ∈ l.capabilities.extensions

/-! ### C92 -/

/-- **C92**, for groups whose members all use this library: their context never has an extension, so nothing is required that a member might lack.
Missing: the groups that others have made (C92_refuted). -/
theorem C92_partial (hc : pr.Correct) {cs : UInt16} {st : GroupState} (hl : Spec.Library pr cs st) : Spec.RequirementsMet st := by
  have he := (hl.inv hc).extensions
  refine ⟨fun exts props creds h => ?_, fun e h => ?_⟩
  · unfold Spec.Requires at h
    rw [he] at h
    exact absurd h List.not_mem_nil
  · rw [he] at h
    exact absurd h List.not_mem_nil

/-- The two groups of `toyTwo`, whose members use this library only. -/
example : ∃ a b, toyTwo = .ok (a, b) ∧ Spec.RequirementsMet a ∧ Spec.RequirementsMet b ∧ (Spec.members b.vtree).length = 2 := by
  obtain ⟨⟨a, b⟩, h, key⟩ := Res.holds_ok (x := toyTwo) (f := fun p => decide ((Spec.members p.2.vtree).length = 2)) (by decide +kernel)
  exact ⟨a, b, h, C92_partial toyPrims_correct (toyTwo_library h).1, C92_partial toyPrims_correct (toyTwo_library h).2, of_decide_eq_true key⟩

/-- The requirements of a group stay what they are, whatever messages a member gets. -/
theorem C92_fixed {st st' : GroupState} {as : List AuthenticatedContent} (h : Trace pr st as st') (exts props creds : List UInt16) :
    Spec.Requires st'.group.groupContext exts props creds ↔ Spec.Requires st.group.groupContext exts props creds := by
  unfold Spec.Requires
  rw [(C44_history pr _ _ _ h).1.extensions]

/-- A group that requires the extension type 61440 and the proposal type 61441, and uses the extension 61442, all of them private; its only member is `0`,
and it invites `1`. -/
def toyDemanding : Res Welcome := do
  let a ← toyCreated
  let st : GroupState := { a with group := { a.group with groupContext := { a.group.groupContext with
    extensions := [⟨3, [2, 240, 0, 2, 240, 1, 0]⟩, ⟨61442, []⟩] } } }
  let (w, _) ← (createWelcome toyPrims st [(toyMember 1).pub] default).1
  return w

/-- The extension in it. -/
example : Spec.vec (Spec.u16s [61440]) ++ Spec.vec (Spec.u16s [61441]) ++ Spec.vec (Spec.u16s []) = [2, 240, 0, 2, 240, 1, 0] := by decide

/-- C92 is false: GroupFromWelcome puts a member into a group that requires, and uses, extensions which the member's own key package does not list,
and that member can then invite others that do not list them either, which is accepted. -/
theorem C92_refuted : ∃ w st l w2 raw2 st2, groupFromWelcome toyPrims w (toyMember 1) toyLater = .ok st ∧
    Spec.Requires st.group.groupContext [61440] [61441] [] ∧ l ∈ Spec.members st.vtree ∧ l = (toyMember 1).pub.leafNode ∧
    ¬ Spec.Covers l [61440] [61441] [] ∧ ¬ Spec.RequirementsMet st ∧
    (createWelcome toyPrims st [(toyMember 2).pub] default).1 = .ok (w2, raw2) ∧
    unmarshalAndProcessMessage toyPrims st raw2 toyLater = (.ok none, st2) ∧
    (toyMember 2).pub.leafNode ∈ Spec.members st2.vtree ∧ ¬ Spec.Covers (toyMember 2).pub.leafNode [61440] [61441] [] := by
  have key : toyDemanding.holds (fun w => (groupFromWelcome toyPrims w (toyMember 1) toyLater).holds fun st =>
      decide (st.group.groupContext.extensions = [⟨3, [2, 240, 0, 2, 240, 1, 0]⟩, ⟨61442, []⟩]) &&
      decide ((toyMember 1).pub.leafNode ∈ Spec.members st.vtree) &&
      (createWelcome toyPrims st [(toyMember 2).pub] default).1.holds fun (_, raw2) =>
        decide ((unmarshalAndProcessMessage toyPrims st raw2 toyLater).1 = .ok none) &&
        decide ((toyMember 2).pub.leafNode ∈ Spec.members (unmarshalAndProcessMessage toyPrims st raw2 toyLater).2.vtree)) = true := by
    decide +kernel
  obtain ⟨w, -, key⟩ := Res.holds_ok key
  obtain ⟨st, hst, key⟩ := Res.holds_ok key
  simp only [Bool.and_eq_true, decide_eq_true_eq] at key
  obtain ⟨⟨he, hm⟩, key⟩ := key
  obtain ⟨⟨w2, raw2⟩, hw2, key⟩ := Res.holds_ok key
  simp only [Bool.and_eq_true, decide_eq_true_eq] at key
  have hn1 : ¬ Spec.Covers (toyMember 1).pub.leafNode [61440] [61441] [] := by
    intro h
    have : ¬ ((61440 : UInt16).toNat ≤ 5 ∨ (61440 : UInt16) ∈ (toyMember 1).pub.leafNode.capabilities.extensions) := by decide +kernel
    exact this (h.extensions _ List.mem_cons_self)
  have hn2 : ¬ Spec.Covers (toyMember 2).pub.leafNode [61440] [61441] [] := by
    intro h
    have : ¬ ((61440 : UInt16).toNat ≤ 5 ∨ (61440 : UInt16) ∈ (toyMember 2).pub.leafNode.capabilities.extensions) := by decide +kernel
    exact this (h.extensions _ List.mem_cons_self)
  have hreq : Spec.Requires st.group.groupContext [61440] [61441] [] := by
    unfold Spec.Requires
    rw [he]
    have : Spec.vec (Spec.u16s [61440]) ++ Spec.vec (Spec.u16s [61441]) ++ Spec.vec (Spec.u16s []) = [2, 240, 0, 2, 240, 1, 0] := by decide
    rw [this]
    exact List.mem_cons_self
  exact ⟨w, st, _, w2, raw2, _, hst, hreq, hm, rfl, hn1, fun h => hn1 (h.required _ _ _ hreq _ hm), hw2, Prod.ext key.1 rfl, key.2, hn2⟩

end Mls
