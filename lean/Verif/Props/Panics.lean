import Verif.Props.Authenticity
/-
C49: message processing can panic.
-/
namespace Mls

variable {pr : Prims}

theorem getLeaf_panic {t : VTree} {li : Nat} (h : t.length ≤ 2 * li % 2 ^ 32) : getLeaf t li = .panic := by
  unfold getLeaf
  rw [Res.idx_panic_iff.2 (show t.length ≤ nodeOfLeaf li from h)]
  rfl

/-- Whoever knows the group id and the epoch can make a member panic: a message in the clear from a
member index beyond the tree panics whatever its signature and tags are. -/
theorem C49_outsider (pr : Prims) (st : GroupState) (raw : Bytes) (now : GoTime) (v : UInt16) (m : PublicMessage)
    (li : UInt32) (hm : unmarshal MlsMessage.dec raw = .ok ⟨v, .publicMessage m⟩)
    (hg : m.content.groupID = st.group.groupContext.groupID) (he : m.content.epoch = st.group.groupContext.epoch)
    (hs : m.content.sender = .member li) (hl : st.group.tree.length ≤ 2 * li.toNat % 2 ^ 32) :
    unmarshalAndProcessMessage pr st raw now = (.panic, st) := by
  have : verifyPublicMessage pr st m = .panic := by
    unfold verifyPublicMessage
    simp only [beq_iff_eq.2 hg, beq_iff_eq.2 he, Res.guardErr_true, Res.ok_bind, hs]
    rw [getLeaf_panic (by simpa [GroupState.vtree, derefTree] using hl)]
    rfl
  unfold unmarshalAndProcessMessage
  rw [hm]
  simp only [processPublicMessage, this]

/-- An unsigned proposal claiming to come from leaf 9. -/
def outsiderMessage : PublicMessage where
  content := { groupID := [7], epoch := 5, sender := .member 9, authenticatedData := [],
               content := .proposal (.remove 0) }
  auth := ⟨[], []⟩
  membershipTag := []

/-- C49 is false: these bytes make any member of group [7] in epoch 5 panic, if its tree has less than
ten leaves, whatever the keys. -/
theorem C49_refuted : ∃ raw : Bytes, ∀ (pr : Prims) (st : GroupState) (now : GoTime),
    st.group.groupContext.groupID = [7] → st.group.groupContext.epoch = 5 → st.group.tree.length ≤ 18 →
    unmarshalAndProcessMessage pr st raw now = (.panic, st) := by
  refine ⟨[0, 1, 0, 1, 1, 7, 0, 0, 0, 0, 0, 0, 0, 5, 1, 0, 0, 0, 9, 0, 2, 0, 3, 0, 0, 0, 0, 0, 0], ?_⟩
  intro pr st now hg he hl
  refine C49_outsider pr st _ now 1 outsiderMessage 9 (by decide +kernel) hg.symm he.symm rfl ?_
  exact hl

/-- The hypotheses are met by the toy group. -/
example : toyPair.group.groupContext.groupID = [7] ∧ toyPair.group.groupContext.epoch = 5 ∧
    toyPair.group.tree.length ≤ 18 := by decide

end Mls
