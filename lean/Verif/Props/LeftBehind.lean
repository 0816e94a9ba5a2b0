import Verif.Props.SendCrash
import Verif.Props.Sharing
/-
Property C112: what a message that fails, or an invitation, leaves behind in the tree of the member, exactly.
-/
namespace Mls

open Spec (Ratchet)

variable {pr : Prims}

/-- What is left of the tree `v` when its proposed successor `final`, which was built with the parent nodes of `v`, is dropped: where the proposed
tree still has a parent node, `v` now has that one; all else is as it was. -/
def Spec.leftBehind (v final : VTree) : VTree :=
  v.mapIdx fun x n => match n, final[x]? with
    | some (.parent _), some (some (.parent q)) => some (.parent q)
    | n, _ => n

/-- The array of a tree, if there is one. -/
def Spec.nodesOf : Option (Ratchet.Any ParentNode) → VTree
  | none => []
  | some a => a.2.flat .leaf .parent

/-! ### Pointers kept, and pointers written to -/

/-- Between the two trees no pointer is new or moved; and what the second does not refer to is as it was. -/
structure Handed (h : Heap) (t : RTree) (h' : Heap) (t' : RTree) : Prop where
  sub : Sub t' t
  odd : ∀ x p : Nat, t'[x]? = some (some (TNode.parent p)) → x % 2 = 1
  rest : ∀ p : Nat, (∀ x : Nat, t'[x]? ≠ some (some (TNode.parent p))) → h'[p]? = h[p]?

theorem addAncestors_rest {t : RTree} {n : Nat} {li : UInt32} {p : Nat} (hp : ∀ x : Nat, t[x]? ≠ some (some (TNode.parent p))) :
    ∀ (fuel : Nat) (h : Heap) (x : Nat) (h' : Heap), addAncestors t n li fuel h x = .ok h' → h'[p]? = h[p]? := by
  intro fuel
  induction fuel with
  | zero => intro h x h' hr; simp [addAncestors] at hr
  | succ fuel ih =>
    intro h x h' hr
    unfold addAncestors at hr
    split at hr
    · cases hr; rfl
    · rename_i y hy
      simp only [Res.bind_ok_iff] at hr
      obtain ⟨node, hn, hr⟩ := hr
      split at hr
      · exact ih _ _ _ hr
      · simp at hr
      · rename_i ptr
        rw [ih _ _ _ hr, List.getElem?_modify]
        have hne : ptr ≠ p := by
          rintro rfl
          exact hp y (Res.idx_ok_iff.1 hn)
        simp [hne]

theorem treeAdd_handed {h0 h h' : Heap} {t0 t t' : RTree} {leaf : LeafNode} (hh : Handed h0 t0 h t) (hr : treeAdd h t leaf = .ok (h', t')) :
    Handed h0 t0 h' t' := by
  unfold treeAdd at hr
  simp only [Res.bind_ok_iff] at hr
  obtain ⟨⟨li, found⟩, _, h1, h2, t1, h3, he⟩ := hr
  cases he
  dsimp only at h2 h3
  obtain ⟨hlt, rfl⟩ := Res.setIdx_ok_iff.1 h3
  -- the extended array has the same pointers
  have hext : ∀ x p : Nat, (if found then t else t ++ List.replicate (t.length + 1) none)[x]? = some (some (TNode.parent p)) ↔
      t[x]? = some (some (.parent p)) := by
    intro x p
    split
    · rfl
    · rw [List.getElem?_append]
      split
      · rfl
      · rename_i hx
        rw [List.getElem?_eq_none (Nat.not_lt.1 hx)]
        simp only [reduceCtorEq, iff_false]
        intro hc
        rw [List.getElem?_replicate] at hc
        split at hc <;> simp at hc
  have hset : ∀ x p : Nat, ((if found then t else t ++ List.replicate (t.length + 1) none).set (nodeOfLeaf li) (some (TNode.leaf leaf)))[x]? =
      some (some (TNode.parent p)) ↔ t[x]? = some (some (.parent p)) := by
    intro x p
    rw [List.getElem?_set]
    split
    · rename_i hx
      constructor
      · intro hc
        simp at hc
      · intro hc
        have := hh.odd x p hc
        subst hx
        unfold nodeOfLeaf at this
        omega
    · exact hext x p
  refine ⟨fun x p hx => hh.sub x p ((hset x p).1 hx), fun x p hx => hh.odd x p ((hset x p).1 hx), fun p hp => ?_⟩
  have hp' : ∀ x : Nat, t[x]? ≠ some (some (TNode.parent p)) := fun x hx => hp x ((hset x p).2 hx)
  rw [addAncestors_rest (fun x hx => hp' x ((hext x p).1 hx)) _ _ _ _ h2]
  exact hh.rest p hp'

theorem applyAdds_handed {h0 : Heap} {t0 : RTree} : ∀ (ps : List Proposal) (h : Heap) (t : RTree) (h' : Heap) (t' : RTree),
    Handed h0 t0 h t → applyAdds ps h t = .ok (h', t') → Handed h0 t0 h' t' := by
  intro ps
  induction ps with
  | nil => intro h t h' t' hh hr; simp only [applyAdds] at hr; cases hr; exact hh
  | cons p ps ih =>
    intro h t h' t' hh hr
    cases p with
    | add k =>
      simp only [applyAdds, Res.bind_ok_iff] at hr
      obtain ⟨⟨h1, t1⟩, h2, hr⟩ := hr
      exact ih _ _ _ _ (treeAdd_handed hh h2) hr
    | update | remove | psk | reInit | externalInit | groupContextExtensions => exact ih _ _ _ _ hh hr

theorem applyUpdates_sub {ss : List UInt32} : ∀ (ps : List Proposal) (i : Nat) (t t' : RTree),
    applyUpdates ss i ps t = .ok t' → Sub t' t := by
  intro ps
  induction ps with
  | nil => intro i t t' h; simp only [applyUpdates] at h; cases h; exact Sub.refl _
  | cons p ps ih =>
    intro i t t' h
    cases p with
    | update l =>
      simp only [applyUpdates, Res.bind_ok_iff] at h
      obtain ⟨_, _, t1, h1, h⟩ := h
      exact Sub.trans (ih _ _ _ h) (treeUpdate_sub h1)
    | add | remove | psk | reInit | externalInit | groupContextExtensions => exact ih _ _ _ h

theorem applyRemoves_sub : ∀ (ps : List Proposal) (t t' : RTree), applyRemoves ps t = .ok t' → Sub t' t := by
  intro ps
  induction ps with
  | nil => intro t t' h; simp only [applyRemoves] at h; cases h; exact Sub.refl _
  | cons p ps ih =>
    intro t t' h
    cases p with
    | remove l =>
      simp only [applyRemoves, Res.bind_ok_iff] at h
      obtain ⟨t1, h1, h⟩ := h
      exact Sub.trans (ih _ _ h) (treeRemove_sub h1)
    | add | update | psk | reInit | externalInit | groupContextExtensions => exact ih _ _ h

theorem treeApply_handed {h h' : Heap} {t t' : RTree} {ps : List Proposal} {ss : List UInt32}
    (ho : ∀ x p : Nat, t[x]? = some (some (TNode.parent p)) → x % 2 = 1)
    (hr : treeApply h t ps ss = .ok (h', t')) : Handed h t h' t' := by
  unfold treeApply at hr
  simp only [Res.bind_ok_iff] at hr
  obtain ⟨t1, h1, t2, h2, hr⟩ := hr
  have hs := Sub.trans (applyRemoves_sub _ _ _ h2) (applyUpdates_sub _ _ _ _ h1)
  exact applyAdds_handed _ _ _ _ _ ⟨hs, fun x p hx => ho x p (hs x p hx), fun _ _ => rfl⟩ hr

theorem Handed.leftBehind {h h' : Heap} {t t' : RTree} (ho : Owned h t) (hh : Handed h t h' t') :
    derefTree h' t = Spec.leftBehind (derefTree h t) (derefTree h' t') := by
  apply List.ext_getElem?
  intro x
  unfold Spec.leftBehind
  rw [List.getElem?_mapIdx, derefTree_get, derefTree_get, derefTree_get]
  rcases ht : t[x]? with _ | _ | _ | p
  · rfl
  · rfl
  · rfl
  · simp only [Option.map_some, TNode.deref]
    rcases ht' : t'[x]? with _ | _ | _ | q
    · have := hh.rest p fun y hy => by
        have e := ho.inj ht (hh.sub y p hy)
        subst e; rw [ht'] at hy; cases hy
      simp [this]
    · have := hh.rest p fun y hy => by
        have e := ho.inj ht (hh.sub y p hy)
        subst e; rw [ht'] at hy; cases hy
      simp [this]
    · have := hh.rest p fun y hy => by
        have e := ho.inj ht (hh.sub y p hy)
        subst e; rw [ht'] at hy; cases hy
      simp [this, TNode.deref]
    · have := hh.sub x q ht'
      rw [ht] at this
      cases this
      simp [TNode.deref]

theorem treeApply_leftBehind {h h' : Heap} {t t' : RTree} {d0 : Nat} {s0 : Ratchet ParentNode d0} (hd0 : d0 ≤ 31) (hs0 : Holds h t s0)
    (ho : ∀ x p : Nat, t[x]? = some (some (TNode.parent p)) → x % 2 = 1)
    {l : List (Proposal × UInt32)} {r : Option (Ratchet.Any ParentNode)} (hap : Spec.applyProposals (some ⟨d0, s0⟩) l = some r)
    (ht : treeApply h t (l.map (·.1)) (l.map (·.2)) = .ok (h', t')) :
    derefTree h' t = Spec.leftBehind (s0.flat .leaf .parent) (Spec.nodesOf r) := by
  have hout := treeApply_outcome (s := some ⟨d0, s0⟩) hd0 hs0 l
  rw [hap] at hout
  rcases hout with ⟨_, h2, t2, he, hh⟩ | ⟨_, he⟩
  · rw [ht] at he
    cases he
    rw [(treeApply_handed ho ht).leftBehind hs0.owned, hs0.flat]
    congr 1
    cases r with
    | none => cases hh; rfl
    | some a => exact hh.flat
  · rw [ht] at he; cases he

/-- The commit `c` that came with the authentic content `a` gets as far as its proposals being applied, to give the tree `r`. -/
def Spec.Proposes (pr : Prims) (sd : SuiteDesc) (st : GroupState) {d0 : Nat} (s0 : Ratchet ParentNode d0) (raw : Bytes)
    (r : Option (Ratchet.Any ParentNode)) : Prop :=
  ∃ v body a c l, unmarshal MlsMessage.dec raw = .ok ⟨v, body⟩ ∧
    ((∃ m, body = .publicMessage m ∧ Spec.PublicOk pr st m a) ∨ (∃ m, body = .privateMessage m ∧ Spec.PrivateOk pr sd st d0 m a)) ∧
    a.content.content = .commit c ∧ Spec.Checked pr st.group.groupContext st.group.pendingProposals a.content.sender.leafIndex c l ∧
    Spec.applyProposals (some ⟨d0, s0⟩) l = some r

/-- **C112**: a message that a member answers with an error leaves the group record alone. If it is an authentic commit whose proposals pass the
checks, the parent nodes that the tree it proposes shares with the member's are left as the proposed tree had them, with the leaves it added
unmerged; otherwise the tree is as it was. -/
theorem C112_message (hc : pr.Correct) {st : GroupState} (hr : Reachable pr st) :
    ∃ (sd : SuiteDesc) (d0 : Nat) (s0 : Ratchet ParentNode d0), suite st.group.groupContext.cipherSuite = .ok sd ∧
      st.vtree = s0.flat .leaf .parent ∧ d0 ≤ 31 ∧ ∀ raw now st', unmarshalAndProcessMessage pr st raw now = (.err, st') →
        st'.group = st.group ∧
        (∀ r, Spec.Proposes pr sd st s0 raw r → st'.vtree = Spec.leftBehind st.vtree (Spec.nodesOf r)) ∧
        ((¬ ∃ r, Spec.Proposes pr sd st s0 raw r) → st'.vtree = st.vtree) := by
  have hi := hr.inv hc
  obtain ⟨sd, hsd⟩ := hi.suite
  obtain ⟨d0, hd0, s0, hs0⟩ := hi.tree.holds
  have hlen : st.group.tree.length = 2 ^ (d0 + 1) - 1 := hs0.length
  refine ⟨sd, d0, s0, hsd, hs0.flat, hd0, fun raw now st' h => ⟨?_, ?_, ?_⟩⟩
  · rcases rejected_cases h (by simp) with rfl | ⟨a, e, c, ps, ss, h', t, _, _, _, _, rfl, _⟩ <;> rfl
  · rintro r ⟨v, body, a, c, l, hd, hok, hk, hl, hap⟩
    have hca : ∃ e, Carries pr st raw a e := by
      rcases hok with ⟨m, rfl, hm⟩ | ⟨m, rfl, hm⟩
      · exact ⟨_, .pub hd ((verifyPublicMessage_iff hsd).2 hm)⟩
      · exact ⟨_, .priv hd ((C62_received pr hc st sd hsd d0 hd0 hlen m a).2 hm)⟩
    obtain ⟨e, hca⟩ := hca
    have hcp : checkProposals pr st.group a.content.sender.leafIndex c = .ok (l.map (·.1), l.map (·.2)) := checked_iff.2 ⟨l, hl, rfl, rfl⟩
    rw [upm_of_carries hca] at h
    unfold dispatch at h
    rw [hk] at h
    simp only [processCommit, hk, hcp] at h
    have hout := treeApply_outcome (s := some ⟨d0, s0⟩) hd0 hs0 l
    rw [hap] at hout
    rcases hout with ⟨_, h2, t2, he, hh⟩ | ⟨_, he⟩
    · rw [he] at h
      have hv := treeApply_leftBehind hd0 hs0 (fun _ _ => hi.tree.parents) hap he
      rw [← hs0.flat] at hv
      dsimp only at h
      split at h
      · cases h
      · cases h; exact hv
      · cases h
      · cases h
    · rw [he] at h
      cases h
  · intro hn
    rcases rejected_cases h (by simp) with rfl | ⟨a, e, c, ps, ss, h', t, hca, hk, h1, h2, rfl, _⟩
    · rfl
    · exfalso
      obtain ⟨l, hl, rfl, rfl⟩ := checked_iff.1 h1
      have hout := treeApply_outcome (s := some ⟨d0, s0⟩) hd0 hs0 l
      cases hap : Spec.applyProposals (some ⟨d0, s0⟩) l with
      | none => rw [hap, h2] at hout; cases hout
      | some r =>
        apply hn
        cases hca with
        | pub hd hv => exact ⟨r, _, _, a, c, l, hd, .inl ⟨_, rfl, verifyPublicMessage_ok hv⟩, hk, hl, hap⟩
        | priv hd hv => exact ⟨r, _, _, a, c, l, hd, .inr ⟨_, rfl, (C62_received pr hc st sd hsd d0 hd0 hlen _ a).1 hv⟩, hk, hl, hap⟩

/-- **C112**: an invitation leaves the group record alone, and, whether it succeeds or not, the parent nodes as they are in the tree with
the invited members. -/
theorem C112_invitation (hc : pr.Correct) {st : GroupState} (hr : Reachable pr st) :
    ∃ (d0 : Nat) (s0 : Ratchet ParentNode d0), st.vtree = s0.flat .leaf .parent ∧ d0 ≤ 31 ∧
      ∀ kps rand, (Spec.withMembers s0 kps).1 ≤ 31 → (createWelcome pr st kps rand).2.group = st.group ∧
        (createWelcome pr st kps rand).2.vtree = Spec.leftBehind st.vtree ((Spec.withMembers s0 kps).2.flat .leaf .parent) := by
  have hi := hr.inv hc
  obtain ⟨d0, hd0, s0, hs0⟩ := hi.tree.holds
  refine ⟨d0, s0, hs0.flat, hd0, fun kps rand hsmall => ⟨(C51_partial pr st kps rand).1, ?_⟩⟩
  have hap := applyProposals_adds s0 kps st.group.myLeafIndex
  have hout := treeApply_outcome (s := some ⟨d0, s0⟩) hd0 hs0 (kps.map fun k => (.add k, st.group.myLeafIndex))
  rw [hap] at hout
  unfold createWelcome
  split
  · rename_i h0
    obtain rfl := List.length_eq_zero_iff.1 h0
    have := Handed.leftBehind hs0.owned ⟨Sub.refl _, fun _ _ => hi.tree.parents, fun _ _ => rfl⟩
    rw [hs0.flat] at this
    have hv : st.vtree = s0.flat .leaf .parent := hs0.flat
    show st.vtree = Spec.leftBehind st.vtree (s0.flat .leaf .parent)
    rw [hv]
    exact this
  · rw [treeApply_adds _ _ _ _ (kps.map fun _ => st.group.myLeafIndex)]
    have e1 : (kps.map fun k => (Proposal.add k, st.group.myLeafIndex)).map (·.1) = kps.map .add := by simp [Function.comp_def]
    have e2 : (kps.map fun k => (Proposal.add k, st.group.myLeafIndex)).map (·.2) = kps.map fun _ => st.group.myLeafIndex := by
      simp [Function.comp_def]
    rcases hout with ⟨hsm, h2, t2, he, hh⟩ | ⟨hsm, he⟩
    · have hv := treeApply_leftBehind hd0 hs0 (fun _ _ => hi.tree.parents) hap he
      rw [e1, e2] at he
      rw [he]
      rw [← hs0.flat] at hv
      exact hv
    · exact absurd hsmall hsm

/-- There is such a commit: a member of a group of three, after a commit that gave the tree parent nodes, gets another that adds a
member and has a bad path. It is refused, its proposals do get applied, and the tree is not as it was. -/
theorem C112_changed : ∃ (st : GroupState) (sd : SuiteDesc) (d0 : Nat) (s0 : Ratchet ParentNode d0) (raw : Bytes) (r : Option (Ratchet.Any ParentNode)),
    Reachable toyPrims st ∧ suite st.group.groupContext.cipherSuite = .ok sd ∧ st.vtree = s0.flat .leaf .parent ∧
    (unmarshalAndProcessMessage toyPrims st raw toyLater).1 = .err ∧ Spec.Proposes toyPrims sd st s0 raw r ∧
    (unmarshalAndProcessMessage toyPrims st raw toyLater).2.vtree ≠ st.vtree := by
  have key : toyThree.holds (fun (a, _, _) => (a.after (toyCommit a 1 1 [] (List.replicate 32 9) [])).holds fun a =>
      let r := unmarshalAndProcessMessage toyPrims a
        (toyPublic a 1 1 (.commit ⟨[.proposal (.add (toyMember 3).pub)], some ⟨toyLeaf 0, []⟩⟩) [1]) toyLater
      decide (r.1 = .err) && decide (r.2.vtree ≠ a.vtree)) = true := by decide +kernel
  obtain ⟨⟨a, b, c⟩, ht, key⟩ := Res.holds_ok key
  obtain ⟨a1, h1, key⟩ := Res.holds_ok key
  simp only [Bool.and_eq_true, decide_eq_true_eq] at key
  have hr := (toyThree_reachable ht).1.after h1
  obtain ⟨sd, d0, s0, hsd, hv, hd0, h⟩ := C112_message toyPrims_correct hr
  have hp := (h _ _ _ (Prod.ext key.1 rfl)).2.2
  by_contra hno
  exact key.2 (hp fun ⟨r, hpr⟩ => hno ⟨a1, sd, d0, s0, _, r, hr, hsd, hv, key.1, hpr, key.2⟩)

/-- What is left behind, on a tree of three leaves with a parent node over the first two, for a proposed tree with the third leaf
removed, and for one with a new leaf under that parent. -/
example : Spec.leftBehind [some (.leaf (toyLeaf 0)), some (.parent (toyParent 0)), none, none, some (.leaf (toyLeaf 2))]
      [some (.leaf (toyLeaf 0)), some (.parent (toyParent 0)), none] =
    [some (.leaf (toyLeaf 0)), some (.parent (toyParent 0)), none, none, some (.leaf (toyLeaf 2))] ∧
    Spec.leftBehind [some (.leaf (toyLeaf 0)), some (.parent (toyParent 0)), none, none, some (.leaf (toyLeaf 2))]
      [some (.leaf (toyLeaf 0)), some (.parent { toyParent 0 with unmergedLeaves := [1] }), some (.leaf (toyLeaf 1)), none, some (.leaf (toyLeaf 2))] =
    [some (.leaf (toyLeaf 0)), some (.parent { toyParent 0 with unmergedLeaves := [1] }), none, none, some (.leaf (toyLeaf 2))] := by
  decide +kernel

/-- An invitation that leaves something behind in a reachable group. -/
example : toyThree.holds (fun (a, _, _) => (a.after (toyCommit a 1 1 [] (List.replicate 32 9) [])).holds fun a =>
    decide ((createWelcome toyPrims a [(toyMember 3).pub] default).2.vtree ≠ a.vtree)) = true := by decide +kernel

end Mls
