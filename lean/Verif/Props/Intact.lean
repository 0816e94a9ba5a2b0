import Verif.Proofs.Intact
import Verif.Props.Follow
/-
C74: parent hashes and unmerged leaves of the trees of groups.
-/
namespace Mls

open Spec (Ratchet nodeAt IsAncestor parentHashOf parentHashInput HashIn)
open Spec.Ratchet (addsOf updatesOf removesOf)

variable {pr : Prims}

/-- The parent hashes and the unmerged leaves of the tree of the group are right (Verif/Spec/Intact.lean). -/
def Spec.IntactGroup (pr : Prims) (st : GroupState) : Prop :=
  ∃ (sd : SuiteDesc) (d : Nat) (s : Ratchet ParentNode d), Mls.suite st.group.groupContext.cipherSuite = .ok sd ∧ d ≤ 31 ∧
    Spec.Intact (pr.hash sd.hash) st.vtree s

/-- Every Add among the proposals is that of a leaf node made for a key package or an update: one without a parent hash. -/
def Spec.FreshAdds (ps : List Proposal) : Prop := ∀ k, .add k ∈ ps → ∀ ph, k.leafNode.source ≠ .commit ph

theorem hash_short (hc : pr.Correct) (a : HashAlg) (x : Bytes) : ∃ y, Spec.opaqueVec (pr.hash a x) = some y := by
  have h1 := hc.hash_length a x
  have h2 := hash_size_lt a
  obtain ⟨bs, hb⟩ := varint_some_of_lt (n := (pr.hash a x).length) (by omega)
  exact ⟨_, by unfold Spec.opaqueVec; rw [hb]; rfl⟩

theorem hash_ne_nil (hc : pr.Correct) (a : HashAlg) (x : Bytes) : pr.hash a x ≠ [] := by
  intro h
  have h1 := hc.hash_length a x
  rw [h] at h1
  cases a <;> cases h1

theorem fresh_adds {H : Bytes → Bytes} (hH : ∀ x, H x ≠ []) {l : List (Proposal × UInt32)} (hf : Spec.FreshAdds (l.map (·.1))) :
    ∀ n ∈ addsOf (l.map fun p => p.1.low), ∀ x, parentHashOf (.leaf n) ≠ H x := by
  intro n hn x
  unfold addsOf at hn
  rw [List.mem_filterMap] at hn
  obtain ⟨p, hp, he⟩ := hn
  rw [List.mem_map] at hp
  obtain ⟨⟨p0, u⟩, hp0, rfl⟩ := hp
  cases p0 with
  | add k =>
    simp only [Proposal.low, Option.some.injEq] at he
    subst he
    have := hf k (List.mem_map.2 ⟨_, hp0, rfl⟩)
    unfold parentHashOf
    dsimp only
    split
    · next h hs => exact absurd hs (this h)
    · exact fun e => hH x e.symm
  | update | remove | psk | reInit | externalInit | groupContextExtensions => simp [Proposal.low] at he

theorem verifyAdds_fresh {ctx : GroupContext} {ps : List Proposal} (h : verifyAdds pr ctx ps = .ok ()) : Spec.FreshAdds ps := by
  induction ps with
  | nil => intro k hk; cases hk
  | cons p ps ih =>
    intro k hk ph
    cases p with
    | add k' =>
      unfold verifyAdds at h
      rw [Res.bind_ok_iff] at h
      obtain ⟨_, h1, h2⟩ := h
      rcases List.mem_cons.1 hk with hk | hk
      · cases hk
        unfold KeyPackage.verify at h1
        simp only [Res.bind_ok_iff, Res.guardErr_ok_iff, exists_const] at h1
        obtain ⟨_, _, h1, _⟩ := h1
        intro e
        unfold LeafNode.isKeyPackage at h1
        rw [e] at h1
        cases h1
      · exact ih h2 k hk ph
    | update | remove | psk | reInit | externalInit | groupContextExtensions =>
      unfold verifyAdds at h
      rcases List.mem_cons.1 hk with hk | hk
      · cases hk
      · exact ih h k hk ph

/-- The leaf nodes added by an accepted commit have no parent hash. -/
theorem C74_fresh {st st' : GroupState} {raw : Bytes} {now : GoTime} {r : Option Bytes} {a : AuthenticatedContent} {e : Bool} {c : Commit}
    (hca : Carries pr st raw a e) (hk : a.content.content = .commit c) (h : unmarshalAndProcessMessage pr st raw now = (.ok r, st'))
    {l : List (Proposal × UInt32)} (hl : Spec.resolve a.content.sender.leafIndex st.group.pendingProposals c.proposals = some l) :
    Spec.FreshAdds (l.map (·.1)) := by
  obtain ⟨l', _, _, h1, h2, _⟩ := accepted_commit hca hk h
  rw [hl, Option.some.injEq] at h1
  subst h1
  unfold checkProposals at h2
  simp only [Res.bind_ok_iff] at h2
  obtain ⟨⟨ps, ss⟩, _, _, _, _, h3, _, _, h4⟩ := h2
  have := (Prod.mk.inj (Res.ok.inj h4)).1
  dsimp only at h3 this
  rw [this] at h3
  exact verifyAdds_fresh h3

/-- An accepted commit leaves the parent hashes and the unmerged leaves right, unless its path is claimed from the wrong side. -/
theorem C74_commit (hc : pr.Correct) {st st' : GroupState} (hr : Reachable pr st) (hi : Spec.IntactGroup pr st) {raw : Bytes} {now : GoTime}
    {r : Option Bytes} {a : AuthenticatedContent} {e : Bool} {c : Commit} (hca : Carries pr st raw a e) (hk : a.content.content = .commit c)
    (h : unmarshalAndProcessMessage pr st raw now = (.ok r, st')) :
    Spec.IntactGroup pr st' ∨ (c.path ≠ none ∧ ∃ (sd : SuiteDesc) (d : Nat) (s' : Ratchet ParentNode d),
      suite st.group.groupContext.cipherSuite = .ok sd ∧ st'.vtree = s'.flat .leaf .parent ∧
      s'.Foreseen (pr.hash sd.hash) st'.vtree 0 0 (a.content.sender.leafIndex.toNat % 2 ^ 31)) := by
  obtain ⟨sd, l, d0, d, s0, s, s', th, sec, input, ctx, hsd, hl, ht, hth, _, hnext, _⟩ := C69_epoch hc hr hca hk h
  have hf := C74_fresh hca hk h hl
  obtain ⟨sd0, e0, s1, hsd0, he0, hint⟩ := hi
  rw [hsd, Res.ok.injEq] at hsd0
  subst hsd0
  have hdepth : e0 = d0 := by
    have hl := congrArg List.length (hint.array.symm.trans ht.before)
    rw [flat_length, flat_length] at hl
    have p1 : 0 < 2 ^ (e0 + 1) := Nat.two_pow_pos _
    have p2 : 0 < 2 ^ (d0 + 1) := Nat.two_pow_pos _
    have : 2 ^ (e0 + 1) = 2 ^ (d0 + 1) := by omega
    have := Nat.pow_right_injective (Nat.le_refl 2) this
    omega
  subst hdepth
  obtain rfl := flat_inj _ _ (hint.array.symm.trans ht.before)
  have hg : Good (pr.hash sd.hash) (some ⟨e0, s1⟩) := by
    rintro a ha
    cases ha
    exact (intact_iff he0 hint.array).1 hint
  have hap := ht.applied
  unfold Spec.applyProposals at hap
  have hs := good_all (fresh_adds (hash_ne_nil hc sd.hash) hf) hg ht.depth hap
  have hcs : st'.group.groupContext.cipherSuite = st.group.groupContext.cipherSuite := by
    have := (message_effect (pr := pr) st raw now).1.cipherSuite
    rw [h] at this
    exact this
  have hdone : s'.Recorded 0 → s'.Linked (pr.hash sd.hash) 0 → Spec.IntactGroup pr st' := fun h1 h2 =>
    ⟨sd, d, s', by rw [hcs]; exact hsd, ht.depth, (intact_iff ht.depth ht.after).2 ⟨h1, h2⟩⟩
  have hm := ht.merged
  cases hp : c.path with
  | none =>
    rw [hp] at hm
    dsimp only at hm
    subst hm
    exact .inl (hdone hs.1 hs.2)
  | some path =>
    rw [hp] at hm
    obtain ⟨_, hm⟩ := hm
    unfold Ratchet.mergePath at hm
    split at hm
    · next s2 ph hmerge =>
      split at hm
      · next hph =>
        cases hm
        have h1 := recorded_merge hmerge hs.1
        rcases linked_merge (hash_short hc sd.hash) hmerge hph hth hs.2 with h2 | h2
        · exact .inl (hdone h1 h2)
        · refine .inr ⟨by simp, sd, d, s', hsd, ht.after, ?_⟩
          have hat : VAt st'.vtree 0 s' := by rw [ht.after]; exact at_flat _ _ s'
          have hp : 2 ^ d ≤ 2 ^ 31 := Nat.pow_le_pow_right (by decide) ht.depth
          have := early_iff (H := pr.hash sd.hash) hat (by rw [Nat.zero_mul]; exact h1) (by omega) (a.content.sender.leafIndex.toNat % 2 ^ 31)
          rw [Nat.zero_mul, Nat.zero_mul] at this
          exact this.2 h2
      · cases hm
    · cases hm

/-- Accepted messages other than commits leave the tree as it is. -/
theorem C74_other {st st' : GroupState} {raw : Bytes} {now : GoTime} {r : Option Bytes} {a : AuthenticatedContent} {e : Bool}
    (hca : Carries pr st raw a e) (hk : ∀ c, a.content.content ≠ .commit c) (h : unmarshalAndProcessMessage pr st raw now = (.ok r, st')) :
    st'.vtree = st.vtree := by
  rw [upm_of_carries hca] at h
  unfold dispatch at h
  cases hcc : a.content.content with
  | commit c => exact absurd hcc (hk c)
  | proposal p =>
    rw [hcc] at h
    simp only [Prod.mk.injEq] at h
    rcases processProposal_cases (pr := pr) st a p hcc with ⟨ref, _, e⟩ | ⟨_, e⟩
    · rw [e] at h
      rw [← h.2]
      rfl
    · rw [e] at h
      rw [h.2]
  | application data =>
    rw [hcc] at h
    cases e
    · cases h
    · cases h
      rfl

/-- A group just created is intact. -/
theorem C74_create {id : Bytes} {kp : KeyPairPackage} {rand : Nat → UInt8} {st : GroupState} (h : createGroup pr id kp rand = .ok st) :
    Spec.IntactGroup pr st := by
  obtain ⟨sd, hsd⟩ := (createGroup_inv h).suite
  refine ⟨sd, 0, .leaf (some kp.pub.leafNode), hsd, by omega, (intact_iff (by omega) ?_).2 ⟨trivial, trivial⟩⟩
  unfold createGroup at h
  simp only [Res.bind_ok_iff] at h
  obtain ⟨⟨hp, t⟩, h1, pt, h2, _, _, d, h3, _, _, _, _, _, _, _, _, h⟩ := h
  have e : treeAdd [] [none] kp.pub.leafNode = .ok ([], [some (.leaf kp.pub.leafNode)]) := rfl
  rw [e] at h1
  cases h1
  cases h
  rfl

/-- Every unmerged leaf of the tree is a leaf that is not blank. -/
def Spec.Occupied (t : VTree) : Prop :=
  ∀ x p, nodeAt t x = some (.parent p) → ∀ li ∈ p.unmergedLeaves, li.toNat < 2 ^ 31 ∧ ∃ n, nodeAt t (2 * li.toNat) = some n

/-- A group just joined is intact, except that its tree may have blank unmerged leaves (C66_refuted). -/
theorem C74_join (hc : pr.Correct) {w : Welcome} {kp : KeyPairPackage} {now : GoTime} {st : GroupState}
    (h : groupFromWelcome pr w kp now = .ok st) (ho : Spec.Occupied st.vtree) : Spec.IntactGroup pr st := by
  obtain ⟨sd, d, hsd, hd, s, hv⟩ := C29_join hc h
  exact ⟨sd, d, s, hsd, by omega, ⟨hv.array, hv.parentHashes, hv.unmerged, ho⟩⟩

/-- What someone joining would check of the parent nodes holds in an intact group, and only in an intact group does everything hold that they
check, but for blank unmerged leaves. -/
theorem C74_checked (hc : pr.Correct) {st : GroupState} (hi : GroupInv pr st) {now : GoTime}
    (h : verifyIntegrity pr st.vtree st.group.groupContext now = .ok ()) (ho : Spec.Occupied st.vtree) : Spec.IntactGroup pr st := by
  obtain ⟨d, hd, hlen⟩ := hi.tree.complete
  have hlen' : st.vtree.length = 2 ^ (d + 1) - 1 := by
    unfold GroupState.vtree
    rw [derefTree_length, hlen]
  rw [C29_integrity hc hd hlen'] at h
  obtain ⟨sd, hsd, s, hv⟩ := h
  exact ⟨sd, d, s, hsd, hd, ⟨hv.array, hv.parentHashes, hv.unmerged, ho⟩⟩

/-- `st'` is the group `st` after messages that were all accepted, and whose update paths are not claimed from the wrong side. -/
inductive Spec.Follows (pr : Prims) (st : GroupState) : GroupState → Prop where
  | refl : Spec.Follows pr st st
  | message {st1 st2 : GroupState} {raw : Bytes} {now : GoTime} {r : Option Bytes} (hf : Spec.Follows pr st st1)
      (h : unmarshalAndProcessMessage pr st1 raw now = (.ok r, st2))
      (hpath : ∀ a e c sd d (s : Ratchet ParentNode d), Carries pr st1 raw a e → a.content.content = .commit c → c.path ≠ none →
        Mls.suite st1.group.groupContext.cipherSuite = .ok sd → st2.vtree = s.flat .leaf .parent →
        ¬ s.Foreseen (pr.hash sd.hash) st2.vtree 0 0 (a.content.sender.leafIndex.toNat % 2 ^ 31)) : Spec.Follows pr st st2

theorem Spec.Follows.reachable {st st' : GroupState} (hr : Reachable pr st) (h : Spec.Follows pr st st') : Reachable pr st' := by
  induction h with
  | refl => exact hr
  | message _ h _ ih => exact .message ih h (Res.fine_ok _)

/-- **C74.** The parent hashes and the unmerged leaves of the tree stay right through any accepted messages. -/
theorem C74_history (hc : pr.Correct) {st st' : GroupState} (hr : Reachable pr st) (hi : Spec.IntactGroup pr st) (h : Spec.Follows pr st st') :
    Spec.IntactGroup pr st' := by
  induction h with
  | refl => exact hi
  | @message st1 st2 raw now r hf h hpath ih =>
    have hr1 := hf.reachable hr
    obtain ⟨a, e, hca, hcases⟩ := accepted_cases h
    by_cases hcom : ∃ c, a.content.content = .commit c
    · obtain ⟨c, hk⟩ := hcom
      rcases C74_commit hc hr1 ih hca hk h with key | ⟨hp, sd, d, s', hsd, hv, key⟩
      · exact key
      · exact absurd key (hpath a e c sd d s' hca hk hp hsd hv)
    · have hv := C74_other hca (fun c hk => hcom ⟨c, hk⟩) h
      obtain ⟨sd, d, s, hsd, hd, hint⟩ := ih
      have hcs : st2.group.groupContext.cipherSuite = st1.group.groupContext.cipherSuite := by
        have := (message_effect (pr := pr) st1 raw now).1.cipherSuite
        rw [h] at this
        exact this
      exact ⟨sd, d, s, by rw [hcs]; exact hsd, hd, by rw [hv]; exact hint⟩

/-! ### Concrete cases -/

/-- Every unmerged leaf of the tree is a leaf that is not blank, as a test. -/
def toyOccupied (t : VTree) : Bool :=
  t.all fun o => match o with
    | some (.parent p) => p.unmergedLeaves.all fun li => decide (li.toNat < 2 ^ 31) && (nodeAt t (2 * li.toNat)).isSome
    | _ => true

theorem toyOccupied_spec {t : VTree} (h : toyOccupied t = true) : Spec.Occupied t := by
  intro x p hx li hli
  unfold toyOccupied at h
  rw [List.all_eq_true] at h
  have := h _ (List.mem_of_getElem? (nodeAt_some.1 hx))
  simp only [List.all_eq_true, Bool.and_eq_true, decide_eq_true_eq] at this
  obtain ⟨h1, h2⟩ := this li hli
  exact ⟨h1, Option.isSome_iff_exists.1 h2⟩

/-- The hypotheses of C74_history are met: a group joined by `1`, in which `0` commits with an update path, so that there are parent nodes, and then
adds a member, who is an unmerged leaf of the root. The group is intact at the end, so that the path of the first commit is not
foreseen. -/
theorem toyThree_intact : ∃ st st1 st2 raw1 raw2, Reachable toyPrims st ∧ Spec.IntactGroup toyPrims st ∧
    unmarshalAndProcessMessage toyPrims st raw1 toyLater = (.ok none, st1) ∧ unmarshalAndProcessMessage toyPrims st1 raw2 toyLater = (.ok none, st2) ∧
    Spec.IntactGroup toyPrims st1 ∧ Spec.IntactGroup toyPrims st2 ∧
    ∃ p, nodeAt st2.vtree 3 = some (.parent p) ∧ p.unmergedLeaves = [3] := by
  have key : toyThree.holds (fun (_, b, _) =>
      toyOccupied b.vtree &&
      let m1 := toyCommit b 0 0 [] (List.replicate 32 9) []
      (b.after m1).holds fun b1 =>
        let m2 := toyPublic b1 0 0 (.commit ⟨[.proposal (.add (toyMember 3).pub)], none⟩) [1]
        let m2 := toyPublic b1 0 0 (.commit ⟨[.proposal (.add (toyMember 3).pub)], none⟩) (b1.tagFor m2)
        (b1.after m2).holds fun b2 => decide ((unmarshalAndProcessMessage toyPrims b m1 toyLater).1 = .ok none) &&
          decide ((unmarshalAndProcessMessage toyPrims b1 m2 toyLater).1 = .ok none) &&
          decide (verifyIntegrity toyPrims b1.vtree b1.group.groupContext toyLater = .ok ()) && toyOccupied b1.vtree &&
          decide (verifyIntegrity toyPrims b2.vtree b2.group.groupContext toyLater = .ok ()) && toyOccupied b2.vtree &&
          (match nodeAt b2.vtree 3 with
          | some (.parent p) => decide (p.unmergedLeaves = [3])
          | _ => false)) = true := by
    decide +kernel
  obtain ⟨⟨a, b, c⟩, ht, key⟩ := Res.holds_ok key
  have hb := (toyThree_reachable ht).2.1
  have hj : ∃ w kp, groupFromWelcome toyPrims w kp toyLater = .ok b := by
    unfold toyThree at ht
    simp only [Res.bind_ok_iff] at ht
    obtain ⟨a0, h0, ⟨a1, w⟩, h1, b1, h2, c1, h3, h⟩ := ht
    cases h
    exact ⟨w, _, h2⟩
  clear ht
  simp only [Bool.and_eq_true] at key
  obtain ⟨k0, key⟩ := key
  generalize toyCommit b 0 0 [] (List.replicate 32 9) [] = m1 at key
  obtain ⟨b1, hb1, key⟩ := Res.holds_ok key
  generalize toyPublic b1 0 0 (.commit ⟨[.proposal (.add (toyMember 3).pub)], none⟩) _ = m2 at key
  obtain ⟨b2, hb2, key⟩ := Res.holds_ok key
  simp only [Bool.and_eq_true, decide_eq_true_eq] at key
  obtain ⟨⟨⟨⟨⟨⟨k1, k2⟩, k3⟩, k4⟩, k5⟩, k6⟩, k7⟩ := key
  obtain ⟨w, kp, hw⟩ := hj
  have e1 : unmarshalAndProcessMessage toyPrims b m1 toyLater = (.ok none, b1) := by
    unfold GroupState.after at hb1
    split at hb1 <;> try cases hb1
    next r _ hm =>
    rw [hm] at k1 ⊢
    cases k1
    rfl
  have e2 : unmarshalAndProcessMessage toyPrims b1 m2 toyLater = (.ok none, b2) := by
    unfold GroupState.after at hb2
    split at hb2 <;> try cases hb2
    next r _ hm =>
    rw [hm] at k2 ⊢
    cases k2
    rfl
  have hr1 : Reachable toyPrims b1 := .message hb e1 (Res.fine_ok _)
  have hr2 : Reachable toyPrims b2 := .message hr1 e2 (Res.fine_ok _)
  refine ⟨b, b1, b2, m1, m2, hb, C74_join toyPrims_correct hw (toyOccupied_spec k0), e1, e2,
    C74_checked toyPrims_correct (hr1.inv toyPrims_correct) k3 (toyOccupied_spec k4),
    C74_checked toyPrims_correct (hr2.inv toyPrims_correct) k5 (toyOccupied_spec k6), ?_⟩
  split at k7
  · next p hp => exact ⟨p, hp, of_decide_eq_true k7⟩
  · cases k7

end Mls
