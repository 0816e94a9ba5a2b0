import Verif.Proofs.FineTree
/-
Which calls can panic: applying proposals and commits.
-/
namespace Mls

open Spec (Ratchet nodeAt IsAncestor)
open Spec.Ratchet (addOpt addsOf removesOf updatesOf)

variable {pr : Prims}

/-! ### The leaves through the proposals -/

/-- The leaf with this index is in use. -/
def Member (t : RTree) (j : Nat) : Prop := ∃ l, t[2 * j]? = some (some (.leaf l))

theorem Member.lt {t : RTree} {j : Nat} (h : Member t j) : 2 * j < t.length := by
  obtain ⟨l, h⟩ := h
  exact (List.getElem?_eq_some_iff.1 h).1

theorem member_iff {h : Heap} {t : RTree} {j : Nat} : Member t j ↔ ∃ l, nodeAt (derefTree h t) (2 * j) = some (.leaf l) := by
  unfold Member
  simp only [nodeAt_some, derefTree_leaf]

theorem not_over_even {i j : Nat} : ¬ Over i (2 * j) := fun h => by have := h.odd; omega

theorem member_of_getLeaf {h : Heap} {t : RTree} {i : Nat} {l : LeafNode} (hg : getLeaf (derefTree h t) i = .ok (some l)) :
    Member t (i % 2 ^ 31) := by
  rw [getLeaf_mod, getLeaf_ok_some_iff, nodeOfLeaf_idx (Nat.mod_lt _ (by decide)), idx_zero, derefTree_leaf] at hg
  exact ⟨l, hg⟩

theorem Member.getLeaf {h : Heap} {t : RTree} {i : Nat} (hm : Member t i) (hi : i < 2 ^ 31) :
    ∃ l, getLeaf (derefTree h t) i = .ok (some l) := by
  obtain ⟨l, hl⟩ := hm
  refine ⟨l, ?_⟩
  rw [getLeaf_ok_some_iff, nodeOfLeaf_idx hi, idx_zero, derefTree_leaf]
  exact hl

theorem Member.update {h : Heap} {t : RTree} (hv : ValidTree h t) {s : Nat} (hs : Member t (s % 2 ^ 31)) (leaf : LeafNode) :
    ∃ t', treeUpdate t s leaf = .ok t' ∧ ValidTree h t' ∧ t'.length = t.length ∧ ∀ j, Member t j → Member t' j := by
  obtain ⟨t', d, h1, h2, h3, h4, h5, -, h7⟩ := C23_update hv hs.lt leaf
  refine ⟨t', by rw [treeUpdate_mod]; exact h1, h2, h3, fun j hj => ?_⟩
  by_cases hji : j = s % 2 ^ 31
  · exact (member_iff (h := h)).2 ⟨leaf, hji ▸ h5⟩
  · rw [member_iff (h := h)] at hj ⊢
    have hsd : s % 2 ^ 31 < 2 ^ d := by
      have := hs.lt
      rw [h4, Nat.pow_succ] at this
      omega
    rw [h7 (2 * j) (by omega) fun ha => not_over_even (IsAncestor.over hsd ha)]
    exact hj

theorem Member.remove {h : Heap} {t : RTree} (hv : ValidTree h t) {i c : Nat} (hi : Member t i) (hi' : i < 2 ^ 31) (hc : Member t c)
    (hic : i ≠ c) :
    ∃ t', treeRemove t i = .ok t' ∧ ValidTree h t' ∧ t'.length ≤ t.length ∧ ∀ j, j ≠ i → Member t j → Member t' j := by
  obtain ⟨t', d, h1, h2, h3, h4, -, -, h5, -⟩ := C22_remove hv hi.lt
  have hk : ∀ j, j ≠ i → Member t j → Member t' j := by
    intro j hji hj
    rw [member_iff (h := h)] at hj ⊢
    rw [h5 j hji]
    exact hj
  refine ⟨t', h1, ?_, h4, hk⟩
  rcases h2 with rfl | h2
  · have := (hk c (Ne.symm hic) hc).lt
    simp at this
  · exact h2

theorem Member.add {h h' : Heap} {t t' : RTree} (hv : ValidTree h t) {leaf : LeafNode} (hr : treeAdd h t leaf = .ok (h', t')) {j : Nat}
    (hj : Member t j) : Member t' j ∧ ValidTree h' t' := by
  have hroom : t.length < 2 ^ 32 - 1 ∨ ∃ i, t[2 * i]? = some none := by
    by_contra hn
    push Not at hn
    obtain ⟨d, hd, hl⟩ := hv.complete
    have : 2 ^ (d + 1) ≤ 2 ^ 32 := Nat.pow_le_pow_right (by decide) (by omega)
    rw [C21_full_hang hv (by omega) hn.2] at hr
    cases hr
  obtain ⟨h1, t1, i, d, e, h2, h3, h4, h5, h6, h7, h8, -, h9⟩ := C21_add hv leaf hroom
  rw [e] at hr
  cases hr
  refine ⟨?_, h2⟩
  rw [member_iff (h := h)] at hj
  rw [member_iff (h := h')]
  have hne : 2 * j ≠ 2 * i := by
    intro he
    obtain ⟨l, hl⟩ := hj
    rw [he, h4] at hl
    cases hl
  rw [h9 _ hne fun ha => not_over_even (IsAncestor.over h7 ha)]
  exact hj

theorem applyUpdates_total {h : Heap} {ss : List UInt32} : ∀ (ps : List Proposal) (k : Nat) (t : RTree), ValidTree h t →
    k + ps.length = ss.length → (∀ (i : Nat) l, ps[i]? = some (.update l) → ∀ s, ss[k + i]? = some s → Member t (s.toNat % 2 ^ 31)) →
    ∃ t', applyUpdates ss k ps t = .ok t' ∧ ValidTree h t' ∧ t'.length = t.length ∧ ∀ j, Member t j → Member t' j := by
  intro ps
  induction ps with
  | nil => intro k t hv _ _; exact ⟨t, rfl, hv, rfl, fun _ h => h⟩
  | cons p ps ih =>
    intro k t hv hl hu
    have hl' : k + 1 + ps.length = ss.length := by simp at hl; omega
    have hu' : ∀ (i : Nat) l, ps[i]? = some (.update l) → ∀ s, ss[k + 1 + i]? = some s → Member t (s.toNat % 2 ^ 31) :=
      fun i l hi s hs => hu (i + 1) l (by simpa using hi) s (by rw [← hs]; congr 1; omega)
    cases p with
    | update leaf =>
      have hk : k < ss.length := by simp at hl; omega
      obtain ⟨t1, h1, h2, h3, h4⟩ := Member.update hv (hu 0 leaf rfl ss[k] (List.getElem?_eq_getElem hk)) leaf
      obtain ⟨t', e, h5, h6, h7⟩ := ih (k + 1) t1 h2 hl' fun i l hi s hs => h4 _ (hu' i l hi s hs)
      refine ⟨t', ?_, h5, h6.trans h3, fun j hj => h7 j (h4 j hj)⟩
      simp only [applyUpdates]
      rw [Res.idx_of_lt hk, Res.ok_bind, h1, Res.ok_bind]
      exact e
    | add | remove | psk | reInit | externalInit | groupContextExtensions => exact ih (k + 1) t hv hl' hu'

theorem applyRemoves_total {h : Heap} {c : Nat} : ∀ (ps : List Proposal) (t : RTree), ValidTree h t → Member t c →
    (removesOf ps).Nodup → (∀ li ∈ removesOf ps, li.toNat < 2 ^ 31 ∧ li.toNat ≠ c ∧ Member t li.toNat) →
    ∃ t', applyRemoves ps t = .ok t' ∧ ValidTree h t' ∧ t'.length ≤ t.length ∧ Member t' c := by
  intro ps
  induction ps with
  | nil => intro t hv hc _ _; exact ⟨t, rfl, hv, Nat.le_refl _, hc⟩
  | cons p ps ih =>
    intro t hv hc hn hm
    cases p with
    | remove li =>
      have hn' : li ∉ removesOf ps ∧ (removesOf ps).Nodup := List.nodup_cons.1 hn
      have hm' : ∀ lj ∈ removesOf ps, lj.toNat < 2 ^ 31 ∧ lj.toNat ≠ c ∧ Member t lj.toNat :=
        fun lj hj => hm lj (List.mem_cons_of_mem _ hj)
      obtain ⟨a1, a2, a3⟩ := hm li (List.mem_cons_self ..)
      obtain ⟨t1, h1, h2, h3, h4⟩ := Member.remove hv a3 a1 hc a2
      obtain ⟨t', e, h5, h6, h7⟩ := ih t1 h2 (h4 c (Ne.symm a2) hc) hn'.2 fun lj hj =>
        ⟨(hm' lj hj).1, (hm' lj hj).2.1, h4 _ (fun he => hn'.1 (UInt32.toNat_inj.1 he ▸ hj)) (hm' lj hj).2.2⟩
      refine ⟨t', ?_, h5, h6.trans h3, h7⟩
      simp only [applyRemoves]
      rw [h1, Res.ok_bind]
      exact e
    | add | update | psk | reInit | externalInit | groupContextExtensions => exact ih t hv hc hn hm

theorem size_bound {P : Type} {d : Nat} (s : Ratchet P d) : s.size ≤ 2 ^ d := by
  rw [← leaves_length s]
  exact List.length_filterMap_le _ _

/-- There is room for as many leaves as indices exist. -/
theorem small_adds : ∀ (ns : List LeafNode) (a : Ratchet.Any ParentNode), a.1 ≤ 31 → a.2.size + ns.length ≤ 2 ^ 31 →
    Small (ns.foldl (fun t n => some (addOpt t n)) (some a)) := by
  intro ns
  induction ns with
  | nil => intro a ha _; exact ha
  | cons n ns ih =>
    rintro ⟨d, s⟩ ha hl
    simp only [List.length_cons] at hl
    have hd : (s.add n).1 ≤ 31 := by
      rcases add_eq_alongPath s n with ⟨hb, h⟩ | ⟨i, _, h⟩
      · rw [h]
        have := size_le s hb
        rw [this] at hl
        show d + 1 ≤ 31
        by_contra hd
        have : 2 ^ 31 ≤ 2 ^ d := Nat.pow_le_pow_right (by decide) (by omega)
        omega
      · rw [h]
        exact ha
    refine ih (s.add n) hd ?_
    rw [size_add]
    omega

theorem applyAdds_member {c : Nat} : ∀ (ps : List Proposal) (h h' : Heap) (t t' : RTree), ValidTree h t → Member t c →
    applyAdds ps h t = .ok (h', t') → ValidTree h' t' ∧ Member t' c := by
  intro ps
  induction ps with
  | nil => intro h h' t t' hv hm hr; simp only [applyAdds] at hr; cases hr; exact ⟨hv, hm⟩
  | cons p ps ih =>
    intro h h' t t' hv hm hr
    cases p with
    | add k =>
      simp only [applyAdds, Res.bind_ok_iff] at hr
      obtain ⟨⟨h1, t1⟩, h2, hr⟩ := hr
      obtain ⟨m1, v1⟩ := Member.add hv h2 hm
      exact ih _ _ _ _ v1 m1 hr
    | remove | update | psk | reInit | externalInit | groupContextExtensions => exact ih _ _ _ _ hv hm hr

/-- Applying proposals that name leaves in use, each removed leaf once and not the committer's, to a
tree with room. -/
theorem treeApply_total {h : Heap} {t : RTree} (hv : ValidTree h t) {ps : List Proposal} {ss : List UInt32} {c : Nat}
    (hl : ps.length = ss.length) (hc : Member t c)
    (hu : ∀ (i : Nat) l, ps[i]? = some (.update l) → ∀ s, ss[i]? = some s → Member t (s.toNat % 2 ^ 31))
    (hn : (removesOf ps).Nodup) (hr : ∀ li ∈ removesOf ps, li.toNat < 2 ^ 31 ∧ li.toNat ≠ c ∧ Member t li.toNat)
    (hroom : t.length < 2 ^ 31) (hfew : ps.length ≤ 2 ^ 30) :
    ∃ h' t', treeApply h t ps ss = .ok (h', t') ∧ ValidTree h' t' ∧ Member t' c := by
  obtain ⟨t1, e1, v1, l1, m1⟩ := applyUpdates_total (h := h) (ss := ss) ps 0 t hv (by omega) (by simpa using hu)
  obtain ⟨t2, e2, v2, l2, m2⟩ := applyRemoves_total ps t1 v1 (m1 c hc) hn fun li hli =>
    ⟨(hr li hli).1, (hr li hli).2.1, m1 _ (hr li hli).2.2⟩
  obtain ⟨d, hd, s, hs⟩ := v2.holds
  have hd30 : d ≤ 30 := by
    have := hs.length
    by_contra hd
    have : 2 ^ 32 ≤ 2 ^ (d + 1) := Nat.pow_le_pow_right (by decide) (by omega)
    omega
  have hsz := size_bound s
  have hp : 2 ^ d ≤ 2 ^ 30 := Nat.pow_le_pow_right (by decide) hd30
  have hadds : (addsOf ps).length ≤ ps.length := List.length_filterMap_le _ _
  rcases applyAdds_spec ps h t2 (some ⟨d, s⟩) hd hs with ⟨h', t', e, -, -⟩ | ⟨-, hns⟩
  · obtain ⟨v3, m3⟩ := applyAdds_member ps _ _ _ _ v2 m2 e
    refine ⟨h', t', ?_, v3, m3⟩
    unfold treeApply
    rw [e1, Res.ok_bind, e2, Res.ok_bind]
    exact e
  · exact absurd (small_adds (addsOf ps) ⟨d, s⟩ hd (by show s.size + _ ≤ _; omega)) hns

/-! ### The proposals of a commit -/

theorem resolveProposals_spec {c : UInt32} {pending : List PendingProposal} : ∀ (l : List ProposalOrRef) (ps : List Proposal)
    (ss : List UInt32), resolveProposals c pending l = .ok (ps, ss) → ps.length = l.length ∧ ss.length = l.length ∧
      ∀ (i : Nat) p s, ps[i]? = some p → ss[i]? = some s → (.proposal p ∈ l ∧ s = c) ∨
        ∃ pp ∈ pending, .reference pp.ref ∈ l ∧ p = pp.proposal ∧ s = pp.sender := by
  intro l
  induction l with
  | nil => intro ps ss h; simp only [resolveProposals] at h; cases h; simp
  | cons x l ih =>
    intro ps ss h
    cases x with
    | proposal q =>
      simp only [resolveProposals, Res.bind_ok_iff] at h
      obtain ⟨⟨ps1, ss1⟩, h1, h⟩ := h
      cases h
      obtain ⟨a, b, d⟩ := ih _ _ h1
      refine ⟨by simp [a], by simp [b], fun i p s hp hs => ?_⟩
      cases i with
      | zero =>
        simp only [List.getElem?_cons_zero, Option.some.injEq] at hp hs
        exact .inl ⟨by simp [hp], hs.symm⟩
      | succ i =>
        rcases d i p s (by simpa using hp) (by simpa using hs) with ⟨h1, h2⟩ | ⟨pp, h1, h2, h3⟩
        · exact .inl ⟨List.mem_cons_of_mem _ h1, h2⟩
        · exact .inr ⟨pp, h1, List.mem_cons_of_mem _ h2, h3⟩
    | reference r =>
      simp only [resolveProposals] at h
      split at h
      · cases h
      · next pp hf =>
        simp only [Res.bind_ok_iff] at h
        obtain ⟨⟨ps1, ss1⟩, h1, h⟩ := h
        cases h
        obtain ⟨a, b, d⟩ := ih _ _ h1
        refine ⟨by simp [a], by simp [b], fun i p s hp hs => ?_⟩
        cases i with
        | zero =>
          simp only [List.getElem?_cons_zero, Option.some.injEq] at hp hs
          have hr := List.find?_some hf
          simp only [beq_iff_eq] at hr
          exact .inr ⟨pp, List.mem_of_find?_eq_some hf, by simp [hr], hp.symm, hs.symm⟩
        | succ i =>
          rcases d i p s (by simpa using hp) (by simpa using hs) with ⟨h1, h2⟩ | ⟨pp, h1, h2, h3⟩
          · exact .inl ⟨List.mem_cons_of_mem _ h1, h2⟩
          · exact .inr ⟨pp, h1, List.mem_cons_of_mem _ h2, h3⟩

theorem resolveProposals_fine (c : UInt32) (pending : List PendingProposal) (l : List ProposalOrRef) :
    (resolveProposals c pending l).Fine := by
  rw [resolveProposals_eq]
  exact fine_orErr _

/-- The leaves removed are among those that updates and removes are about. -/
theorem removesOf_sublist : ∀ (ps : List Proposal) (ss : List UInt32), ps.length = ss.length →
    (removesOf ps).Sublist ((ps.zip ss).filterMap Spec.target) := by
  intro ps
  induction ps with
  | nil => intro ss _; simp [removesOf]
  | cons p ps ih =>
    intro ss hl
    cases ss with
    | nil => simp at hl
    | cons s ss =>
      have := ih ss (by simpa using hl)
      cases p with
      | remove li => exact this.cons_cons li
      | update n => exact this.cons s
      | add | psk | reInit | externalInit | groupContextExtensions => exact this

theorem verifyProposalList_removes {ps : List Proposal} {ss : List UInt32} {c : UInt32} (hl : ps.length = ss.length)
    (h : verifyProposalList ps ss c = .ok ()) : (removesOf ps).Nodup ∧ c ∉ removesOf ps := by
  unfold verifyProposalList at h
  rw [if_neg (by omega), verifyProposalLoop_iff _ _ _ _ _ hl] at h
  have hs := removesOf_sublist ps ss hl
  exact ⟨hs.nodup h.targets, fun hm => h.committer (hs.subset hm)⟩

theorem verifyAdds_fine {ctx : GroupContext} {sd : SuiteDesc} (hd : suite ctx.cipherSuite = .ok sd) : ∀ (ps : List Proposal),
    (∀ p ∈ ps, p.Known) → (∀ k, .add k ∈ ps → Spec.Readable pr ctx.cipherSuite k.leafNode.signatureKey) → (verifyAdds pr ctx ps).Fine := by
  intro ps
  induction ps with
  | nil => intro _ _; exact Res.fine_ok _
  | cons p ps ih =>
    intro hk hr
    have ih' := ih (fun q hq => hk q (List.mem_cons_of_mem _ hq)) fun k hm => hr k (List.mem_cons_of_mem _ hm)
    cases p with
    | add k => exact (keyPackage_verify_fine hd (hk (.add k) (List.mem_cons_self ..)) (hr k (List.mem_cons_self ..))).bind fun _ _ => ih'
    | update | remove | psk | reInit | externalInit | groupContextExtensions => exact ih'

/-- A leaf a commit removes, with a proposal of its own or one it refers to. -/
def Spec.Removes (st : GroupState) (c : Commit) (li : UInt32) : Prop :=
  .proposal (.remove li) ∈ c.proposals ∨
    ∃ pp ∈ st.group.pendingProposals, .reference pp.ref ∈ c.proposals ∧ pp.proposal = .remove li

/-- A key package a commit adds, with a proposal of its own or one it refers to. -/
def Spec.AddsPackage (st : GroupState) (c : Commit) (k : KeyPackage) : Prop :=
  .proposal (.add k) ∈ c.proposals ∨
    ∃ pp ∈ st.group.pendingProposals, .reference pp.ref ∈ c.proposals ∧ pp.proposal = .add k

/-- The signature keys that processing a commit has to read. -/
structure Spec.ReadableCommit (pr : Prims) (st : GroupState) (c : Commit) : Prop where
  adds : ∀ k, Spec.AddsPackage st c k → Spec.Readable pr st.group.groupContext.cipherSuite k.leafNode.signatureKey
  path : ∀ p, c.path = some p → Spec.Readable pr st.group.groupContext.cipherSuite p.leafNode.signatureKey

/-- What else holds of a group in use: its leaves and pending proposals can be written, and the
senders of the pending proposals are members. -/
structure FineInv (st : GroupState) : Prop where
  leaves : KnownLeaves st.group.tree
  pending : ∀ pp ∈ st.group.pendingProposals, pp.proposal.Known ∧ Member st.group.tree (pp.sender.toNat % 2 ^ 31)

/-- The proposals of a commit, once checked, can be applied. -/
structure Applicable (st : GroupState) (c : UInt32) (ps : List Proposal) (ss : List UInt32) : Prop where
  known : ∀ p ∈ ps, p.Known
  total : ∃ h t, treeApply st.heap st.group.tree ps ss = .ok (h, t) ∧ ValidTree h t ∧ Member t c.toNat

theorem checkProposals_fine {st : GroupState} {sd : SuiteDesc} (hsd : suite st.group.groupContext.cipherSuite = .ok sd)
    (hf : FineInv st) (c : UInt32) {k : Commit} (hk : k.Known) (hread : Spec.ReadableCommit pr st k) :
    (checkProposals pr st.group c k).Fine := by
  unfold checkProposals
  refine (resolveProposals_fine _ _ _).bind fun x hx => ?_
  obtain ⟨ps, ss⟩ := x
  obtain ⟨h1, h2, h3⟩ := resolveProposals_spec _ _ _ hx
  have hl : ps.length = ss.length := by omega
  refine Res.Fine.bind ?_ fun _ _ => (verifyAdds_fine hsd ps ?_ ?_).bind fun _ _ => (Res.fine_guardErr _).bind fun _ _ => Res.fine_ok _
  · rcases C32_total ps ss c hl with h | h <;> rw [h]
    · exact Res.fine_ok _
    · exact Res.fine_err
  · intro p hp
    obtain ⟨i, hi, rfl⟩ := List.mem_iff_getElem.1 hp
    rcases h3 i ps[i] ss[i] (List.getElem?_eq_getElem _) (List.getElem?_eq_getElem _) with ⟨h, _⟩ | ⟨pp, h, _, h', _⟩
    · exact hk.proposals _ h
    · rw [h']; exact (hf.pending pp h).1
  · intro kp hp
    obtain ⟨i, hi, he⟩ := List.mem_iff_getElem.1 hp
    rcases h3 i ps[i] ss[i] (List.getElem?_eq_getElem _) (List.getElem?_eq_getElem _) with ⟨h, _⟩ | ⟨pp, h, hm, h', _⟩
    · exact hread.adds kp (.inl (he ▸ h))
    · exact hread.adds kp (.inr ⟨pp, h, hm, h'.symm.trans he⟩)

theorem checkProposals_known {st : GroupState} (hf : FineInv st) {c : UInt32} {k : Commit} (hk : k.Known) {ps : List Proposal}
    {ss : List UInt32} (h : checkProposals pr st.group c k = .ok (ps, ss)) : ∀ p ∈ ps, p.Known := by
  unfold checkProposals at h
  simp only [Res.bind_ok_iff] at h
  obtain ⟨⟨ps', ss'⟩, hx, _, _, _, _, _, _, he⟩ := h
  have he' : ps' = ps ∧ ss' = ss := Prod.mk.inj (Res.ok.inj he)
  clear he
  obtain ⟨e1, e2⟩ := he'
  subst ps' ss'
  obtain ⟨h1, h2, h3⟩ := resolveProposals_spec _ _ _ hx
  intro p hp
  obtain ⟨i, hi, rfl⟩ := List.mem_iff_getElem.1 hp
  rcases h3 i ps[i] (ss[i]'(by omega)) (List.getElem?_eq_getElem _) (List.getElem?_eq_getElem _) with ⟨h, _⟩ | ⟨pp, h, _, h', _⟩
  · exact hk.proposals _ h
  · rw [h']; exact (hf.pending pp h).1

theorem checkProposals_applicable {st : GroupState} (hv : ValidTree st.heap st.group.tree) (hf : FineInv st) {c : UInt32}
    {k : Commit} (hk : k.Known) (hc : Member st.group.tree c.toNat) (hr : ∀ li, Spec.Removes st k li → li.toNat < 2 ^ 31 ∧ Member st.group.tree li.toNat)
    (hroom : st.group.tree.length < 2 ^ 31) (hfew : k.proposals.length < 2 ^ 30) {ps : List Proposal} {ss : List UInt32}
    (h : checkProposals pr st.group c k = .ok (ps, ss)) : Applicable st c ps ss := by
  have h0 := h
  unfold checkProposals at h
  simp only [Res.bind_ok_iff] at h
  obtain ⟨⟨ps', ss'⟩, hx, _, hvp, _, _, _, _, he⟩ := h
  have he' : ps' = ps ∧ ss' = ss := Prod.mk.inj (Res.ok.inj he)
  clear he
  obtain ⟨e1, e2⟩ := he'
  subst ps' ss'
  obtain ⟨h1, h2, h3⟩ := resolveProposals_spec _ _ _ hx
  have hl : ps.length = ss.length := by omega
  have hmem : ∀ p ∈ ps, .proposal p ∈ k.proposals ∨
      ∃ pp ∈ st.group.pendingProposals, .reference pp.ref ∈ k.proposals ∧ pp.proposal = p := by
    intro p hp
    obtain ⟨i, hi, rfl⟩ := List.mem_iff_getElem.1 hp
    rcases h3 i ps[i] ss[i] (List.getElem?_eq_getElem _) (List.getElem?_eq_getElem _) with ⟨h, _⟩ | ⟨pp, h, hm, h', _⟩
    · exact .inl h
    · exact .inr ⟨pp, h, hm, h'.symm⟩
  have hkn := checkProposals_known hf hk h0
  have hc31 : c.toNat < 2 ^ 31 := by
    have := hc.lt
    obtain ⟨d, hd, hl⟩ := hv.complete
    have : 2 ^ (d + 1) ≤ 2 ^ 32 := Nat.pow_le_pow_right (by decide) (by omega)
    omega
  obtain ⟨hn, hcr⟩ := verifyProposalList_removes hl hvp
  refine ⟨hkn, treeApply_total hv hl hc (fun i l hi s hs => ?_) hn (fun li hli => ?_) hroom (by omega)⟩
  · rcases h3 i _ s hi hs with ⟨_, rfl⟩ | ⟨pp, h, _, _, rfl⟩
    · rw [Nat.mod_eq_of_lt hc31]
      exact hc
    · exact (hf.pending pp h).2
  · have hrem : Spec.Removes st k li := by
      unfold removesOf at hli
      rw [List.mem_filterMap] at hli
      obtain ⟨p, hp, he⟩ := hli
      cases p with
      | remove lj =>
        cases he
        exact hmem _ hp
      | add | update | psk | reInit | externalInit | groupContextExtensions => cases he
    obtain ⟨a, b⟩ := hr li hrem
    exact ⟨a, fun he => hcr (UInt32.toNat_inj.1 he ▸ hli), b⟩

/-! ### The update path and the next epoch -/

theorem commitPath_fine (hc : pr.Correct) {st : GroupState} (hi : GroupInv pr st) (hsup : supported st.group.groupContext.cipherSuite = .ok true)
    {ps : List Proposal} {ss : List UInt32} {h : Heap} {t : RTree} (ht : treeApply st.heap st.group.tree ps ss = .ok (h, t))
    (hv : ValidTree h t) (hkn : KnownLeaves t) {newCtx : GroupContext} {c : UInt32} (hm : Member t c.toNat) {pt : List (Option Bytes)}
    (hpt : pt.length = t.length) {path : UpdatePath} (hp : path.leafNode.credential.Known)
    (hread : Spec.Readable pr st.group.groupContext.cipherSuite path.leafNode.signatureKey) (now : GoTime) :
    (commitPath pr st.group.groupContext newCtx h t c st.group.myLeafIndex pt path now).Fine := by
  obtain ⟨sd, hsd⟩ := hi.suite
  have hsh := Shaped.of hv hkn
  have htree := hsh.isTree h
  have hlt := hm.lt
  have hc31 : c.toNat < 2 ^ 31 := by
    obtain ⟨d, hd, hl⟩ := hv.complete
    have : 2 ^ (d + 1) ≤ 2 ^ 32 := Nat.pow_le_pow_right (by decide) (by omega)
    omega
  have hnl : nodeOfLeaf c.toNat < t.length := by rw [nodeOfLeaf_idx hc31, idx_zero]; exact hlt
  obtain ⟨l, hl⟩ := hm.getLeaf (h := h) hc31
  unfold commitPath
  refine (Res.fine_guardErr _).bind fun _ _ => ?_
  dsimp only
  rw [hl, Res.ok_bind]
  refine (treeKeys_fine htree).bind fun _ _ => (Res.fine_ok _).bind fun _ _ => (supportedCreds_fine htree).bind fun _ _ =>
    (leafNode_verify_fine hsd hp hread rfl).bind fun _ _ => (Res.fine_guardErr _).bind fun _ _ =>
    (mergeUpdatePath_fine hsd hsh h hnl path).bind fun x hx => ?_
  obtain ⟨h', t'⟩ := x
  have hkn' : KnownLeaves t' := hkn.merge hc ⟨sd, hsd⟩ hv hlt hp hx
  obtain ⟨d, s, s', hpm⟩ := path_merged hc ⟨sd, hsd⟩ hv hlt hx
  have hv' := hpm.after.valid hpm.depth
  dsimp only
  refine (computeRootTreeHash_fine hsd ((Shaped.of hv' hkn').isTree h') (hkn'.deref h')).bind fun th _ => ?_
  refine Res.Fine.bind ?_ fun _ _ => Res.fine_ok _
  obtain ⟨-, hs, hu⟩ := treeApply_effect (.inr hi.tree) ht
  have hg := treeApply_grown ht
  have hn := fun {x q} => applied_nodes (x := x) (q := q) hi.tree.owned hs hg hu
  have hlen := hpm.before.length
  have hlen' := hpm.after.length
  refine decryptPathSecrets_fine hc hsd hsup hpm.depth hpm.sender hi.own_lt hpm.after.flat (fun x q hq u hu' => ?_) (fun x hx => ?_) _ path
    (by rw [derefTree_length]; omega)
  · by_cases ha : IsAncestor d c.toNat x
    · by_cases hF : x ∈ s'.filteredPath 0 c.toNat
      · obtain ⟨e, he, hxe⟩ := List.mem_iff_getElem.1 hF
        obtain ⟨ph, hnode⟩ := hpm.onPath e x (path.nodes[e]'(by rw [← hpm.length]; exact he))
          (by rw [List.getElem?_eq_getElem he, hxe]) (List.getElem?_eq_getElem _)
        rw [hq] at hnode
        cases hnode
        simp at hu'
      · have := hpm.blanked x ha hF
        rw [hq] at this
        cases this
    · have hne : x ≠ 2 * c.toNat := by
        rintro rfl
        rw [hpm.newLeaf] at hq
        cases hq
      rw [hpm.offPath x hne ha] at hq
      obtain ⟨q0, g1, _, g3⟩ := hn hq
      rcases g3 u hu' with hm' | hm'
      · exact hi.unmerged x q0 g1 u hm'
      · exact hm'
  · obtain ⟨e, he, hxe⟩ := List.mem_iff_getElem.1 hx
    obtain ⟨ph, hnode⟩ := hpm.onPath e x (path.nodes[e]'(by rw [← hpm.length]; exact he))
      (by rw [List.getElem?_eq_getElem he, hxe]) (List.getElem?_eq_getElem _)
    exact ⟨_, hnode⟩

theorem finishCommit_fine (hc : pr.Correct) {st : GroupState} (hi : GroupInv pr st) (hf : FineInv st)
    (hsup : supported st.group.groupContext.cipherSuite = .ok true) {a : AuthenticatedContent} {k : Commit} (hak : a.content.content = .commit k)
    (hk : k.Known) (hread : Spec.ReadableCommit pr st k) {ps : List Proposal} {ss : List UInt32} (hps : ∀ p ∈ ps, p.Known) {h : Heap} {t : RTree}
    (ht : treeApply st.heap st.group.tree ps ss = .ok (h, t)) (hv : ValidTree h t) (hm : Member t a.content.sender.leafIndex.toNat)
    (now : GoTime) : (finishCommit pr st.group h t a k [] [] now).Fine := by
  obtain ⟨sd, hsd⟩ := hi.suite
  have hkn := hf.leaves.apply hps ht
  obtain ⟨pt, hpt⟩ := copyPrivTree_total (b := t.length) hi.length
  have hptl := (copyPrivTree_ok hpt).1
  unfold finishCommit
  rw [hpt, Res.ok_bind, hsd, Res.ok_bind]
  cases hpath : k.path with
  | none =>
    dsimp only
    refine (Res.Fine.bind (computeRootTreeHash_fine hsd ((Shaped.of hv hkn).isTree h) (hkn.deref h)) fun _ _ => Res.fine_ok _).bind
      fun x hx => ?_
    simp only [Res.bind_ok_iff] at hx
    obtain ⟨th, _, hx⟩ := hx
    cases hx
    dsimp only
    refine (confirmedTranscriptHash_fine hsd (by rw [hak]; exact hk) _ _ _).bind fun _ _ => (nextInterim_fine hsd _ _).bind fun _ _ => ?_
    refine (extractJoinerSecret_fine (d := sd) (by dsimp only; exact hsd) _ _).bind fun _ _ => (extractPSKSecret_nil_fine hsd).bind fun _ _ => ?_
    exact (extractEpochSecret_fine (d := sd) (by dsimp only; exact hsd) _ _).bind fun _ _ => (deriveSecret_fine hsd _ _).bind fun _ _ =>
      Res.fine_ok _
  | some path =>
    dsimp only
    refine (commitPath_fine hc hi hsup ht hv hkn hm hptl (hk.path path hpath) (hread.path path hpath) now).bind fun x hx => ?_
    obtain ⟨h', t', ctx', pt', sec⟩ := x
    obtain ⟨_, th, _, _, _, hctx, _⟩ := commitPath_ok hx
    subst hctx
    dsimp only
    refine (confirmedTranscriptHash_fine hsd (by rw [hak]; exact hk) _ _ _).bind fun _ _ => (nextInterim_fine hsd _ _).bind fun _ _ => ?_
    refine (extractJoinerSecret_fine (d := sd) (by dsimp only; exact hsd) _ _).bind fun _ _ => (extractPSKSecret_nil_fine hsd).bind fun _ _ => ?_
    exact (extractEpochSecret_fine (d := sd) (by dsimp only; exact hsd) _ _).bind fun _ _ => (deriveSecret_fine hsd _ _).bind fun _ _ =>
      Res.fine_ok _

end Mls
