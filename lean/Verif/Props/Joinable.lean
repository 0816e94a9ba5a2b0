import Verif.Props.Intact
import Verif.Props.Invitation
import Verif.Proofs.FineTree
/-
C75: whether someone can still join.
-/
namespace Mls

open Spec (Ratchet nodeAt)
open Spec.Ratchet (addsOf updatesOf removesOf)

variable {pr : Prims}

/-- Whoever joins finds no key package in the tree that has expired, their own or another member's. -/
theorem C75_join (hc : pr.Correct) {w : Welcome} {kp : KeyPairPackage} {now : GoTime} {st : GroupState}
    (h : groupFromWelcome pr w kp now = .ok st) (hz : now.isZero = false) {i : Nat} {l : LeafNode} {lt : Lifetime}
    (hl : nodeAt st.vtree (2 * i) = some (.leaf l)) (hs : l.source = .keyPackage lt) : lt.verify now = true := by
  obtain ⟨sd, d, _, _, s, hv⟩ := C29_join hc h
  have hlt := (List.getElem?_eq_some_iff.1 (nodeAt_some.1 hl)).1
  rw [hv.array, flat_length, Nat.pow_succ] at hlt
  rcases (hv.leaves i l (by omega) hl).lifetime lt hs with h | h
  · rw [hz] at h; cases h
  · exact h

theorem only_adds {l : List (Proposal × UInt32)} (h : ∀ p ∈ l, p.1.isAdd = true) :
    updatesOf (l.map fun p => (p.1.low, lowIndex p.2)) = [] ∧ removesOf (l.map fun p => p.1.low) = [] := by
  constructor
  · unfold updatesOf
    rw [List.filterMap_eq_nil_iff]
    intro p hp
    rw [List.mem_map] at hp
    obtain ⟨q, hq, rfl⟩ := hp
    have := h q hq
    obtain ⟨q, u⟩ := q
    cases q <;> simp [Proposal.isAdd] at this
    simp [Proposal.low]
  · unfold removesOf
    rw [List.filterMap_eq_nil_iff]
    intro p hp
    rw [List.mem_map] at hp
    obtain ⟨q, hq, rfl⟩ := hp
    have := h q hq
    obtain ⟨q, u⟩ := q
    cases q <;> simp [Proposal.isAdd] at this
    simp [Proposal.low]

theorem add_keeps {d : Nat} {s : Ratchet ParentNode d} {i : Nat} {m : LeafNode} (hi : i < 2 ^ d) (hl : s.leafAt i = some m) (n : LeafNode) :
    i < 2 ^ (s.add n).1 ∧ (s.add n).2.leafAt i = some m := by
  rcases add_eq_alongPath s n with ⟨_, e⟩ | ⟨j, hf, e⟩
  · rw [e]
    have hlt : 2 ^ d < 2 ^ (d + 1) := Nat.pow_lt_pow_right (by decide) (by omega)
    dsimp only
    refine ⟨by omega, ?_⟩
    rw [leafAt_alongPath _ _ _ hlt (by omega), if_neg (by omega)]
    unfold Ratchet.leafAt
    rw [if_pos hi]
    exact hl
  · obtain ⟨hj, hn⟩ := firstBlank_leafAt hf
    rw [e]
    dsimp only
    refine ⟨hi, ?_⟩
    rw [leafAt_alongPath _ _ _ hj hi, if_neg]
    · exact hl
    · rintro rfl
      rw [hl] at hn
      cases hn

theorem adds_keep (ns : List LeafNode) {a b : Ratchet.Any ParentNode} {i : Nat} {m : LeafNode} (hi : i < 2 ^ a.1) (hl : a.2.leafAt i = some m)
    (h : ns.foldl (fun t n => some (Ratchet.addOpt t n)) (some a) = some b) : i < 2 ^ b.1 ∧ b.2.leafAt i = some m := by
  induction ns generalizing a with
  | nil => cases h; exact ⟨hi, hl⟩
  | cons n ns ih =>
    rw [List.foldl_cons] at h
    obtain ⟨h1, h2⟩ := add_keeps hi hl n
    exact ih h1 h2 h

/-- An accepted commit that only adds members, without a path, leaves the leaves of all members as they are. -/
theorem C75_keeps (hc : pr.Correct) {st st' : GroupState} (hr : Reachable pr st) {raw : Bytes} {now : GoTime}
    {r : Option Bytes} {a : AuthenticatedContent} {e : Bool} {c : Commit} (hca : Carries pr st raw a e) (hk : a.content.content = .commit c)
    (h : unmarshalAndProcessMessage pr st raw now = (.ok r, st')) (hp : c.path = none)
    (hadd : ∀ l, Spec.resolve a.content.sender.leafIndex st.group.pendingProposals c.proposals = some l → ∀ p ∈ l, p.1.isAdd = true)
    {i : Nat} {m : LeafNode} (hm : nodeAt st.vtree (2 * i) = some (.leaf m)) : nodeAt st'.vtree (2 * i) = some (.leaf m) := by
  obtain ⟨sd, l, d0, d, s0, s, s', th, sec, input, ctx, hsd, hl, ht, _⟩ := C69_epoch hc hr hca hk h
  obtain ⟨e1, e2⟩ := only_adds (hadd l hl)
  have hap := ht.applied
  unfold Spec.applyProposals Ratchet.applyAll at hap
  rw [e1, e2] at hap
  simp only [List.foldlM_nil, Option.pure_def, Option.bind_some, Option.map_some, Option.some.injEq] at hap
  have hme := ht.merged
  rw [hp] at hme
  dsimp only at hme
  subst hme
  have hlt := (List.getElem?_eq_some_iff.1 (nodeAt_some.1 hm)).1
  rw [ht.before, flat_length, Nat.pow_succ] at hlt
  have hi : i < 2 ^ d0 := by omega
  have hat0 : VAt st.vtree 0 s0 := by rw [ht.before]; exact at_flat _ _ s0
  have hat : VAt st'.vtree 0 s' := by rw [ht.after]; exact at_flat _ _ s'
  have h0 := at_leafAt hat0 hi
  rw [Nat.zero_mul, Nat.zero_add, hm] at h0
  have h0 : s0.leafAt i = some m := by
    cases hx : s0.leafAt i with
    | none => rw [hx] at h0; cases h0
    | some n => rw [hx] at h0; cases h0; rfl
  obtain ⟨h1, h2⟩ := adds_keep _ (a := ⟨d0, s0⟩) hi h0 hap
  have h3 := at_leafAt hat h1
  rw [Nat.zero_mul, Nat.zero_add, h2] at h3
  exact h3

/-- `st'` is `st` after accepted messages and invitations, where all commits are such as CreateWelcome makes: they add members, and have no
path. -/
inductive Spec.AddsOnly (pr : Prims) (st : GroupState) : GroupState → Prop where
  | refl : Spec.AddsOnly pr st st
  | message {st1 st2 : GroupState} {raw : Bytes} {now : GoTime} {r : Option Bytes} (hf : Spec.AddsOnly pr st st1)
      (h : unmarshalAndProcessMessage pr st1 raw now = (.ok r, st2))
      (hadd : ∀ a e c, Carries pr st1 raw a e → a.content.content = .commit c → c.path = none ∧
        ∀ l, Spec.resolve a.content.sender.leafIndex st1.group.pendingProposals c.proposals = some l → ∀ p ∈ l, p.1.isAdd = true) :
      Spec.AddsOnly pr st st2
  | invite {st1 st2 : GroupState} {kps : List KeyPackage} {rnd : WelcomeRand} {o : Welcome × Bytes} (hf : Spec.AddsOnly pr st st1)
      (h : createWelcome pr st1 kps rnd = (.ok o, st2)) : Spec.AddsOnly pr st st2

theorem Spec.AddsOnly.reachable {st st' : GroupState} (hr : Reachable pr st) (h : Spec.AddsOnly pr st st') : Reachable pr st' := by
  induction h with
  | refl => exact hr
  | message _ h _ ih => exact .message ih h (Res.fine_ok _)
  | invite _ h ih => exact .invite ih h (Res.fine_ok _)

/-- A leaf stays in the tree through any commits such as CreateWelcome makes. -/
theorem C75_stays (hc : pr.Correct) {st st' : GroupState} (hr : Reachable pr st) (h : Spec.AddsOnly pr st st') {i : Nat} {m : LeafNode}
    (hm : nodeAt st.vtree (2 * i) = some (.leaf m)) : nodeAt st'.vtree (2 * i) = some (.leaf m) := by
  induction h with
  | refl => exact hm
  | @message st1 st2 raw now r hf h hadd ih =>
    obtain ⟨a, e, hca, _⟩ := accepted_cases h
    by_cases hcom : ∃ c, a.content.content = .commit c
    · obtain ⟨c, hk⟩ := hcom
      obtain ⟨h1, h2⟩ := hadd a e c hca hk
      exact C75_keeps hc (hf.reachable hr) hca hk h h1 h2 ih
    · rw [C74_other hca (fun c hk => hcom ⟨c, hk⟩) h]
      exact ih
  | @invite st1 st2 kps rnd o hf h ih =>
    have hg := createWelcome_group (pr := pr) st1 kps rnd
    rw [h] at hg
    dsimp only at hg
    rw [nodeAt_some] at ih ⊢
    unfold GroupState.vtree at ih ⊢
    rw [hg]
    exact derefTree_leaf.2 (derefTree_leaf.1 ih)

/-- What CreateWelcome sends is a commit of this kind, for all members in the same epoch. -/
theorem C75_made (hc : pr.Correct) {st st1 st2 : GroupState} (hi : GroupInv pr st) (hv : SameView st st1) {kps : List KeyPackage}
    (hw : ∀ k ∈ kps, k.version = 1) {r : WelcomeRand} {w : Welcome} {raw : Bytes} (h : createWelcome pr st kps r = (.ok (w, raw), st2))
    {a : AuthenticatedContent} {e : Bool} {c : Commit} (hca : Carries pr st1 raw a e) (hk : a.content.content = .commit c) : c.path = none ∧
      ∀ l, Spec.resolve a.content.sender.leafIndex st1.group.pendingProposals c.proposals = some l → ∀ p ∈ l, p.1.isAdd = true := by
  obtain ⟨hp, t, sd, th, psk, sig, cth, js, es, tag, rawTree, isig, ctx, run, -⟩ := createWelcome_run h
  have := run.carried hc hi hv hw hca
  subst this
  cases hk
  refine ⟨rfl, ?_⟩
  intro l hl p hp
  rw [resolve_adds] at hl
  cases hl
  rw [List.mem_map] at hp
  obtain ⟨k, -, rfl⟩ := hp
  rfl

/-- In a group in which all commits are such as CreateWelcome makes (the only ones the library makes), nobody joins any more once the key package of
one member has expired: whoever joins with the tree of the group does so within the lifetime of every member's key package. -/
theorem C75_closed (hc : pr.Correct) {st st' : GroupState} (hr : Reachable pr st) (h : Spec.AddsOnly pr st st') {i : Nat} {m : LeafNode}
    {lt : Lifetime} (hm : nodeAt st.vtree (2 * i) = some (.leaf m)) (hs : m.source = .keyPackage lt) {w : Welcome} {kp : KeyPairPackage}
    {now : GoTime} {stj : GroupState} (hj : groupFromWelcome pr w kp now = .ok stj) (hz : now.isZero = false) (ht : stj.vtree = st'.vtree) :
    lt.verify now = true := by
  have := C75_stays hc hr h hm
  rw [← ht] at this
  exact C75_join hc hj hz this hs

/-- A hundred days after the beginning. -/
def toyLate : GoTime := toyNow.add (100 * 24 * 3600 * 1000000000)

/-- A key package generated then. -/
def toyLateMember (name : UInt8) : KeyPairPackage :=
  match generateKeyPairPackage toyPrims 1 (.basic [name])
      { init := [12, name], enc := [10, name], sig := [11, name], leafSign := [], pkgSign := [],
        now1 := toyLate, now2 := toyLate } with
  | .ok k => k
  | _ => default

/-- An hour later. -/
def toyLateNow : GoTime := toyLate.add (3600 * 1000000000)

/-- The key package of the invited is valid, also at the time of joining, CreateWelcome returns, all members accept the commit, and the invited is refused: the
key package of the founder has expired. The same welcome is accepted when the invited gives no time. -/
theorem C75_refuted : ∃ a b kp rand w raw lt founder flt, Reachable toyPrims a ∧ Reachable toyPrims b ∧
    kp.pub.verify toyPrims a.group.groupContext = .ok () ∧
    (∃ r, generateKeyPairPackage toyPrims 1 (.basic [2]) r = .ok kp) ∧
    kp.pub.leafNode.source = .keyPackage lt ∧ lt.verify toyLateNow = true ∧
    nodeAt a.vtree 0 = some (.leaf founder) ∧ founder.source = .keyPackage flt ∧ flt.verify toyLateNow = false ∧
    (createWelcome toyPrims a [kp.pub] rand).1 = .ok (w, raw) ∧
    (unmarshalAndProcessMessage toyPrims b raw toyLateNow).1.holds (fun _ => true) = true ∧
    groupFromWelcome toyPrims w kp toyLateNow = .err ∧ (groupFromWelcome toyPrims w kp default).holds (fun _ => true) = true := by
  have key : toyTwo.holds (fun (a, b) => decide ((toyLateMember 2).pub.verify toyPrims a.group.groupContext = .ok ()) &&
      (match (toyLateMember 2).pub.leafNode.source with
        | .keyPackage lt => lt.verify toyLateNow
        | _ => false) &&
      (match nodeAt a.vtree 0 with
        | some (.leaf l) => (match l.source with
          | .keyPackage lt => !lt.verify toyLateNow
          | _ => false)
        | _ => false) &&
      (createWelcome toyPrims a [(toyLateMember 2).pub] default).1.holds (fun (w, raw) =>
        (unmarshalAndProcessMessage toyPrims b raw toyLateNow).1.holds (fun _ => true) &&
        decide (groupFromWelcome toyPrims w (toyLateMember 2) toyLateNow = .err) &&
        (groupFromWelcome toyPrims w (toyLateMember 2) default).holds fun _ => true)) = true := by decide +kernel
  have hg : (generateKeyPairPackage toyPrims 1 (.basic [2])
      { init := [12, 2], enc := [10, 2], sig := [11, 2], leafSign := [], pkgSign := [], now1 := toyLate, now2 := toyLate }).holds
        (fun k => decide (k = toyLateMember 2)) = true := by decide +kernel
  obtain ⟨k, hg, hk⟩ := Res.holds_ok hg
  rw [decide_eq_true_eq] at hk
  rw [hk] at hg
  obtain ⟨⟨a, b⟩, h, key⟩ := Res.holds_ok key
  simp only [Bool.and_eq_true, decide_eq_true_eq] at key
  obtain ⟨⟨⟨k1, k2⟩, k3⟩, key⟩ := key
  obtain ⟨⟨w, raw⟩, hw, key2⟩ := Res.holds_ok key
  simp only [Bool.and_eq_true] at key2
  split at k2
  · next lt hlt =>
    split at k3
    · next l hl =>
      split at k3
      · next flt hflt =>
        rw [Bool.not_eq_true'] at k3
        exact ⟨a, b, _, _, w, raw, lt, l, flt, (toyTwo_reachable h).1, (toyTwo_reachable h).2, k1, ⟨_, hg⟩, hlt, k2, hl, hflt, k3, hw,
          key2.1.1, of_decide_eq_true key2.1.2, key2.2⟩
      · cases k3
    · cases k3
  · cases k2

/-- A history of this kind: `0` creates a group, invites `1` and processes the commit. The leaf of `0`, with a lifetime, is in the tree at the
beginning. -/
theorem toyTwo_addsOnly : ∃ st st' l, Reachable toyPrims st ∧ Spec.AddsOnly toyPrims st st' ∧ st'.vtree.length = 3 ∧
    nodeAt st.vtree 0 = some (.leaf l) ∧ l.source = .keyPackage (newLifetime toyNow (toyNow.add (30 * 24 * 3600 * 1000000000))) := by
  have key : toyCreated.holds (fun st => match createWelcome toyPrims st [(toyMember 1).pub] default with
      | (.ok (_, raw), st1) => decide (st1.vtree = st.vtree) && (match unmarshalAndProcessMessage toyPrims st1 raw toyLater with
        | (.ok _, st2) => decide (st2.vtree.length = 3)
        | _ => false) && (match nodeAt st.vtree 0 with
          | some (.leaf l) => decide (l.source = .keyPackage (newLifetime toyNow (toyNow.add (30 * 24 * 3600 * 1000000000))))
          | _ => false)
      | _ => false) = true := by decide +kernel
  obtain ⟨st, h, key⟩ := Res.holds_ok key
  split at key
  · next w raw st1 hw =>
    simp only [Bool.and_eq_true, decide_eq_true_eq] at key
    obtain ⟨⟨hv, key⟩, key2⟩ := key
    split at key
    · next r st2 hm =>
      split at key2
      · next l hl =>
        have hr : Reachable toyPrims st := .create h
        have hg := createWelcome_group (pr := toyPrims) st [(toyMember 1).pub] default
        rw [hw] at hg
        dsimp only at hg
        have hsv : SameView st st1 := ⟨hv.symm, by rw [hg], by rw [hg]⟩
        have hver : (toyMember 1).pub.version = 1 := by decide +kernel
        exact ⟨st, st2, l, hr, .message (.invite .refl hw) hm fun a e c hca hk => C75_made toyPrims_correct (hr.inv toyPrims_correct) hsv
          (by simpa using hver) hw hca hk, of_decide_eq_true key, hl, of_decide_eq_true key2⟩
      · cases key2
    · cases key
  · cases key

end Mls
