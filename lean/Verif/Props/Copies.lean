import Verif.Proofs.Copies
import Verif.Props.Follow
/-
C104: a copy of a group (`b := *a`), for example one kept to go back to. Calls on a group act as if there were no copies, and leave the
copies their keys; but through the shared parent nodes they can change the trees of the copies, and through the shared array the
proposals that the copies have pending.
-/
namespace Mls

variable {pr : Prims} {grow : Nat → Nat}

/-- A group and its copies, after any calls on any of them. -/
inductive Copied (pr : Prims) (grow : Nat → Nat) : Copies → Prop where
  | one {st : GroupState} (h : Reachable pr st) (hp : st.group.pendingProposals = []) : Copied pr grow (.one st)
  | copy {w : Copies} {g : SharedGroup} (h : Copied pr grow w) (hg : g ∈ w.groups) : Copied pr grow (w.copy g)
  | message {w w' : Copies} {i : Nat} {g : SharedGroup} {raw : Bytes} {now : GoTime} {r : Res (Option Bytes)} (h : Copied pr grow w)
      (hg : w.groups[i]? = some g) (hr : w.message pr grow i g raw now = (r, w')) (hf : r.Fine) : Copied pr grow w'
  | invite {w w' : Copies} {i : Nat} {g : SharedGroup} {kps : List KeyPackage} {rnd : WelcomeRand} {o : Res (Welcome × Bytes)}
      (h : Copied pr grow w) (hg : w.groups[i]? = some g) (hr : w.invite pr grow i g kps rnd = (o, w')) (hf : o.Fine) : Copied pr grow w'

theorem Copied.inv (hc : pr.Correct) {w : Copies} (h : Copied pr grow w) : CopiesInv pr w := by
  induction h with
  | one h hp =>
    rename_i st
    have hi := h.inv hc
    have hread : (Copies.one st).read ⟨st.group, 0, 0⟩ = st := by
      show (⟨st.heap, { st.group with pendingProposals := [] }⟩ : GroupState) = st
      rw [← hp]
    refine ⟨rfl, fun g hg => ?_, fun g hg => ?_, fun g hg k hk x y p hx hy => ?_⟩
    · rw [Copies.one, List.mem_singleton] at hg
      subst hg
      exact ⟨Nat.one_pos, Nat.zero_le _⟩
    · rw [Copies.one, List.mem_singleton] at hg
      subst hg
      rw [hread]; exact hi
    · rw [Copies.one, List.mem_singleton] at hg hk
      subst hg hk
      exact hi.tree.owned.inj hx hy
  | copy h hg ih =>
    rename_i w g
    have hm : ∀ k ∈ (w.copy g).groups, k ∈ w.groups := by
      intro k hk
      rcases List.mem_append.1 hk with h | h
      · exact h
      · rw [List.mem_singleton.1 h]; exact hg
    exact ⟨ih.nil, fun k hk => ih.slice k (hm k hk), fun k hk => ih.inv k (hm k hk), fun a ha b hb => ih.place a (hm a ha) b (hm b hb)⟩
  | message h hg hr hf ih =>
    rename_i w w' i g raw now r
    unfold Copies.message at hr
    rcases hm : unmarshalAndProcessMessage pr (w.read g) raw now with ⟨r1, st⟩
    rw [hm] at hr
    cases hr
    have hi := ih.inv g (List.mem_of_getElem? hg)
    exact write_inv ih hg (message_pend hm) (message_call hc hi hm) (message_inv hc hi hm)
  | invite h hg hr hf ih =>
    rename_i w w' i g kps rnd o
    unfold Copies.invite at hr
    rcases hm : createWelcome pr (w.read g) kps rnd with ⟨r1, st⟩
    rw [hm] at hr
    cases hr
    have hi := ih.inv g (List.mem_of_getElem? hg)
    exact write_inv ih hg (.inl (by rw [welcome_pend hm])) (welcome_call hi hm) (welcome_inv hi hm)

/-- What is left of a group when a call on another one, `g`, which leaves it as `st`, has changed the memory that the two share: all but
the tree and the pending proposals; the tree, but for leaves appended to unmerged leaves; and the pending proposals,
except that if there are more of them than `g` had, the one in the place of the proposal that `g` got is now that one. -/
structure Spec.Left (g st k k' : GroupState) : Prop where
  record : { k'.group with pendingProposals := k.group.pendingProposals } = k.group
  tree : TreeGrown k.vtree k'.vtree
  pending : k'.group.pendingProposals = k.group.pendingProposals ∨
    g.group.pendingProposals.length < k.group.pendingProposals.length ∧ ∃ x, st.group.pendingProposals = g.group.pendingProposals ++ [x] ∧
      k'.group.pendingProposals = k.group.pendingProposals.set g.group.pendingProposals.length x

theorem derefTree_kept {h h' : Heap} {t : RTree} (hk : HeapKept h h') (ho : Owned h t) : TreeGrown (derefTree h t) (derefTree h' t) := by
  refine ⟨by simp [derefTree], fun i hi hi' => ?_⟩
  simp only [derefTree, List.getElem_map]
  have hlt : i < t.length := by simpa [derefTree] using hi
  rcases hn : t[i]'hlt with _ | n
  · exact .blank
  · cases n with
    | leaf l => exact .leaf l
    | parent p => exact .parent (hk.nodes p (ho.lt (x := i) (by rw [List.getElem?_eq_getElem hlt, hn])))

theorem derefTree_same {h h' : Heap} {t : RTree} (hk : ∀ p, p < h.length → h'.getD p default = h.getD p default) (ho : Owned h t) :
    derefTree h' t = derefTree h t := by
  apply List.ext_getElem?
  intro x
  rw [derefTree_get, derefTree_get]
  rcases hx : t[x]? with _ | o
  · rfl
  · rcases o with _ | n
    · rfl
    · cases n with
      | leaf l => rfl
      | parent p =>
        show some (some (Node.parent (h'.getD p default))) = some (some (Node.parent (h.getD p default)))
        rw [hk p (ho.lt hx)]

theorem write_left {w : Copies} (hw : CopiesInv pr w) {i j : Nat} (hij : i ≠ j) {g k : SharedGroup} (hi : w.groups[i]? = some g)
    (hj : w.groups[j]? = some k) {st : GroupState} (hp : PendEffect (w.read g).group.pendingProposals st.group.pendingProposals)
    (he : CallEffect (w.read g) st) :
    (∃ g', (w.write grow i g st).groups[i]? = some g' ∧ (w.write grow i g st).read g' = st) ∧
    (w.write grow i g st).groups[j]? = some k ∧ Spec.Left (w.read g) st (w.read k) ((w.write grow i g st).read k) := by
  have hg := List.mem_of_getElem? hi
  have hk := List.mem_of_getElem? hj
  obtain ⟨w1, w2, w3, ⟨g', v1, v2, v3, v4, v5, _⟩, w5⟩ := write_spec (grow := grow) hw hi hp
  have hlt := (List.getElem?_eq_some_iff.1 hi).1
  refine ⟨⟨g', by rw [v1, List.getElem?_set_self hlt], v2⟩, by rw [v1, List.getElem?_set_ne hij]; exact hj, rfl, ?_, ?_⟩
  · show TreeGrown (derefTree w.heap k.group.tree) (derefTree (w.write grow i g st).heap k.group.tree)
    rw [w1]
    exact derefTree_kept he.kept (hw.inv k hk).tree.owned
  · rw [hw.pend_length hg, hw.pend_length hk]
    rcases (w5 k hk).pend with h | ⟨_, h2, x, h3, h4⟩
    · exact .inl h
    · exact .inr ⟨h2, x, h3, h4⟩

/-- **C104**, for messages: the group that gets the message answers, and goes on, as if it were alone; of its copies all is left but what
`Spec.Left` says, and their trees too unless the message commits an add. Missing: the unmerged leaves and pending proposals of copies
(C104_tree, C104_pending). -/
theorem C104_partial (hc : pr.Correct) {w w' : Copies} (h : Copied pr grow w) {i j : Nat} (hij : i ≠ j) {g k : SharedGroup}
    (hi : w.groups[i]? = some g) (hj : w.groups[j]? = some k) {raw : Bytes} {now : GoTime} {r : Res (Option Bytes)}
    (hr : w.message pr grow i g raw now = (r, w')) :
    (∃ g', w'.groups[i]? = some g' ∧ unmarshalAndProcessMessage pr (w.read g) raw now = (r, w'.read g')) ∧
    w'.groups[j]? = some k ∧
    Spec.Left (w.read g) (unmarshalAndProcessMessage pr (w.read g) raw now).2 (w.read k) (w'.read k) ∧
    (¬ Spec.CommitsAdd pr (w.read g) raw → (w'.read k).vtree = (w.read k).vtree) := by
  have hw := h.inv hc
  unfold Copies.message at hr
  rcases hm : unmarshalAndProcessMessage pr (w.read g) raw now with ⟨r1, st⟩
  rw [hm] at hr
  cases hr
  have hinv := hw.inv g (List.mem_of_getElem? hi)
  obtain ⟨⟨g', e1, e2⟩, e3, e4⟩ := write_left (grow := grow) hw hij hi hj (message_pend hm) (message_call hc hinv hm)
  refine ⟨⟨g', e1, by rw [e2]⟩, e3, e4, fun hn => ?_⟩
  have w1 := (write_spec (grow := grow) hw hi (message_pend hm)).1
  show derefTree (w.write grow i g st).heap k.group.tree = derefTree w.heap k.group.tree
  rw [w1]
  exact derefTree_same (message_noAdd hc hinv hm hn) (hw.inv k (List.mem_of_getElem? hj)).tree.owned

/-- **C104**, for invitations: the same, and the pending proposals of the copies are left alone as well. -/
theorem C104_invite (hc : pr.Correct) {w w' : Copies} (h : Copied pr grow w) {i j : Nat} (hij : i ≠ j) {g k : SharedGroup}
    (hi : w.groups[i]? = some g) (hj : w.groups[j]? = some k) {kps : List KeyPackage} {rnd : WelcomeRand} {o : Res (Welcome × Bytes)}
    (hr : w.invite pr grow i g kps rnd = (o, w')) :
    (∃ g', w'.groups[i]? = some g' ∧ createWelcome pr (w.read g) kps rnd = (o, w'.read g')) ∧
    w'.groups[j]? = some k ∧ (w'.read k).group = (w.read k).group ∧ TreeGrown (w.read k).vtree (w'.read k).vtree := by
  have hw := h.inv hc
  unfold Copies.invite at hr
  rcases hm : createWelcome pr (w.read g) kps rnd with ⟨r1, st⟩
  rw [hm] at hr
  cases hr
  have hinv := hw.inv g (List.mem_of_getElem? hi)
  have hpend := congrArg Group.pendingProposals (welcome_pend hm)
  obtain ⟨⟨g', e1, e2⟩, e3, e4⟩ := write_left (grow := grow) hw hij hi hj (.inl hpend) (welcome_call hinv hm)
  refine ⟨⟨g', e1, by rw [e2]⟩, e3, ?_, e4.tree⟩
  have hrec := e4.record
  rcases e4.pending with hp | ⟨_, x, hx, _⟩
  · rw [← hrec, ← hp]
  · have := congrArg List.length (hx.symm.trans hpend)
    rw [List.length_append, List.length_singleton] at this
    omega

/-- Calls on the `i`-th group only. -/
inductive Spec.Uses (pr : Prims) (grow : Nat → Nat) (i : Nat) : Copies → Copies → Prop where
  | refl (w : Copies) : Uses pr grow i w w
  | message {w w' w'' : Copies} {g : SharedGroup} {raw : Bytes} {now : GoTime} {r : Res (Option Bytes)} (hg : w.groups[i]? = some g)
      (hr : w.message pr grow i g raw now = (r, w')) (hf : r.Fine) (h : Uses pr grow i w' w'') : Uses pr grow i w w''
  | invite {w w' w'' : Copies} {g : SharedGroup} {kps : List KeyPackage} {rnd : WelcomeRand} {o : Res (Welcome × Bytes)}
      (hg : w.groups[i]? = some g) (hr : w.invite pr grow i g kps rnd = (o, w')) (hf : o.Fine) (h : Uses pr grow i w' w'') : Uses pr grow i w w''

theorem NodeGrown.trans {a b c : Option Node} (h : NodeGrown a b) (h' : NodeGrown b c) : NodeGrown a c := by
  cases h with
  | blank => exact h'
  | leaf l => exact h'
  | parent h =>
    cases h' with
    | parent h' => exact .parent (h.trans h')

theorem TreeGrown.trans {a b c : VTree} (h : TreeGrown a b) (h' : TreeGrown b c) : TreeGrown a c :=
  ⟨h'.1.trans h.1, fun i hi hi' => (h.2 i hi (by rw [h.1]; exact hi)).trans (h'.2 i (by rw [h.1]; exact hi) hi')⟩

theorem TreeGrown.refl (v : VTree) : TreeGrown v v :=
  ⟨rfl, fun i _ _ => by
    rcases v[i] with _ | n
    · exact .blank
    · cases n with
      | leaf l => exact .leaf l
      | parent p => exact .parent (.refl p)⟩

theorem uses_backup (hc : pr.Correct) {i j : Nat} (hij : i ≠ j) {k : SharedGroup} {w w' : Copies} (hu : Spec.Uses pr grow i w w')
    (h : Copied pr grow w) (hj : w.groups[j]? = some k)
    (hb : ∀ g, w.groups[i]? = some g → g.arr = k.arr → k.len ≤ g.len) :
    w'.groups[j]? = some k ∧ (w'.read k).group = (w.read k).group ∧ TreeGrown (w.read k).vtree (w'.read k).vtree := by
  induction hu with
  | refl w => exact ⟨hj, rfl, .refl _⟩
  | message hg hr hf hu ih =>
    rename_i w w1 w2 g raw now r
    have hw := h.inv hc
    obtain ⟨_, e2, e3, _⟩ := C104_partial hc h hij hg hj hr
    have h1 := h.message hg hr hf
    have hk := List.mem_of_getElem? hj
    have hr' := hr
    unfold Copies.message at hr'
    rcases hm : unmarshalAndProcessMessage pr (w.read g) raw now with ⟨r1, st⟩
    rw [hm] at hr'
    cases hr'
    obtain ⟨w1, w2, w3, ⟨g', v1, v2, v3, v4, v5, v6⟩, w5⟩ := write_spec (grow := grow) hw hg (message_pend hm)
    have hpend : ((w.write grow i g st).read k).group.pendingProposals = (w.read k).group.pendingProposals := by
      rcases (w5 k hk).pend with h | ⟨h1, h2, _⟩
      · exact h
      · have := hb g hg h1.symm
        omega
    obtain ⟨f1, f2, f3⟩ := ih h1 e2 fun g2 hg2 ha => by
      rw [v1, List.getElem?_set_self (List.getElem?_eq_some_iff.1 hg).1] at hg2
      cases hg2
      have hs := hw.slice k hk
      rcases v6.step with ⟨s1, s2⟩ | ⟨s1, s2⟩ | s1
      · exact Nat.le_trans (hb g hg (s1 ▸ ha)) s2
      · have h0 := hs.2
        rw [← ha, s1, List.getD_eq_getElem?_getD, hw.nil] at h0
        have : k.len ≤ 0 := h0
        omega
      · have := hs.1
        omega
    refine ⟨f1, f2.trans ?_, e3.tree.trans f3⟩
    have hrec := e3.record
    rw [← hpend] at hrec
    exact hrec
  | invite hg hr hf hu ih =>
    rename_i w w1 w2 g kps rnd o
    have hw := h.inv hc
    obtain ⟨_, e2, e3, e4⟩ := C104_invite hc h hij hg hj hr
    have h1 := h.invite hg hr hf
    have hk := List.mem_of_getElem? hj
    unfold Copies.invite at hr
    rcases hm : createWelcome pr (w.read g) kps rnd with ⟨r1, st⟩
    rw [hm] at hr
    cases hr
    have hpend := congrArg Group.pendingProposals (welcome_pend hm)
    obtain ⟨w1, w2, w3, ⟨g', v1, v2, v3, v4, v5, v6⟩, w5⟩ := write_spec (grow := grow) hw hg (.inl hpend)
    obtain ⟨f1, f2, f3⟩ := ih h1 e2 fun g2 hg2 ha => by
      rw [v1, List.getElem?_set_self (List.getElem?_eq_some_iff.1 hg).1] at hg2
      cases hg2
      have hs := hw.slice k hk
      rcases v6.step with ⟨s1, s2⟩ | ⟨s1, s2⟩ | s1
      · exact Nat.le_trans (hb g hg (s1 ▸ ha)) s2
      · have h0 := hs.2
        rw [← ha, s1, List.getD_eq_getElem?_getD, hw.nil] at h0
        have : k.len ≤ 0 := h0
        omega
      · have := hs.1
        omega
    exact ⟨f1, f2.trans e3, e4.trans f3⟩

/-- **C104**, for a copy that is kept: whatever becomes of the group it was made from, a copy that is not used keeps its keys, its context and its
pending proposals, and its tree but for leaves appended to unmerged leaves. -/
theorem C104_backup (hc : pr.Correct) {w w' : Copies} (h : Copied pr grow w) {i : Nat} {g : SharedGroup} (hi : w.groups[i]? = some g)
    (hu : Spec.Uses pr grow i (w.copy g) w') :
    w'.groups[w.groups.length]? = some g ∧ (w'.read g).group = (w.read g).group ∧ TreeGrown (w.read g).vtree (w'.read g).vtree := by
  have hlt := (List.getElem?_eq_some_iff.1 hi).1
  have hg := List.mem_of_getElem? hi
  have hb : ∀ g2, (w.copy g).groups[i]? = some g2 → g2.arr = g.arr → g.len ≤ g2.len := fun g2 hg2 _ => by
    rw [show (w.copy g).groups[i]? = w.groups[i]? from List.getElem?_append_left hlt, hi] at hg2
    cases hg2
    exact Nat.le_refl _
  have hj : (w.copy g).groups[w.groups.length]? = some g := by
    show (w.groups ++ [g])[w.groups.length]? = some g
    simp
  have := uses_backup hc (Nat.ne_of_lt hlt) hu (h.copy hg) hj hb
  exact this

/-! ### Witnesses -/

/-- How the Go runtime grows the array: to one element, then to twice as many (runtime/slice.go; for few elements of 40 bytes). -/
def goGrow (n : Nat) : Nat := if n = 0 then 1 else 2 * n

/-- The group of three of the toy history after a commit with a path, as member 0 has it. -/
def toyUpdated : Res GroupState := do
  let (a, _, _) ← toyThree
  a.after (toyCommit a 1 1 [] (List.replicate 32 9) [])

/-- A group and a copy of it. -/
def toyCopied (st : GroupState) : Copies := (Copies.one st).copy ⟨st.group, 0, 0⟩

/-- The `i`-th group gets a message. -/
def Copies.gets (w : Copies) (i : Nat) (raw : Bytes) : Res Copies :=
  match w.groups[i]? with
  | none => .err
  | some g =>
    match w.message toyPrims goGrow i g raw toyLater with
    | (.ok _, w) => .ok w
    | _ => .err

theorem Copies.gets_ok {w w' : Copies} {i : Nat} {raw : Bytes} (h : w.gets i raw = .ok w') :
    ∃ g r, w.groups[i]? = some g ∧ w.message toyPrims goGrow i g raw toyLater = (.ok r, w') := by
  unfold Copies.gets at h
  split at h
  · cases h
  · next g hg =>
    split at h
    · next r w1 hm => cases h; exact ⟨g, r, hg, hm⟩
    · cases h

theorem Copied.gets {w w' : Copies} {i : Nat} {raw : Bytes} (hw : Copied toyPrims goGrow w) (h : w.gets i raw = .ok w') : Copied toyPrims goGrow w' := by
  obtain ⟨g, r, hg, hm⟩ := Copies.gets_ok h
  exact hw.message hg hm (Res.fine_ok _)

theorem toyUpdated_ok {st : GroupState} (h : toyUpdated = .ok st) : Reachable toyPrims st := by
  unfold toyUpdated at h
  simp only [Res.bind_ok_iff] at h
  obtain ⟨⟨a, b, c⟩, h1, h2⟩ := h
  exact (toyThree_reachable h1).1.after h2

theorem toyCopied_ok {st : GroupState} (h : toyUpdated = .ok st) (hp : st.group.pendingProposals = []) : Copied toyPrims goGrow (toyCopied st) :=
  (Copied.one (toyUpdated_ok h) hp).copy (List.mem_singleton.2 rfl)

/-- A commit of member 1 that adds member 3 and has no path. -/
def toyAddCommit (st : GroupState) : Bytes :=
  let content : Content := .commit ⟨[.proposal (.add (toyMember 3).pub)], none⟩
  toyPublic st 1 1 content (st.tagFor (toyPublic st 1 1 content [1]))

/-- The group follows a commit that adds a member, and the tree of the copy changes. -/
theorem C104_tree : ∃ w w' i j g k raw now r, Copied toyPrims goGrow w ∧ i ≠ j ∧ w.groups[i]? = some g ∧ w.groups[j]? = some k ∧
    w.message toyPrims goGrow i g raw now = (.ok r, w') ∧ (w'.read k).vtree ≠ (w.read k).vtree := by
  have key : toyUpdated.holds (fun st => decide (st.group.pendingProposals = []) &&
      ((toyCopied st).gets 0 (toyAddCommit st)).holds fun w' => decide ((w'.read ⟨st.group, 0, 0⟩).vtree ≠ ((toyCopied st).read ⟨st.group, 0, 0⟩).vtree)) = true := by
    decide +kernel
  obtain ⟨st, hst, key⟩ := Res.holds_ok key
  rw [Bool.and_eq_true, decide_eq_true_eq] at key
  obtain ⟨w', hw', hne⟩ := Res.holds_ok key.2
  obtain ⟨g, r, hg, hm⟩ := Copies.gets_ok hw'
  exact ⟨toyCopied st, w', 0, 1, g, ⟨st.group, 0, 0⟩, _, _, r, toyCopied_ok hst key.1, by decide, hg, rfl, hm, of_decide_eq_true hne⟩

/-- No way back: when the copy gets the commit that the group followed before, it accepts it as well, but the two are
in different groups then. -/
theorem C104_diverges : ∃ w w1 w2 g k g' k' raw now r, Copied toyPrims goGrow w ∧ w.groups = [g, k] ∧ w.read g = w.read k ∧
    w.message toyPrims goGrow 0 g raw now = (.ok r, w1) ∧ w1.message toyPrims goGrow 1 k raw now = (.ok r, w2) ∧ w2.groups = [g', k'] ∧
    (w2.read g').group.groupContext ≠ (w2.read k').group.groupContext ∧ (w2.read g').group.epochSecret ≠ (w2.read k').group.epochSecret := by
  have key : toyUpdated.holds (fun st => decide (st.group.pendingProposals = []) &&
      ((toyCopied st).gets 0 (toyAddCommit st)).holds fun w1 => decide (w1.groups[1]? = some ⟨st.group, 0, 0⟩) &&
        (w1.gets 1 (toyAddCommit st)).holds fun w2 =>
          match w2.groups with
          | [g', k'] => decide ((w2.read g').group.groupContext ≠ (w2.read k').group.groupContext) &&
              decide ((w2.read g').group.epochSecret ≠ (w2.read k').group.epochSecret) &&
              decide (((toyCopied st).message toyPrims goGrow 0 ⟨st.group, 0, 0⟩ (toyAddCommit st) toyLater).1 = .ok none) &&
              decide ((w1.message toyPrims goGrow 1 ⟨st.group, 0, 0⟩ (toyAddCommit st) toyLater).1 = .ok none)
          | _ => false) = true := by decide +kernel
  obtain ⟨st, hst, key⟩ := Res.holds_ok key
  rw [Bool.and_eq_true, decide_eq_true_eq] at key
  obtain ⟨w1, h1, key'⟩ := Res.holds_ok key.2
  rw [Bool.and_eq_true, decide_eq_true_eq] at key'
  obtain ⟨w2, h2, key2⟩ := Res.holds_ok key'.2
  obtain ⟨g, r, hg, hm⟩ := Copies.gets_ok h1
  obtain ⟨k, r2, hk, hm2⟩ := Copies.gets_ok h2
  rw [key'.1] at hk
  cases hk
  rw [show (toyCopied st).groups[0]? = some ⟨st.group, 0, 0⟩ from rfl] at hg
  cases hg
  split at key2
  · next g' k' he =>
    simp only [Bool.and_eq_true, decide_eq_true_eq] at key2
    obtain ⟨⟨⟨a1, a2⟩, a3⟩, a4⟩ := key2
    rw [hm] at a3
    rw [hm2] at a4
    cases a3; cases a4
    exact ⟨toyCopied st, w1, w2, _, _, g', k', _, _, none, toyCopied_ok hst key.1, rfl, rfl, hm, hm2, he, a1, a2⟩
  · cases key2

/-- A group with three proposals pending, and a copy of it that gets one more. When the group gets one of its own, it takes the place
of the copy's. -/
theorem C104_pending : ∃ w w' g k raw now r, Copied toyPrims goGrow w ∧ w.groups = [g, k] ∧
    w.message toyPrims goGrow 0 g raw now = (.ok r, w') ∧ (w'.read k).group.pendingProposals ≠ (w.read k).group.pendingProposals := by
  have key : toyUpdated.holds (fun st => decide (st.group.pendingProposals = []) &&
      ((Copies.one st).gets 0 (toyPublic st 1 1 (.proposal (.remove 2)) [])).holds fun w =>
      (w.gets 0 (toyPublic st 1 1 (.proposal (.remove 2)) [])).holds fun w =>
      (w.gets 0 (toyPublic st 1 1 (.proposal (.remove 2)) [])).holds fun w =>
      match w.groups with
      | [g] => ((w.copy g).gets 1 (toyPublic st 1 1 (.proposal (.remove 0)) [])).holds fun w =>
        match w.groups with
        | [g, k] => (w.gets 0 (toyPublic st 1 1 (.proposal (.remove 2)) [])).holds fun w' =>
          decide ((w'.read k).group.pendingProposals ≠ (w.read k).group.pendingProposals)
        | _ => false
      | _ => false) = true := by decide +kernel
  obtain ⟨st, hst, key⟩ := Res.holds_ok key
  rw [Bool.and_eq_true, decide_eq_true_eq] at key
  obtain ⟨hp, key⟩ := key
  obtain ⟨w1, h1, key⟩ := Res.holds_ok key
  obtain ⟨w2, h2, key⟩ := Res.holds_ok key
  obtain ⟨w3, h3, key⟩ := Res.holds_ok key
  have c3 := (((Copied.one (toyUpdated_ok hst) hp).gets h1).gets h2).gets h3
  split at key
  · next g0 hg0 =>
    obtain ⟨w4, h4, key⟩ := Res.holds_ok key
    have c4 := (c3.copy (by rw [hg0]; exact List.mem_singleton.2 rfl)).gets h4
    split at key
    · next g k hgk =>
      obtain ⟨w5, h5, key⟩ := Res.holds_ok key
      obtain ⟨g', r, hg', hm⟩ := Copies.gets_ok h5
      rw [hgk] at hg'
      cases hg'
      exact ⟨w4, w5, g, k, _, _, r, c4, hgk, hm, of_decide_eq_true key⟩
    · cases key
  · cases key

/-- The hypotheses of C104_backup, C104_partial and C104_invite are met by a group that was copied and then invites, and follows a commit. -/
example : toyUpdated.holds (fun st => decide (st.group.pendingProposals = []) && decide ((toyCopied st).groups[1]? = some ⟨st.group, 0, 0⟩) &&
    ((toyCopied st).invite toyPrims goGrow 0 ⟨st.group, 0, 0⟩ [(toyMember 3).pub] default).1.holds (fun _ => true) &&
    ((toyCopied st).gets 0 (toyCommit st 2 2 [] (List.replicate 32 5) [])).holds fun w' =>
      decide (w'.groups[1]? = some ⟨st.group, 0, 0⟩) && decide (w'.groups[0]? ≠ w'.groups[1]?)) = true := by decide +kernel

end Mls
