import Verif.Props.Library
import Verif.Proofs.Removed
import Verif.Props.FullGroup
/-
Property C116: who has the secrets of an epoch reads on until a commit with a path, and not further.
-/
namespace Mls

open Spec (Ratchet nodeAt IsAncestor)

variable {pr : Prims}

/-! ### Specification -/

/-- The state of somebody who has all that the member `st` has but the private keys; in their place, the keys `ks` of the nodes and the signature
key `sig`, at the leaf `my`. -/
def GroupState.withKeys (st : GroupState) (ks : List (Option Bytes)) (sig : Bytes) (my : UInt32) : GroupState :=
  { st with group := { st.group with privTree := ks, signaturePriv := sig, myLeafIndex := my } }

/-- No private keys at all. -/
def Spec.noKeys (st : GroupState) : List (Option Bytes) := List.replicate st.group.tree.length none

/-- `raw` is, for those in the epoch of `st`, a commit with a path from the member at leaf `i`. -/
def Spec.PathFrom (pr : Prims) (st : GroupState) (raw : Bytes) (i : Nat) : Prop :=
  ∃ a e c, Carries pr st raw a e ∧ a.content.content = .commit c ∧ c.path ≠ none ∧ a.content.sender.leafIndex.toNat % 2 ^ 31 = i

/-- The messages of `l`, processed one after the other by `st`, return and are no commits with a path. -/
def Spec.NoPaths (pr : Prims) : GroupState → List (Bytes × GoTime) → Prop
  | _, [] => True
  | st, (raw, now) :: l => (¬ ∃ i, Spec.PathFrom pr st raw i) ∧ (unmarshalAndProcessMessage pr st raw now).1.Fine ∧
      Spec.NoPaths pr (unmarshalAndProcessMessage pr st raw now).2 l

/-- What comes of the messages of `l`, processed one after the other by `st`: the answers and the last state. -/
def GroupState.read (pr : Prims) : GroupState → List (Bytes × GoTime) → List (Res (Option Bytes)) × GroupState
  | st, [] => ([], st)
  | st, (raw, now) :: l =>
    let x := unmarshalAndProcessMessage pr st raw now
    let y := GroupState.read pr x.2 l
    (x.1 :: y.1, y.2)

/-! ### Without a path -/

theorem carries_withKeys {st : GroupState} (ks : List (Option Bytes)) (sig : Bytes) (my : UInt32) {raw : Bytes} {a : AuthenticatedContent} {e : Bool} :
    Carries pr (st.withKeys ks sig my) raw a e ↔ Carries pr st raw a e := by
  constructor
  · intro h
    cases h with
    | pub hd hv => exact .pub hd hv
    | priv hd hv => exact .priv hd hv
  · intro h
    cases h with
    | pub hd hv => exact .pub hd hv
    | priv hd hv => exact .priv hd hv

/-- The keys that are kept. -/
def keepKeys (ks : List (Option Bytes)) (a b : Nat) : List (Option Bytes) := ks.take (min a b) ++ List.replicate (b - min a b) none

theorem bind_push {α β γ : Type} {x : Res α} {f : α → Res γ} {g : α → Res β} {k : β → Res γ} (h : ∀ a, f a = (g a).bind k) :
    (x >>= f) = (x >>= g).bind k := by
  cases x with
  | ok a => exact h a
  | _ => rfl

theorem bind_pure2 {α β γ : Type} {a b : α} {f : α → Res γ} {g : α → Res β} {k : β → Res γ} (h : f a = (g b).bind k) :
    ((pure a : Res α) >>= f) = ((pure b : Res α) >>= g).bind k := h

theorem finishCommit_withKeys {g : Group} {h : Heap} {t : RTree} {a : AuthenticatedContent} {c : Commit} {ids : List PreSharedKeyID} {psks : List Bytes}
    {now : GoTime} (hn : c.path = none) (hl : g.privTree.length = g.tree.length) {ks : List (Option Bytes)} (hk : ks.length = g.tree.length)
    (sig : Bytes) (my : UInt32) :
    finishCommit pr { g with privTree := ks, signaturePriv := sig, myLeafIndex := my } h t a c ids psks now =
      (finishCommit pr g h t a c ids psks now).bind fun st' => .ok (st'.withKeys (keepKeys ks g.tree.length t.length) sig my) := by
  have e1 : copyPrivTree g.privTree g.tree.length t.length = .ok (keepKeys g.privTree g.tree.length t.length) := by
    unfold copyPrivTree
    rw [if_neg (by omega)]
    rfl
  have e2 : copyPrivTree ks g.tree.length t.length = .ok (keepKeys ks g.tree.length t.length) := by
    unfold copyPrivTree
    rw [if_neg (by omega)]
    rfl
  unfold finishCommit
  simp only [hn, e1, e2, Res.ok_bind]
  refine bind_push fun _ => ?_
  simp only [Res.bind_assoc']
  refine bind_push fun _ => ?_
  refine bind_pure2 ?_
  iterate 6 refine bind_push fun _ => ?_
  rfl

theorem processCommit_withKeys {st : GroupState} {a : AuthenticatedContent} {c : Commit} (hm : a.content.content = .commit c) (hn : c.path = none)
    (hl : st.group.privTree.length = st.group.tree.length) {ks : List (Option Bytes)} (hk : ks.length = st.group.tree.length) (sig : Bytes)
    (my : UInt32) (ids : List PreSharedKeyID) (psks : List Bytes) (now : GoTime) :
    ∃ ks', ks'.length = (processCommit pr st a ids psks now).2.group.tree.length ∧ processCommit pr (st.withKeys ks sig my) a ids psks now =
      ((processCommit pr st a ids psks now).1, (processCommit pr st a ids psks now).2.withKeys ks' sig my) := by
  unfold processCommit
  simp only [hm]
  have e1 : checkProposals pr (st.withKeys ks sig my).group a.content.sender.leafIndex c = checkProposals pr st.group a.content.sender.leafIndex c := rfl
  rw [e1]
  rcases hx : checkProposals pr st.group a.content.sender.leafIndex c with ⟨ps, ss⟩ | _ | _ | _
  · simp only
    have e2 : treeApply (st.withKeys ks sig my).heap (st.withKeys ks sig my).group.tree ps ss = treeApply st.heap st.group.tree ps ss := rfl
    rw [e2]
    rcases hy : treeApply st.heap st.group.tree ps ss with ⟨h, t⟩ | _ | _ | _
    · simp only
      have e3 : finishCommit pr (st.withKeys ks sig my).group h t a c ids psks now =
        (finishCommit pr st.group h t a c ids psks now).bind fun st' => .ok (st'.withKeys (keepKeys ks st.group.tree.length t.length) sig my) :=
        finishCommit_withKeys hn hl hk sig my
      rw [e3]
      rcases hf : finishCommit pr st.group h t a c ids psks now with st' | _ | _ | _
      · refine ⟨keepKeys ks st.group.tree.length t.length, ?_, rfl⟩
        rcases finishCommit_parts hf with ⟨_, pt, hp, ⟨_, e1, e2, e3⟩ | ⟨path, ctx', sec, hsome, _⟩⟩
        · show _ = st'.group.tree.length
          rw [e2]
          simp [keepKeys]
          omega
        · rw [hn] at hsome; cases hsome
      · exact ⟨ks, hk, rfl⟩
      · exact ⟨ks, hk, rfl⟩
      · exact ⟨ks, hk, rfl⟩
    · exact ⟨ks, hk, rfl⟩
    · exact ⟨ks, hk, rfl⟩
    · exact ⟨ks, hk, rfl⟩
  · exact ⟨ks, hk, rfl⟩
  · exact ⟨ks, hk, rfl⟩
  · exact ⟨ks, hk, rfl⟩

theorem upm_withKeys {st : GroupState} (hl : st.group.privTree.length = st.group.tree.length) {raw : Bytes} (now : GoTime)
    (hn : ¬ ∃ i, Spec.PathFrom pr st raw i) {ks : List (Option Bytes)} (hk : ks.length = st.group.tree.length) (sig : Bytes) (my : UInt32) :
    ∃ ks', ks'.length = (unmarshalAndProcessMessage pr st raw now).2.group.tree.length ∧
      unmarshalAndProcessMessage pr (st.withKeys ks sig my) raw now =
        ((unmarshalAndProcessMessage pr st raw now).1, (unmarshalAndProcessMessage pr st raw now).2.withKeys ks' sig my) := by
  by_cases hx : ∃ a e, Carries pr st raw a e
  · obtain ⟨a, e, hca⟩ := hx
    rw [upm_of_carries hca, upm_of_carries ((carries_withKeys ks sig my).2 hca)]
    unfold dispatch
    cases hc : a.content.content with
    | application data => cases e <;> exact ⟨ks, hk, rfl⟩
    | proposal p =>
      refine ⟨ks, ?_, ?_⟩
      · simp only
        unfold processProposal
        rw [hc]
        cases a.generateProposalRef pr st.group.groupContext.cipherSuite <;> exact hk
      · simp only
        unfold processProposal
        rw [hc]
        have e1 : a.generateProposalRef pr (st.withKeys ks sig my).group.groupContext.cipherSuite =
          a.generateProposalRef pr st.group.groupContext.cipherSuite := rfl
        simp only [e1]
        cases a.generateProposalRef pr st.group.groupContext.cipherSuite <;> rfl
    | commit c =>
      have hp : c.path = none := by
        by_contra h
        exact hn ⟨_, a, e, c, hca, hc, h, rfl⟩
      obtain ⟨ks', h1, h2⟩ := processCommit_withKeys (pr := pr) hc hp hl hk sig my [] [] now
      refine ⟨ks', h1, ?_⟩
      simp only [h2]
  · refine ⟨ks, ?_, ?_⟩
    · rcases upm_cases pr st raw now with ⟨a, e, h, _⟩ | ⟨_, h, _⟩
      · exact absurd ⟨a, e, h⟩ hx
      · rw [h]; exact hk
    · unfold unmarshalAndProcessMessage
      rcases hd : unmarshal MlsMessage.dec raw with ⟨v, body⟩ | _ | _ | _ <;> try rfl
      cases body with
      | publicMessage m =>
        simp only
        unfold processPublicMessage
        have e1 : verifyPublicMessage pr (st.withKeys ks sig my) m = verifyPublicMessage pr st m := rfl
        rw [e1]
        cases hv : verifyPublicMessage pr st m with
        | ok a => exact absurd ⟨a, false, .pub hd hv⟩ hx
        | _ => rfl
      | privateMessage m =>
        simp only
        unfold processPrivateMessage
        have e1 : decryptPrivateMessage pr (st.withKeys ks sig my) m = decryptPrivateMessage pr st m := rfl
        rw [e1]
        cases hv : decryptPrivateMessage pr st m with
        | ok a => exact absurd ⟨a, true, .priv hd hv⟩ hx
        | _ => rfl
      | _ => rfl

/-! ### C116 -/

/-- **C116**: private keys matter for commits with a path only. Whoever has the rest of what a member has, and any keys, reads every other message
as the member does, and has the rest of what the member has afterwards. -/
theorem C116_reads (hc : pr.Correct) {st : GroupState} (hr : Reachable pr st) {raw : Bytes} (now : GoTime) (hn : ¬ ∃ i, Spec.PathFrom pr st raw i)
    {ks : List (Option Bytes)} (hk : ks.length = st.group.tree.length) (sig : Bytes) (my : UInt32) :
    ∃ ks', ks'.length = (unmarshalAndProcessMessage pr st raw now).2.group.tree.length ∧
      unmarshalAndProcessMessage pr (st.withKeys ks sig my) raw now =
        ((unmarshalAndProcessMessage pr st raw now).1, (unmarshalAndProcessMessage pr st raw now).2.withKeys ks' sig my) :=
  upm_withKeys (hr.inv hc).length now hn hk sig my

/-- **C116**: and so for any list of messages without a commit with a path, however many epochs it spans. -/
theorem C116_run (hc : pr.Correct) {st : GroupState} (hr : Reachable pr st) (l : List (Bytes × GoTime)) (hn : Spec.NoPaths pr st l)
    {ks : List (Option Bytes)} (hk : ks.length = st.group.tree.length) (sig : Bytes) (my : UInt32) :
    ∃ ks', (st.withKeys ks sig my).read pr l = ((st.read pr l).1, (st.read pr l).2.withKeys ks' sig my) := by
  induction l generalizing st ks with
  | nil => exact ⟨ks, rfl⟩
  | cons x l ih =>
    obtain ⟨raw, now⟩ := x
    obtain ⟨h1, h2, h3⟩ := hn
    obtain ⟨ks1, g1, g2⟩ := C116_reads hc hr now h1 hk sig my
    have hr' : Reachable pr (unmarshalAndProcessMessage pr st raw now).2 :=
      .message (r := (unmarshalAndProcessMessage pr st raw now).1) hr (Prod.ext rfl rfl) h2
    obtain ⟨ks2, g3⟩ := ih hr' h3 g1
    refine ⟨ks2, ?_⟩
    unfold GroupState.read
    simp only [g2, g3]

/-- **C116**: in groups whose members all use this library, nothing ever shuts out somebody who once had the secrets of an epoch: whatever
invitation a member sends, the others read it without their private keys. -/
theorem C116_library (hc : pr.Correct) {cs : UInt16} {st st1 st2 : GroupState} (hl : Spec.Library pr cs st) {kps : List KeyPairPackage}
    (hg : ∀ k ∈ kps, Spec.Generated pr cs k) {r : WelcomeRand} {w : Welcome} {raw : Bytes}
    (h : createWelcome pr st (kps.map fun k => k.pub) r = (.ok (w, raw), st1)) (hl2 : Spec.Library pr cs st2) (hv : SameView st st2) (now : GoTime)
    (hown : Spec.OwnKeys (Spec.members st.vtree ++ kps.map fun k => k.pub.leafNode))
    (hinit : ∀ k ∈ kps, k.pub.leafNode.encryptionKey ≠ k.pub.initKey) (href : Spec.OwnRefs pr kps) (sig : Bytes) (my : UInt32) :
    ∃ st2' ks', unmarshalAndProcessMessage pr st2 raw now = (.ok none, st2') ∧
      st2'.group.groupContext.epoch = st.group.groupContext.epoch + 1 ∧
      unmarshalAndProcessMessage pr (st2.withKeys (Spec.noKeys st2) sig my) raw now = (.ok none, st2'.withKeys ks' sig my) := by
  obtain ⟨st2', h1⟩ := (C79_invite hc hl hg h hown hinit href).1 st2 hl2 hv now
  have h2 := (C79_together hc hl hg h href (.follow hl2 hv h1) (.follow hl2 hv h1)).2.2.1
  have hn : ¬ ∃ i, Spec.PathFrom pr st2 raw i := by
    rintro ⟨i, a, e, c, hca, hm, hp, _⟩
    obtain ⟨hp', t, sd, th, psk, sg, cth, js, es, tag, rawTree, isig, ctx, run, -⟩ := createWelcome_run h
    have := run.carried hc ((hl.inv hc).reach.inv hc) hv (LibInv.version_of hc hg) hca
    rw [this] at hm
    cases hm
    exact hp rfl
  obtain ⟨ks', _, h3⟩ := C116_reads hc (hl2.inv hc).reach now hn (ks := Spec.noKeys st2) (by simp [Spec.noKeys]) sig my
  refine ⟨st2', ks', h1, h2, ?_⟩
  rw [h3, h1]

/-! ### With a path -/

/-- Who follows a commit with a path has used a key that is not on the path of the sender. -/
theorem path_key (hc : pr.Correct) {st st' : GroupState} (hi : GroupInv pr st) {raw : Bytes} {now : GoTime} {i : Nat} (hp : Spec.PathFrom pr st raw i)
    {ks : List (Option Bytes)} {sig : Bytes} {my : UInt32} (hmy : 2 * my.toNat < st.group.tree.length)
    {o : Option Bytes} (h : unmarshalAndProcessMessage pr (st.withKeys ks sig my) raw now = (.ok o, st')) :
    ∃ x k, ks[x]? = some (some k) ∧ x ≠ 2 * i ∧ ¬ Over i x := by
  obtain ⟨a, e, c, hca, hm, hpath, hsend⟩ := hp
  obtain ⟨l, hp, t, hres, hck, hap, hf⟩ := accepted_commit ((carries_withKeys ks sig my).2 hca) hm h
  have hi0 : GroupInv pr (st.withKeys (Spec.noKeys st) sig my) := by
    refine ⟨hi.tree, hi.suite, by simp [Spec.noKeys, GroupState.withKeys], hmy, hi.unmerged, ?_, ?_⟩
    · intro x k hx
      simp [GroupState.withKeys, Spec.noKeys, List.getElem?_replicate] at hx
    · intro x q k _ hx
      simp [GroupState.withKeys, Spec.noKeys, List.getElem?_replicate] at hx
  rcases finishCommit_parts hf with ⟨_, pt, hpt, ⟨hno, _⟩ | ⟨path, ctx', sec, _, hcp⟩⟩
  · exact absurd hno hpath
  have hap0 : treeApply (st.withKeys (Spec.noKeys st) sig my).heap (st.withKeys (Spec.noKeys st) sig my).group.tree (l.map (·.1)) (l.map (·.2)) =
    .ok (hp, t) := hap
  obtain ⟨d, s, s', m, hpc⟩ := committed_path hc hi0 hap0 hcp
  rw [hsend] at hpc
  obtain ⟨res, k, hres, x, hx, hkx⟩ := hpc.read.used
  have hown := hpc.own
  have hle := hpc.read.le
  have hpos := hpc.read.pos
  have hroot : VAt st'.vtree 0 s' := by
    have := at_flat Node.leaf Node.parent s'
    rw [← hpc.after.flat] at this
    exact this
  obtain ⟨sub, hsub⟩ := at_sub hroot (below_root (k := m - 1) (by omega) hown)
  have hlen : st'.vtree.length < 2 ^ 32 := by
    have := hpc.after.length
    unfold GroupState.vtree
    rw [derefTree_length, this]
    exact pow_tree_lt hpc.depth
  rw [resolve_spec hlen hsub (by have := hpc.depth; omega)] at hres
  cases hres
  obtain ⟨hv, hs, hu⟩ := treeApply_effect (.inr hi.tree) hap
  have hgr := treeApply_grown hap
  have hun : ∀ x q, nodeAt st'.vtree x = some (.parent q) → ∀ u ∈ q.unmergedLeaves, Over (u.toNat % 2 ^ 31) x := by
    intro x q hq u hm
    have hne : x ≠ 2 * i := by
      rintro rfl
      rw [hpc.newLeaf] at hq
      cases hq
    by_cases ha : IsAncestor d i x
    · by_cases hF : x ∈ s'.filteredPath 0 i
      · obtain ⟨k, ph, hnode⟩ := hpc.onPath x hF
        rw [hnode] at hq
        cases hq
        simp at hm
      · rw [hpc.blanked x ha hF] at hq
        cases hq
    · rw [hpc.offPath x hne ha] at hq
      obtain ⟨q0, h1, _, h3⟩ := applied_nodes hi.tree.owned hs hgr hu hq
      rcases h3 u hm with hm | hm
      · exact hi.unmerged x q0 h1 u hm
      · exact hm
  obtain ⟨m', y, hb, rfl⟩ := resolution_below hsub hun hx
  refine ⟨_, k, (copyPrivTree_ok hpt).2 _ k hkx, ?_, ?_⟩
  · rw [← idx_zero]
    exact (off_path (d := d) hpc.read.apart hb).2
  · rintro ⟨m2, h2, he⟩
    obtain ⟨rfl, rfl⟩ := idx_inj he
    apply hpc.read.apart
    rw [← hb.2, Nat.div_div_eq_div_mul, ← Nat.pow_add]
    congr 2
    have := hb.1
    omega

/-- **C116**: a commit with a path shuts out everybody who has no other keys than those of nodes on the path of its sender, wherever in the tree
they pretend to be: they do not follow, and stay with the secrets of the old epoch. -/
theorem C116_shut_out (hc : pr.Correct) {st : GroupState} (hr : Reachable pr st) {raw : Bytes} (now : GoTime) {i : Nat}
    (hp : Spec.PathFrom pr st raw i) {ks : List (Option Bytes)}
    (hks : ∀ x k, ks[x]? = some (some k) → x = 2 * i ∨ Over i x) (sig : Bytes) {my : UInt32} (hmy : 2 * my.toNat < st.group.tree.length) :
    (∀ o, (unmarshalAndProcessMessage pr (st.withKeys ks sig my) raw now).1 ≠ .ok o) ∧
    (unmarshalAndProcessMessage pr (st.withKeys ks sig my) raw now).2.group = (st.withKeys ks sig my).group := by
  have key : ∀ o, (unmarshalAndProcessMessage pr (st.withKeys ks sig my) raw now).1 ≠ .ok o := by
    intro o h
    obtain ⟨x, k, h1, h2, h3⟩ := path_key hc (hr.inv hc) hp hmy (Prod.ext h rfl)
    rcases hks x k h1 with h | h
    · exact h2 h
    · exact h3 h
  refine ⟨key, ?_⟩
  generalize hx : unmarshalAndProcessMessage pr (st.withKeys ks sig my) raw now = x at key ⊢
  obtain ⟨r, st'⟩ := x
  rcases rejected_cases hx key with h | ⟨a, e, c, ps, ss, hp, t, _, _, _, _, h, _⟩ <;> rw [h]

/-- **C116**: so a member who commits with a path shuts out whoever has stolen all that they had. -/
theorem C116_heals (hc : pr.Correct) {st : GroupState} (hr : Reachable pr st) {raw : Bytes} (now : GoTime)
    (hp : Spec.PathFrom pr st raw st.group.myLeafIndex.toNat) {my : UInt32} (hmy : 2 * my.toNat < st.group.tree.length) :
    (∀ o, (unmarshalAndProcessMessage pr (st.withKeys st.group.privTree st.group.signaturePriv my) raw now).1 ≠ .ok o) ∧
    (unmarshalAndProcessMessage pr (st.withKeys st.group.privTree st.group.signaturePriv my) raw now).2.group =
      (st.withKeys st.group.privTree st.group.signaturePriv my).group :=
  C116_shut_out hc hr now hp (hr.inv hc).held _ hmy

/-- There are such messages: with the state of `0` but none of their keys, one reads the application data and the proposal of `1` and the commit
that invites `3`, and in the new epoch what `1` says there; the commit with a path of `1` is one, which `0` follows and the other does not, and
neither does whoever has all that `1` has and pretends to be `2`. -/
theorem toyStolen : ∃ a b data prop inv commit a1 more, Reachable toyPrims a ∧ Reachable toyPrims b ∧
    a.read toyPrims [(data, toyLater), (prop, toyLater), (inv, toyLater), (more, toyLater)] = ([.ok (some [1, 2]), .ok none, .ok none, .ok (some [3])], a1) ∧
    a1.group.groupContext.epoch = a.group.groupContext.epoch + 1 ∧
    ((a.withKeys (Spec.noKeys a) [] 2).read toyPrims [(data, toyLater), (prop, toyLater), (inv, toyLater), (more, toyLater)]).1 =
      [.ok (some [1, 2]), .ok none, .ok none, .ok (some [3])] ∧
    b.group.myLeafIndex = 1 ∧ Spec.PathFrom toyPrims a commit 1 ∧ Spec.PathFrom toyPrims b commit 1 ∧
    (unmarshalAndProcessMessage toyPrims a commit toyLater).1 = .ok none ∧
    (unmarshalAndProcessMessage toyPrims (a.withKeys (Spec.noKeys a) [] 2) commit toyLater).1 = .err ∧
    (unmarshalAndProcessMessage toyPrims (b.withKeys b.group.privTree b.group.signaturePriv 2) commit toyLater).1 = .err := by
  have path : ∀ {st raw}, (Full.toyReads st raw).holds (fun x => match x.content.content with
      | .commit c => c.path.isSome && decide (x.content.sender.leafIndex = 1) | _ => false) = true → Spec.PathFrom toyPrims st raw 1 := by
    intro st raw h
    obtain ⟨x, h1, h2⟩ := Res.holds_ok h
    obtain ⟨e, h3⟩ := Full.toyReads_ok h1
    cases hc : x.content.content with
    | commit c =>
      rw [hc] at h2
      simp only [Bool.and_eq_true, decide_eq_true_eq, Option.isSome_iff_ne_none] at h2
      exact ⟨x, e, c, h3, hc, h2.1, by rw [h2.2]; rfl⟩
    | _ => rw [hc] at h2; cases h2
  have key : toyThree.holds (fun (a, b, _) =>
      let data := toyPrivate a 1 1 (.application [1, 2]) []
      let prop := toyPublic a 1 1 (.proposal (.remove 2)) []
      let commit := toyCommit a 1 1 [] (List.replicate 32 9) []
      match createWelcome toyPrims b [(toyMember 3).pub] default with
      | (.ok (_, inv), _) => (b.after inv).holds fun b1 =>
        let more := toyPrivate b1 1 1 (.application [3]) []
        let l := [(data, toyLater), (prop, toyLater), (inv, toyLater), (more, toyLater)]
        decide ((a.read toyPrims l).1 = [.ok (some [1, 2]), .ok none, .ok none, .ok (some [3])] ∧
          (a.read toyPrims l).2.group.groupContext.epoch = a.group.groupContext.epoch + 1 ∧
          ((a.withKeys (Spec.noKeys a) [] 2).read toyPrims l).1 = [.ok (some [1, 2]), .ok none, .ok none, .ok (some [3])] ∧
          b.group.myLeafIndex = 1) &&
        (Full.toyReads a commit).holds (fun x => match x.content.content with
          | .commit c => c.path.isSome && decide (x.content.sender.leafIndex = 1) | _ => false) &&
        (Full.toyReads b commit).holds (fun x => match x.content.content with
          | .commit c => c.path.isSome && decide (x.content.sender.leafIndex = 1) | _ => false) &&
        decide ((unmarshalAndProcessMessage toyPrims a commit toyLater).1 = .ok none ∧
          (unmarshalAndProcessMessage toyPrims (a.withKeys (Spec.noKeys a) [] 2) commit toyLater).1 = .err ∧
          (unmarshalAndProcessMessage toyPrims (b.withKeys b.group.privTree b.group.signaturePriv 2) commit toyLater).1 = .err)
      | _ => false) = true := by decide +kernel
  obtain ⟨⟨a, b, c⟩, h, key⟩ := Res.holds_ok key
  simp only at key
  split at key
  · next w inv st1 hw =>
    obtain ⟨b1, hb1, key⟩ := Res.holds_ok key
    simp only [Bool.and_eq_true, decide_eq_true_eq] at key
    obtain ⟨⟨⟨⟨k1, k2, k3, k4⟩, k5⟩, k6⟩, k7, k8, k9⟩ := key
    exact ⟨a, b, _, _, inv, _, _, _, (toyThree_reachable h).1, (toyThree_reachable h).2.1, Prod.ext k1 rfl, k2, k3, k4, path k5, path k6, k7, k8, k9⟩
  · cases key

end Mls
