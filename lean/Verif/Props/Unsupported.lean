import Verif.Props.Forget
import Verif.Props.Joinable
import Verif.Props.Admission
/-
C97: groups of the cipher suites that `Supported` refuses.
-/
namespace Mls

open Spec (nodeAt)
open Spec.Ratchet (updatesOf removesOf)

variable {pr : Prims}

/-- The suites of the table that `Supported` refuses: the key of a node is derived from a secret of the size of the hash, and the KEM wants another size. -/
theorem unsupported_iff {cs : UInt16} {sd : SuiteDesc} (hsd : suite cs = .ok sd) : supported cs = .ok false ↔ sd.kem.seedSize ≠ sd.kdf.size := by
  unfold supported
  rw [suite_ok_iff.1 hsd]
  simp only [hsd, Res.ok_bind]
  split
  · next h => simp [h]
  · next h => simp at h; simp [h]

/-- In the suites that `Supported` refuses, no path secret leads to the key of a node. -/
theorem nodePriv_unsupported (hc : pr.Correct) {cs : UInt16} (hu : supported cs = .ok false) (ps pub priv : Bytes) :
    nodePrivFromPathSecret pr cs ps pub ≠ .ok priv := by
  intro h
  cases hsd : suite cs with
  | ok sd => exact (unsupported_iff hsd).1 hu ((nodePriv_iff hc hsd).1 h).1
  | err | panic | hang =>
    unfold nodePrivFromPathSecret deriveSecret at h
    rw [hsd] at h
    cases h

theorem decryptPathSecrets_unsupported (hc : pr.Correct) {cs : UInt16} (hu : supported cs = .ok false) {t : VTree} {ctx : GroupContext} {i r : Nat}
    {path : UpdatePath} {pt : List (Option Bytes)} {x : Bytes × List (Option Bytes)} :
    decryptPathSecrets pr cs t ctx i r path pt ≠ .ok x := by
  intro h
  unfold decryptPathSecrets at h
  simp only [Res.bind_ok_iff] at h
  obtain ⟨fdp, _, _, _, h⟩ := h
  cases hpos : List.idxOf? (commonAncestor (nodeOfLeaf i) (nodeOfLeaf r)) fdp with
  | none => rw [hpos] at h; cases h
  | some e =>
    rw [hpos] at h
    simp only [Res.bind_ok_iff] at h
    obtain ⟨pn, _, cop, _, res, _, _, _, found, _, h⟩ := h
    cases found with
    | none => cases h
    | some jk =>
      simp only [Res.bind_ok_iff] at h
      obtain ⟨_, _, _, _, _, _, _, hn, _⟩ := h
      exact nodePriv_unsupported hc hu _ _ _ hn

/-- **C97.** In a group of a suite that `Supported` refuses, no commit with a path is accepted. -/
theorem C97_no_path (hc : pr.Correct) {st st' : GroupState} (hu : supported st.group.groupContext.cipherSuite = .ok false) {raw : Bytes} {now : GoTime}
    {r : Option Bytes} {a : AuthenticatedContent} {e : Bool} {c : Commit} (hca : Carries pr st raw a e) (hk : a.content.content = .commit c)
    (h : unmarshalAndProcessMessage pr st raw now = (.ok r, st')) : c.path = none := by
  obtain ⟨l, hp, t, h1, h2, h3, h4⟩ := accepted_commit hca hk h
  obtain ⟨_, pt, hpt, ⟨hn, _⟩ | ⟨path, ctx', sec, hpath, hcp⟩⟩ := finishCommit_parts h4
  · exact hn
  · obtain ⟨_, _, _, _, _, _, hd⟩ := commitPath_ok hcp
    exact absurd hd (decryptPathSecrets_unsupported hc hu)

theorem pathless_lists {l : List (Proposal × UInt32)} (h : ∀ p ∈ l, Spec.pathless p.1) :
    updatesOf (l.map fun p => (p.1.low, lowIndex p.2)) = [] ∧ removesOf (l.map fun p => p.1.low) = [] := by
  unfold updatesOf removesOf
  simp only [List.filterMap_eq_nil_iff, List.mem_map, forall_exists_index, and_imp, forall_apply_eq_imp_iff₂]
  constructor
  all_goals
    intro p hp
    have := h p hp
    revert this
    cases hq : p.1 <;> simp [Proposal.low, Spec.pathless]

/-- Commits accepted without a path leave the leaves of all members as they are. -/
theorem pathless_keeps (hc : pr.Correct) {st st' : GroupState} (hr : Reachable pr st) {raw : Bytes} {now : GoTime}
    {r : Option Bytes} {a : AuthenticatedContent} {e : Bool} {c : Commit} (hca : Carries pr st raw a e) (hk : a.content.content = .commit c)
    (h : unmarshalAndProcessMessage pr st raw now = (.ok r, st')) (hp : c.path = none)
    {i : Nat} {m : LeafNode} (hm : nodeAt st.vtree (2 * i) = some (.leaf m)) : nodeAt st'.vtree (2 * i) = some (.leaf m) := by
  obtain ⟨l, hh, t, h1, h2, h3, h4⟩ := accepted_commit hca hk h
  have hi := hr.inv hc
  obtain ⟨sd, hsd⟩ := hi.suite
  obtain ⟨d0, d, s0, s, s', ht⟩ := commit_tree hc hi hsd h2 h3 h4
  have hless : ∀ p ∈ l, Spec.pathless p.1 := by
    unfold checkProposals at h2
    simp only [Res.bind_ok_iff] at h2
    obtain ⟨⟨ps', ss'⟩, _, _, _, _, _, _, h5, h6⟩ := h2
    rw [hp, Res.guardErr_ok_iff] at h5
    simp only [Res.pure_eq, Res.ok.injEq, Prod.mk.injEq] at h6
    have h7 : proposalListNeedsPath ps' = false := by simpa using h5
    rw [proposalListNeedsPath_iff, h6.1] at h7
    intro p hpl
    exact h7.2 _ (List.mem_map_of_mem hpl)
  obtain ⟨e1, e2⟩ := pathless_lists hless
  have hap := ht.applied
  unfold Spec.applyProposals Spec.Ratchet.applyAll at hap
  rw [e1, e2] at hap
  simp only [List.foldlM_nil, Option.pure_def, Option.bind_some, Option.map_some, Option.some.injEq] at hap
  have hme := ht.merged
  rw [hp] at hme
  dsimp only at hme
  subst hme
  have hlt := (List.getElem?_eq_some_iff.1 (nodeAt_some.1 hm)).1
  rw [ht.before, flat_length, Nat.pow_succ] at hlt
  have hi : i < 2 ^ d0 := by omega
  have hat0 : VAt st.vtree 0 s0 := by rw [ht.before]; exact at_flat _ _ s0
  have hat : VAt st'.vtree 0 s' := by rw [ht.after]; exact at_flat _ _ s'
  have h0 := at_leafAt hat0 hi
  rw [Nat.zero_mul, Nat.zero_add, hm] at h0
  have h0 : s0.leafAt i = some m := by
    cases hx : s0.leafAt i with
    | none => rw [hx] at h0; cases h0
    | some n => rw [hx] at h0; cases h0; rfl
  obtain ⟨h1, h2⟩ := adds_keep _ (a := ⟨d0, s0⟩) hi h0 hap
  have h3 := at_leafAt hat h1
  rw [Nat.zero_mul, Nat.zero_add, h2] at h3
  exact h3

theorem since_suite {st st' : GroupState} (h : Spec.Since pr st st') :
    st'.group.groupContext.cipherSuite = st.group.groupContext.cipherSuite := by
  induction h with
  | refl => rfl
  | @message st1 st2 raw now r _ h ih =>
    have := (C44_message pr st1 raw now).1
    rw [h] at this
    rw [← ih]
    exact this.cipherSuite
  | @invite st1 st2 kps rnd o _ h ih =>
    have hg := createWelcome_group (pr := pr) st1 kps rnd
    rw [h] at hg
    dsimp only at hg
    rw [hg]
    exact ih

/-- **C97.** In a group of a suite that `Supported` refuses, nobody ever leaves and no member's keys are ever replaced: whatever messages are accepted
and whoever is invited, every leaf stays where and as it is. -/
theorem C97_stays (hc : pr.Correct) {st st' : GroupState} (hr : Reachable pr st) (hu : supported st.group.groupContext.cipherSuite = .ok false)
    (h : Spec.Since pr st st') {i : Nat} {m : LeafNode} (hm : nodeAt st.vtree (2 * i) = some (.leaf m)) :
    nodeAt st'.vtree (2 * i) = some (.leaf m) := by
  induction h with
  | refl => exact hm
  | @message st1 st2 raw now r hf h ih =>
    obtain ⟨a, e, hca, _⟩ := accepted_cases h
    by_cases hcom : ∃ c, a.content.content = .commit c
    · obtain ⟨c, hk⟩ := hcom
      have hu1 : supported st1.group.groupContext.cipherSuite = .ok false := by rw [since_suite hf]; exact hu
      exact pathless_keeps hc (hf.reachable hr) hca hk h (C97_no_path hc hu1 hca hk h) ih
    · rw [C74_other hca (fun c hk => hcom ⟨c, hk⟩) h]
      exact ih
  | @invite st1 st2 kps rnd o hf h ih =>
    have hg := createWelcome_group (pr := pr) st1 kps rnd
    rw [h] at hg
    dsimp only at hg
    rw [nodeAt_some] at ih ⊢
    unfold GroupState.vtree at ih ⊢
    rw [hg]
    exact derefTree_leaf.2 (derefTree_leaf.1 ih)

/-- Nor is anybody let in with a path secret. -/
theorem C97_join (hc : pr.Correct) {w : Welcome} {kp : KeyPairPackage} {now : GoTime} {st : GroupState} (h : groupFromWelcome pr w kp now = .ok st)
    (hu : supported st.group.groupContext.cipherSuite = .ok false) :
    ∃ ref gs, kp.pub.generateRef pr = .ok ref ∧ w.decryptGroupSecrets pr ref kp.priv.initKey = .ok gs ∧ gs.pathSecret = none := by
  unfold groupFromWelcome at h
  simp only [Res.bind_ok_iff] at h
  obtain ⟨ref, href, gs, hgs, _, _, _, _, h⟩ := h
  obtain ⟨psk, info, raw, v, leaf, li, pt, _, _, _, hdec, hget, _, _, _, hv, hfind, hjoin, hh, ht, hctx, _, _, _, _, hmy, hpt, _⟩ :=
    groupFromSecrets_ok h
  refine ⟨ref, gs, href, hgs, ?_⟩
  rw [hctx] at hu
  cases hps : gs.pathSecret with
  | none => rfl
  | some ps =>
    unfold joinerPrivTree processPathSecret at hjoin
    rw [hps] at hjoin
    simp only [Res.bind_ok_iff] at hjoin
    obtain ⟨_, _, _, _, _, hn, _⟩ := hjoin
    exact absurd hn (nodePriv_unsupported hc hu _ _ _)

/-- **C97.** The only private key that a member of such a group ever holds is that of its leaf, with which it came. -/
theorem C97_keys (hc : pr.Correct) {st : GroupState} (hr : Reachable pr st) (hu : supported st.group.groupContext.cipherSuite = .ok false) :
    Spec.LeafKeyOnly st := by
  induction hr with
  | create h => exact leafKeyOnly_create h
  | join h =>
    obtain ⟨ref, gs, h1, h2, h3⟩ := C97_join hc h hu
    exact leafKeyOnly_join h h1 h2 h3
  | @message st st' raw now r hr h hf ih =>
    have hsame : st'.group.groupContext.cipherSuite = st.group.groupContext.cipherSuite := by
      have := (C44_message pr st raw now).1
      rw [h] at this
      exact this.cipherSuite
    rw [hsame] at hu
    by_cases ho : ∃ d, r = .ok d
    · obtain ⟨d, rfl⟩ := ho
      exact leafKeyOnly_message h (fun a e c hca hk => C97_no_path hc hu hca hk h) (ih hu)
    · have : st'.group = st.group := by
        rcases rejected_cases h (by simpa using ho) with rfl | ⟨a, e, c, ps, ss, h', t, _, _, _, _, rfl, _⟩ <;> rfl
      intro x k hx
      rw [this] at hx ⊢
      exact ih hu x k hx
  | @invite st st' kps rnd o hr h hf ih =>
    have hg := createWelcome_group (pr := pr) st kps rnd
    rw [h] at hg
    dsimp only at hg
    unfold Spec.LeafKeyOnly
    rw [hg]
    rw [hg] at hu
    exact ih hu

/-! ### Concrete cases -/

/-- A key package of suite 4, which `Supported` refuses, generated with keys made of its name. -/
def toyMember4 (name : UInt8) : KeyPairPackage :=
  match generateKeyPairPackage toyPrims 4 (.basic [name])
      { init := [12, name], enc := [10, name], sig := [11, name], leafSign := [], pkgSign := [],
        now1 := toyNow, now2 := toyNow } with
  | .ok k => k
  | _ => default

/-- The group of suite 4 that `0` created and in which it invited `1`, seen by `0`, and by `1`. -/
def toyTwo4 : Res (GroupState × GroupState) := do
  let a ← createGroup toyPrims [7] (toyMember4 0) (fun _ => 3)
  match createWelcome toyPrims a [(toyMember4 1).pub] default with
  | (.ok (w, raw), a) => do
    let a ← a.after raw
    let b ← groupFromWelcome toyPrims w (toyMember4 1) toyLater
    return (a, b)
  | _ => .err

/-- The commit of `1` in that group, without proposals, with a path whose one node has the key `pub` and the path secret `secret`; made as RFC 9420
sections 7.5 and 7.6 ask. -/
def toyCommit4 (st : GroupState) (pub secret : Bytes) : Res Bytes := do
  let ctx := st.group.groupContext
  let sib ← computeTreeHash toyPrims 4 st.vtree 0 []
  let ph ← ({ encryptionKey := pub, parentHash := [], unmergedLeaves := [] } : ParentNode).computeParentHash toyPrims 4 sib
  let leaf : LeafNode := { (toyMember4 1).pub.leafNode with encryptionKey := [10, 101], source := .commit ph }
  let leaf ← leaf.sign toyPrims 4 ctx.groupID 1 [11, 1] []
  let v : VTree := [st.vtree[0]?.getD none, some (.parent ⟨pub, [], []⟩), some (.leaf leaf)]
  let treeHash ← computeRootTreeHash toyPrims 4 v
  let rawCtx ← (GroupContext.enc { ctx with epoch := ctx.epoch + 1, treeHash } : Res Bytes)
  let ct ← encryptWithLabel toyPrims 4 [10, 0] lblUpdatePathNode rawCtx secret []
  let fc : FramedContent := { groupID := ctx.groupID, epoch := ctx.epoch, sender := .member 1, authenticatedData := [],
                              content := .commit ⟨[], some ⟨leaf, [⟨pub, [ct]⟩]⟩⟩ }
  let m ← signPublicMessage toyPrims 4 [11, 1] fc ctx []
  st.group.signPublicMessageMembershipTag toyPrims { m with auth := { m.auth with confirmationTag := [1] } }

theorem toyTwo4_reachable {a b : GroupState} (h : toyTwo4 = .ok (a, b)) : Reachable toyPrims a ∧ Reachable toyPrims b := by
  unfold toyTwo4 at h
  simp only [Res.bind_ok_iff] at h
  obtain ⟨c, h1, h⟩ := h
  split at h
  · next w raw c' hw =>
    simp only [Res.bind_ok_iff] at h
    obtain ⟨a', h2, b', h3, he⟩ := h
    cases he
    exact ⟨(Reachable.invite (.create h1) hw (Res.fine_ok _)).after h2, .join h3⟩
  · cases h

/-- The hypotheses of C97 are met: a group of suite 4 is created and joined, and its members read what the others send; and a commit of a member with
a path, as another implementation makes it, ends the program of the member that receives it. -/
theorem C97_crash : ∃ a b raw com, Reachable toyPrims a ∧ Reachable toyPrims b ∧ supported a.group.groupContext.cipherSuite = .ok false ∧
    createApplicationMessage toyPrims b [1, 2] [] ⟨1, 2, 3, 4⟩ = .ok raw ∧
    unmarshalAndProcessMessage toyPrims a raw toyLater = (.ok (some [1, 2]), a) ∧
    (unmarshalAndProcessMessage toyPrims a com toyLater).1 = .panic := by
  have key : toyTwo4.holds (fun (a, b) => decide (supported a.group.groupContext.cipherSuite = .ok false) &&
      (createApplicationMessage toyPrims b [1, 2] [] ⟨1, 2, 3, 4⟩).holds (fun raw =>
        decide (unmarshalAndProcessMessage toyPrims a raw toyLater = (.ok (some [1, 2]), a))) &&
      (toyCommit4 a [20, 1] (List.replicate 64 9)).holds (fun com =>
        decide ((unmarshalAndProcessMessage toyPrims a com toyLater).1 = .panic))) = true := by
    decide +kernel
  obtain ⟨⟨a, b⟩, h, hk⟩ := Res.holds_ok key
  simp only [Bool.and_eq_true, decide_eq_true_eq] at hk
  obtain ⟨⟨h1, h2⟩, h3⟩ := hk
  obtain ⟨raw, hraw, h2⟩ := Res.holds_ok h2
  obtain ⟨com, _, h3⟩ := Res.holds_ok h3
  simp only [decide_eq_true_eq] at h2 h3
  obtain ⟨ra, rb⟩ := toyTwo4_reachable h
  exact ⟨a, b, raw, com, ra, rb, h1, hraw, h2, h3⟩

/-- With a supported suite, members do leave: after the commit of `2`, `1` is no longer in the group. -/
example : toyStale.holds (fun (b, c) => decide (supported b.group.groupContext.cipherSuite = .ok true) && (nodeAt b.vtree 2).isSome &&
    decide (nodeAt c.vtree 2 = none)) = true := by decide +kernel

end Mls
