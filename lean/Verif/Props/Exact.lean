import Verif.Proofs.Exact
import Verif.Props.Accept
import Verif.Props.Confirmation
import Verif.Props.Private
import Verif.Props.Rfc
import Verif.Props.Follow
/-
C105: exactly which messages a member accepts.
-/
namespace Mls

open Spec (Ratchet nodeAt)

variable {pr : Prims}

/-! ### Specification -/

/-- What makes a member of a group accept a commit `c`, carried by `a`, at the time `now`. Of the member, `ctx` is the group
context, `interim` the interim transcript hash, `pending` the proposals received, `s0` the tree, `my` the leaf index and `keys` the
private keys. The witnesses are the proposals of the commit with their senders `l`, the tree `s` they lead to and the tree `s'` with the
path merged too, its tree hash `th`, and the encodings `input` of the ConfirmedTranscriptHashInput and `raw` of the new group context.

The proposals referred to are known; they follow the rules of RFC 9420 section 12.2; the key packages added are valid; there is
a path, or none is needed; the proposals can be applied; the path, if any, is good; and nothing is too long to be encoded. -/
structure Spec.CommitOk (pr : Prims) (sd : SuiteDesc) (ctx : GroupContext) (interim : Bytes) (pending : List PendingProposal)
    (now : GoTime) {d0 : Nat} (s0 : Ratchet ParentNode d0) (my : Nat) (keys : List (Option Bytes)) (a : AuthenticatedContent)
    (c : Commit) (l : List (Proposal × UInt32)) {d : Nat} (s s' : Ratchet ParentNode d) (th input raw : Bytes) : Prop where
  resolved : Spec.resolve a.content.sender.leafIndex pending c.proposals = some l
  pskIDs : ∀ id ∈ l.filterMap Spec.pskID, ∃ b, (Spec.Rfc.preSharedKeyID id).bytes = some b
  rules : Spec.ProposalListOk l a.content.sender.leafIndex
  packages : ∀ k sender, (.add k, sender) ∈ l → Spec.PackageValid pr ctx k
  pathNeeded : c.path = none → l ≠ [] ∧ ∀ p ∈ l, Spec.pathless p.1
  depth : d ≤ 31
  applied : Spec.applyProposals (some ⟨d0, s0⟩) l = some (some ⟨d, s⟩)
  path : match c.path with
    | none => s' = s ∧ s'.treeHash (pr.hash sd.hash) 0 = some th
    | some path => Spec.PathOk pr sd ctx now s s' a.content.sender.leafIndex my (keys.take (2 ^ (d + 1) - 1)) path th
  transcript : (Spec.Rfc.confirmedTranscriptHashInput a.wireFormat a.content a.auth.signature).bytes = some input
  tag : a.auth.confirmationTag.length < 2 ^ 30
  context : (Spec.Rfc.groupContext { ctx with
    epoch := ctx.epoch + 1, treeHash := th, confirmedTranscriptHash := Spec.confirmedHash pr sd interim input }).bytes = some raw
  size : raw.length < 2 ^ 30

/-- The public message `m` is of the group and its epoch, signed by a member and authenticated with the membership key; `a` is its content. -/
def Spec.PublicOk (pr : Prims) (st : GroupState) (m : PublicMessage) (a : AuthenticatedContent) : Prop :=
  a = { wireFormat := .publicMessage, content := m.content, auth := m.auth } ∧ Spec.Authentic pr st a ∧ Spec.MembershipTagOk pr st m

/-- The private message `m` opens with the keys of the epoch, and what it holds is the content `a`, signed by the member that the message
names, and zeros. -/
def Spec.PrivateOk (pr : Prims) (sd : SuiteDesc) (st : GroupState) (depth : Nat) (m : PrivateMessage) (a : AuthenticatedContent) : Prop :=
  m.groupID.length < 2 ^ 30 ∧ m.authenticatedData.length < 2 ^ 30 ∧
  ∃ (li gen : UInt32) (guard : Bytes4) (pt : Bytes) (c : PrivateMessageContent) (k : Nat) (leaf : LeafNode) (tbs : Bytes),
    Spec.Opens pr sd st.group.groupContext st.group.epochSecret depth m li.toNat gen.toNat guard.toBytes pt ∧
    (PrivateMessageContent.dec m.contentType).run pt = (.ok c, List.replicate k 0) ∧
    a = { wireFormat := .privateMessage,
          content := { groupID := m.groupID, epoch := m.epoch, sender := .member li,
                       authenticatedData := m.authenticatedData, content := c.content },
          auth := c.auth } ∧
    st.vtree[2 * (li.toNat % 2 ^ 31)]? = some (some (.leaf leaf)) ∧
    (Spec.Rfc.framedContentTBS .privateMessage a.content st.group.groupContext).bytes = some tbs ∧
    Spec.ValidSig pr st.group.groupContext.cipherSuite leaf.signatureKey "FramedContentTBS" tbs a.auth.signature

/-- The authenticated content `a` is accepted: a proposal that a reference can be made to, application data that came encrypted, or a
good commit. -/
def Spec.ContentOk (pr : Prims) (sd : SuiteDesc) (g : Group) (now : GoTime) {d0 : Nat} (s0 : Ratchet ParentNode d0)
    (a : AuthenticatedContent) (encrypted : Prop) : Prop :=
  match a.content.content with
  | .proposal _ => ∃ r, Spec.Rfc.refHash pr sd "MLS 1.0 Proposal Reference" (Spec.Rfc.authenticatedContent a) = some r
  | .application _ => encrypted
  | .commit c => ∃ (l : List (Proposal × UInt32)) (d : Nat) (s s' : Ratchet ParentNode d) (th input raw : Bytes),
      Spec.CommitOk pr sd g.groupContext g.interimTranscriptHash g.pendingProposals now s0 g.myLeafIndex.toNat g.privTree a c l s s'
        th input raw

/-! ### The proposals -/

theorem verifyAdds_all {ctx : GroupContext} (ps : List Proposal) :
    verifyAdds pr ctx ps = .ok () ↔ ∀ k, .add k ∈ ps → Spec.PackageValid pr ctx k := by
  induction ps with
  | nil => simp [verifyAdds]
  | cons p ps ih =>
    cases p with
    | add k =>
      simp only [verifyAdds, Res.bind_ok_iff, List.mem_cons, Proposal.add.injEq]
      constructor
      · rintro ⟨⟨⟩, h1, h2⟩ k' (rfl | hk)
        · exact packageValid_iff.2 h1
        · exact ih.1 h2 k' hk
      · intro h
        exact ⟨(), packageValid_iff.1 (h k (.inl rfl)), ih.2 fun k' hk => h k' (.inr hk)⟩
    | update | remove | psk | reInit | externalInit | groupContextExtensions =>
      simp only [verifyAdds, List.mem_cons, reduceCtorEq, false_or]
      exact ih

theorem pskIDs_iff {l : List (Proposal × UInt32)} :
    PsksEncodable l ↔ ∀ id ∈ l.filterMap Spec.pskID, ∃ b, (Spec.Rfc.preSharedKeyID id).bytes = some b := by
  unfold PsksEncodable
  simp only [← preSharedKeyID_val, Enc.val_ok_iff]

theorem verifyProposalList_all (l : List (Proposal × UInt32)) (s : UInt32) :
    verifyProposalList (l.map (·.1)) (l.map (·.2)) s = .ok () ↔ PsksEncodable l ∧ Spec.ProposalListOk l s := by
  have hl : (l.map (·.1)).length = (l.map (·.2)).length := by simp
  have hz : (l.map (·.1)).zip (l.map (·.2)) = l := by
    induction l with
    | nil => rfl
    | cons p l ih => simp only [List.map_cons, List.zip_cons_cons]; rw [ih (by simp)]
  have hrules := C32_rules (l.map (·.1)) (l.map (·.2)) s hl
  rw [hz] at hrules
  constructor
  · intro h
    have he : PsksEncodable l := by
      have h' := h
      unfold verifyProposalList at h'
      rw [if_neg (by omega), verifyProposalLoop_iff _ _ _ _ _ hl, hz] at h'
      intro id hid
      obtain ⟨b, hb, _⟩ := h'.psks' id hid
      exact ⟨b, hb⟩
    exact ⟨he, (hrules he).1 h⟩
  · rintro ⟨he, h⟩
    exact (hrules he).2 h

theorem checkProposals_iff {g : Group} {s : UInt32} {c : Commit} {ps : List Proposal} {ss : List UInt32} :
    checkProposals pr g s c = .ok (ps, ss) ↔ ∃ l, Spec.resolve s g.pendingProposals c.proposals = some l ∧
      ps = l.map (·.1) ∧ ss = l.map (·.2) ∧ (∀ id ∈ l.filterMap Spec.pskID, ∃ b, (Spec.Rfc.preSharedKeyID id).bytes = some b) ∧
      Spec.ProposalListOk l s ∧ (∀ k sender, (.add k, sender) ∈ l → Spec.PackageValid pr g.groupContext k) ∧
      (c.path = none → l ≠ [] ∧ ∀ p ∈ l, Spec.pathless p.1) := by
  have hadds : ∀ l : List (Proposal × UInt32), verifyAdds pr g.groupContext (l.map (·.1)) = .ok () ↔
      ∀ k sender, (.add k, sender) ∈ l → Spec.PackageValid pr g.groupContext k := by
    intro l
    rw [verifyAdds_all]
    simp only [List.mem_map, Prod.exists, exists_and_right, exists_eq_right, forall_exists_index]
  have hpath : ∀ l : List (Proposal × UInt32), (!(proposalListNeedsPath (l.map (·.1)) && c.path.isNone)) = true ↔
      (c.path = none → l ≠ [] ∧ ∀ p ∈ l, Spec.pathless p.1) := by
    intro l
    rw [Bool.not_eq_true', Bool.and_eq_false_iff, C33_needs_path]
    cases c.path with
    | none => simp
    | some p => simp
  unfold checkProposals
  rw [resolveProposals_eq]
  constructor
  · intro h
    simp only [Res.bind_ok_iff] at h
    obtain ⟨⟨ps', ss'⟩, h1, ⟨⟩, h2, ⟨⟩, h3, ⟨⟩, h4, h5⟩ := h
    cases h5
    rw [orErr_ok_iff, Option.map_eq_some_iff] at h1
    obtain ⟨l, hl, he⟩ := h1
    obtain ⟨rfl, rfl⟩ := Prod.mk.inj he
    obtain ⟨h2, h2'⟩ := (verifyProposalList_all l s).1 h2
    exact ⟨l, hl, rfl, rfl, pskIDs_iff.1 h2, h2', (hadds l).1 h3, (hpath l).1 (Res.guardErr_ok_iff.1 h4)⟩
  · rintro ⟨l, hl, rfl, rfl, h1, h2, h3, h4⟩
    rw [hl]
    simp only [Option.map_some, orErr, Res.ok_bind]
    rw [(verifyProposalList_all l s).2 ⟨pskIDs_iff.2 h1, h2⟩, (hadds l).2 h3, (hpath l).2 h4]
    rfl

/-! ### The epoch -/

theorem joiner_bound {ctx : GroupContext} {d : SuiteDesc} (hd : suite ctx.cipherSuite = .ok d) {i c x raw : Bytes}
    (hraw : ctx.enc = .ok raw) (h : ctx.extractJoinerSecret pr i c = .ok x) : raw.length < 2 ^ 30 := by
  unfold GroupContext.extractJoinerSecret at h
  rw [hd, hraw] at h
  simp only [Res.ok_bind] at h
  unfold expandWithLabel at h
  simp only [Res.bind_ok_iff] at h
  obtain ⟨y, hy, _⟩ := h
  unfold encKdfLabel at hy
  simp only [Enc.append_ok_iff] at hy
  obtain ⟨_, _, _, h2, _⟩ := hy
  exact writeOpaqueVec_bound h2

theorem joiner_of {ctx : GroupContext} {d : SuiteDesc} (hd : suite ctx.cipherSuite = .ok d) (i c : Bytes) {raw : Bytes}
    (hraw : ctx.enc = .ok raw) (hb : raw.length < 2 ^ 30) : ∃ x, ctx.extractJoinerSecret pr i c = .ok x := by
  unfold GroupContext.extractJoinerSecret
  have hsz := (suite_sizes hd).1
  rw [hd, hraw]
  simp only [Res.ok_bind]
  exact ⟨_, expandWithLabel_eq hd _ _ lblJoiner_name (by decide) hb _ (by omega)⟩

theorem epoch_of {ctx : GroupContext} {d : SuiteDesc} (hd : suite ctx.cipherSuite = .ok d) (j p : Bytes) {raw : Bytes}
    (hraw : ctx.enc = .ok raw) (hb : raw.length < 2 ^ 30) : ∃ x, ctx.extractEpochSecret pr j (some p) = .ok x := by
  unfold GroupContext.extractEpochSecret
  have hsz := (suite_sizes hd).1
  rw [hd, hraw]
  simp only [Res.ok_bind]
  exact ⟨_, expandWithLabel_eq hd _ _ lblEpoch_name (by decide) hb _ (by omega)⟩

theorem finishCommit_iff (hc : pr.Correct) {st : GroupState} (hi : GroupInv pr st) {sd : SuiteDesc}
    (hsd : suite st.group.groupContext.cipherSuite = .ok sd) {ps : List Proposal} {ss : List UInt32} {h : Heap} {t : RTree}
    (ht : treeApply st.heap st.group.tree ps ss = .ok (h, t)) {d : Nat} (hd : d ≤ 31) {s : Ratchet ParentNode d} (hs : Holds h t s)
    (a : AuthenticatedContent) (c : Commit) (now : GoTime) :
    (∃ st', finishCommit pr st.group h t a c [] [] now = .ok st') ↔ ∃ s' th input raw,
      (match c.path with
        | none => s' = s ∧ s'.treeHash (pr.hash sd.hash) 0 = some th
        | some path => Spec.PathOk pr sd st.group.groupContext now s s' a.content.sender.leafIndex st.group.myLeafIndex.toNat
            (st.group.privTree.take (2 ^ (d + 1) - 1)) path th) ∧
      (Spec.Rfc.confirmedTranscriptHashInput a.wireFormat a.content a.auth.signature).bytes = some input ∧
      a.auth.confirmationTag.length < 2 ^ 30 ∧
      (Spec.Rfc.groupContext { st.group.groupContext with
        epoch := st.group.groupContext.epoch + 1, treeHash := th, confirmedTranscriptHash := Spec.confirmedHash pr sd st.group.interimTranscriptHash input }).bytes = some raw ∧
      raw.length < 2 ^ 30 := by
  obtain ⟨pt, hpt⟩ := copyPrivTree_total (b := t.length) hi.length
  have hcth : ∀ {input}, encConfirmedTranscriptHashInput a.wireFormat a.content a.auth.signature = .ok input →
      confirmedTranscriptHash pr st.group.groupContext.cipherSuite a.wireFormat a.content a.auth.signature
        st.group.interimTranscriptHash = .ok (Spec.confirmedHash pr sd st.group.interimTranscriptHash input) := by
    intro input hin
    unfold confirmedTranscriptHash
    rw [hsd, hin]
    rfl
  constructor
  · rintro ⟨st', hf⟩
    obtain ⟨th, sec, input, raw, g1, g2, g3, g4, g5⟩ := finishCommit_next hsd hf
    have hraw := g4.encoded
    rw [g4.context] at hraw
    have hsize : raw.length < 2 ^ 30 := by
      unfold finishCommit at hf
      simp only [Res.bind_ok_iff] at hf
      obtain ⟨_, _, _, _, ⟨h3, t3, ctx3, pt3, cs3⟩, hp, cth, hcth', itm, _, js, hjs, _, _, _, _, _, _, he⟩ := hf
      cases he
      have hcs : ctx3.cipherSuite = st.group.groupContext.cipherSuite :=
        show ({ ctx3 with confirmedTranscriptHash := cth } : GroupContext).cipherSuite = _ from congrArg (·.cipherSuite) g4.context
      have hra := context_some.1 g4.encoded
      exact joiner_bound (ctx := { ctx3 with confirmedTranscriptHash := cth }) (d := sd) (by rw [← hsd, ← hcs]) hra hjs
    rcases g5 with ⟨e1, e2⟩ | ⟨path, pt', e1, e2, e3⟩
    · refine ⟨s, th, input, raw, ?_, transcriptInput_some.2 g2, g4.tag, hraw, hsize⟩
      rw [e1]
      refine ⟨rfl, ?_⟩
      obtain ⟨_, pt2, _, ⟨_, k1, k2, _⟩ | ⟨path, _, _, k, _⟩⟩ := finishCommit_parts hf
      · unfold GroupState.vtree at g1
        rw [k1, k2, hs.flat] at g1
        exact (computeRootTreeHash_iff hc hsd hd s _).1 g1
      · rw [e1] at k; cases k
    · rw [hpt] at e2
      cases e2
      obtain ⟨s', hs'⟩ := (commitPath_iff hc hi hsd ht hd hs hpt a.content.sender.leafIndex path now th).1 ⟨_, _, _, _, e3⟩
      refine ⟨s', th, input, raw, ?_, transcriptInput_some.2 g2, g4.tag, hraw, hsize⟩
      rw [e1]
      exact hs'
  · rintro ⟨s', th, input, raw, h1, h2, h3, h4, h5⟩
    have h2 := hcth (transcriptInput_some.1 h2)
    have h3 := nextInterim_of (pr := pr) hsd (Spec.confirmedHash pr sd st.group.interimTranscriptHash input) h3
    have h4 := context_some.1 h4
    have hpsk := C38_none pr _ sd hsd
    have hpart : ∃ h' t' pt' sec, (match c.path with
        | some path => commitPath pr st.group.groupContext { st.group.groupContext with epoch := st.group.groupContext.epoch + 1 } h t
            a.content.sender.leafIndex st.group.myLeafIndex pt path now
        | none => do
          let treeHash ← computeRootTreeHash pr st.group.groupContext.cipherSuite (derefTree h t)
          return (h, t, { st.group.groupContext with epoch := st.group.groupContext.epoch + 1, treeHash := treeHash }, pt,
            List.replicate sd.kdf.size 0)) =
        .ok (h', t', { st.group.groupContext with epoch := st.group.groupContext.epoch + 1, treeHash := th }, pt', sec) := by
      cases hp : c.path with
      | none =>
        rw [hp] at h1
        obtain ⟨rfl, h1⟩ := h1
        have := (computeRootTreeHash_iff hc hsd hd s' th).2 h1
        rw [← hs.flat] at this
        simp only [this, Res.ok_bind]
        exact ⟨_, _, _, _, rfl⟩
      | some path =>
        rw [hp] at h1
        exact (commitPath_iff hc hi hsd ht hd hs hpt a.content.sender.leafIndex path now th).2 ⟨s', h1⟩
    obtain ⟨h', t', pt', sec, hpart⟩ := hpart
    obtain ⟨js, hjs⟩ := joiner_of (pr := pr) (ctx := { st.group.groupContext with
        epoch := st.group.groupContext.epoch + 1, treeHash := th, confirmedTranscriptHash := Spec.confirmedHash pr sd st.group.interimTranscriptHash input }) hsd st.group.initSecret sec h4 h5
    obtain ⟨es, hes⟩ := epoch_of (pr := pr) (ctx := { st.group.groupContext with
        epoch := st.group.groupContext.epoch + 1, treeHash := th, confirmedTranscriptHash := Spec.confirmedHash pr sd st.group.interimTranscriptHash input }) hsd js (List.replicate sd.kdf.size 0) h4 h5
    have hinit := deriveSecret_eq (pr := pr) hsd es (label := lblInit) (name := "init") lblInit_name (by decide)
    unfold finishCommit
    cases hp : c.path with
    | none =>
      rw [hp] at hpart
      simp only [Res.bind_ok_iff] at hpart
      obtain ⟨th', hth, hpart⟩ := hpart
      cases hpart
      simp only [hpt, hsd, hth, h2, h3, hjs, hpsk, hes, hinit, Res.ok_bind, Res.pure_eq]
      exact ⟨_, rfl⟩
    | some path =>
      rw [hp] at hpart
      simp only [hpt, hsd, hpart, h2, h3, hjs, hpsk, hes, hinit, Res.ok_bind, Res.pure_eq]
      exact ⟨_, rfl⟩

/-! ### C105 -/

theorem commit_iff (hc : pr.Correct) {st : GroupState} (hi : GroupInv pr st) {sd : SuiteDesc}
    (hsd : suite st.group.groupContext.cipherSuite = .ok sd) {d0 : Nat} (hd0 : d0 ≤ 31) {s0 : Ratchet ParentNode d0}
    (hs0 : Holds st.heap st.group.tree s0) {raw : Bytes} {a : AuthenticatedContent} {e : Bool}
    {c : Commit} (hca : Carries pr st raw a e) (hk : a.content.content = .commit c) (now : GoTime) :
    (∃ r st', unmarshalAndProcessMessage pr st raw now = (.ok r, st')) ↔
      ∃ (l : List (Proposal × UInt32)) (d : Nat) (s s' : Ratchet ParentNode d) (th input ctx : Bytes),
        Spec.CommitOk pr sd st.group.groupContext st.group.interimTranscriptHash st.group.pendingProposals now s0
          st.group.myLeafIndex.toNat st.group.privTree a c l s s' th input ctx := by
  constructor
  · rintro ⟨r, st', h⟩
    obtain ⟨l, hp, t, h1, h2, h3, h4⟩ := accepted_commit hca hk h
    obtain ⟨l', j1, j2, j3, j4, j5, j6, j7⟩ := checkProposals_iff.1 h2
    rw [h1, Option.some.injEq] at j1
    subst j1
    obtain ⟨r', hr1, hr2, hr3⟩ := treeApply_proposals (s := some ⟨d0, s0⟩) hd0 hs0 h3
    match r', hr1, hr2, hr3 with
    | none, _, _, hr3 =>
      replace hr3 : t = [] := hr3
      have hinv := finishCommit_inv hc hi h2 h3 h4
      obtain ⟨_, pt, _, ⟨_, _, e2, _⟩ | ⟨path, ctx', sec, _, hpath⟩⟩ := finishCommit_parts h4
      · have := hinv.own
        rw [e2, hr3] at this
        simp at this
      · obtain ⟨leaf, th, g1, _⟩ := commitPath_ok hpath
        rw [hr3] at g1
        unfold getLeaf at g1
        simp [derefTree, Res.idx] at g1
    | some ⟨d2, s2⟩, hr1, hr2, hr3 =>
      obtain ⟨s3, th, input, ctx, k1, k2, k3, k4, k5⟩ := (finishCommit_iff hc hi hsd h3 hr2 hr3 a c now).1 ⟨st', h4⟩
      exact ⟨l, d2, s2, s3, th, input, ctx, h1, j4, j5, j6, j7, hr2, hr1, k1, k2, k3, k4, k5⟩
  · rintro ⟨l, d, s, s', th, input, ctx, g⟩
    have hchk := (checkProposals_iff (pr := pr) (g := st.group) (s := a.content.sender.leafIndex) (c := c)).2
      ⟨l, g.resolved, rfl, rfl, g.pskIDs, g.rules, g.packages, g.pathNeeded⟩
    have hout := treeApply_outcome (s := some ⟨d0, s0⟩) hd0 hs0 l
    rw [g.applied] at hout
    rcases hout with ⟨hsm, h', t', h2, h3⟩ | ⟨hsm, _⟩
    · obtain ⟨st', h4⟩ := (finishCommit_iff hc hi hsd h2 g.depth (s := s) h3 a c now).2
        ⟨s', th, input, ctx, g.path, g.transcript, g.tag, g.context, g.size⟩
      refine ⟨none, st', ?_⟩
      rw [upm_of_carries hca]
      unfold dispatch processCommit
      simp only [hk, hchk, h2, h4]
      rfl
    · exact absurd g.depth hsm

/-- **C105** for commits: a member accepts the commit of a message exactly when it is good, in the sense of Spec.CommitOk. -/
theorem C105_commit (hc : pr.Correct) {st : GroupState} (hr : Reachable pr st) {raw : Bytes} {a : AuthenticatedContent} {e : Bool}
    {c : Commit} (hca : Carries pr st raw a e) (hk : a.content.content = .commit c) (now : GoTime) :
    ∃ (sd : SuiteDesc) (d0 : Nat) (s0 : Ratchet ParentNode d0), suite st.group.groupContext.cipherSuite = .ok sd ∧
      st.vtree = s0.flat .leaf .parent ∧
      ((∃ r st', unmarshalAndProcessMessage pr st raw now = (.ok r, st')) ↔
        ∃ (l : List (Proposal × UInt32)) (d : Nat) (s s' : Ratchet ParentNode d) (th input ctx : Bytes),
          Spec.CommitOk pr sd st.group.groupContext st.group.interimTranscriptHash st.group.pendingProposals now s0
            st.group.myLeafIndex.toNat st.group.privTree a c l s s' th input ctx) := by
  have hi := hr.inv hc
  obtain ⟨sd, hsd⟩ := hi.suite
  obtain ⟨d0, hd0, s0, hs0⟩ := hi.tree.holds
  exact ⟨sd, d0, s0, hsd, hs0.flat, commit_iff hc hi hsd hd0 hs0 hca hk now⟩

/-! ### C105 for all messages -/

theorem verifyPublicMessage_iff {st : GroupState} {sd : SuiteDesc} (hsd : suite st.group.groupContext.cipherSuite = .ok sd)
    {m : PublicMessage} {a : AuthenticatedContent} :
    verifyPublicMessage pr st m = .ok a ↔
      a = m.authenticatedContent ∧ Spec.Authentic pr st a ∧ Spec.MembershipTagOk pr st m := by
  refine ⟨verifyPublicMessage_ok, ?_⟩
  rintro ⟨rfl, ⟨h1, h2, li, leaf, tbs, h3, h4, h5, h6⟩, d, tbm, h7, h8, h9⟩
  have hd : d = sd := by
    have := (suite_iff_spec _ _).2 h7
    rw [hsd] at this
    cases this
    rfl
  subst hd
  have hs : m.content.sender = .member li := h3
  have hsig := content_verifySignature_iff.2 ⟨tbs, h5, h6⟩
  have hl : getLeaf st.vtree li.toNat = .ok (some leaf) := by
    rw [getLeaf_ok_some_iff]
    exact h4
  have htag : m.verifyMembershipTag pr (Spec.deriveSecret pr d st.group.epochSecret "membership")
      st.group.groupContext = .ok true := by
    unfold PublicMessage.verifyMembershipTag
    rw [hs]
    simp only [orFalse_ok_true]
    refine ⟨tbm, contentTBM_some.1 h8, ?_⟩
    unfold verifyMAC signMAC
    rw [hsd]
    simp [Res.ok_bind, h9]
  unfold verifyPublicMessage
  have hmk := deriveSecret_eq (pr := pr) hsd st.group.epochSecret (label := lblMembership) (name := "membership") lblMembership_name (by decide)
  have g1 : m.content.groupID = st.group.groupContext.groupID := h1
  have g2 : m.content.epoch = st.group.groupContext.epoch := h2
  simp only [g1, g2, hs, hl, orErr, Res.ok_bind]
  rw [hsig]
  simp only [hmk, htag, Res.ok_bind]
  simp

theorem contentOk_iff (hc : pr.Correct) {st : GroupState} (hi : GroupInv pr st) {sd : SuiteDesc}
    (hsd : suite st.group.groupContext.cipherSuite = .ok sd) {d0 : Nat} (hd0 : d0 ≤ 31) {s0 : Ratchet ParentNode d0}
    (hs0 : Holds st.heap st.group.tree s0) {raw : Bytes} {a : AuthenticatedContent} {e : Bool} (hca : Carries pr st raw a e) (now : GoTime) :
    (∃ r st', unmarshalAndProcessMessage pr st raw now = (.ok r, st')) ↔ Spec.ContentOk pr sd st.group now s0 a (e = true) := by
  unfold Spec.ContentOk
  cases hk : a.content.content with
  | proposal p =>
    rw [upm_of_carries hca]
    have href := fun r => (C102_references (pr := pr) hsd r).2 a ⟨p, hk⟩
    simp only [← href]
    unfold dispatch
    rw [hk]
    rcases processProposal_cases (pr := pr) st a p hk with ⟨ref, h1, h2⟩ | ⟨h1, h2⟩
    · simp only [h2]
      exact ⟨fun _ => ⟨ref, h1⟩, fun _ => ⟨_, _, rfl⟩⟩
    · constructor
      · rintro ⟨r, st', h⟩
        simp only [Prod.mk.injEq] at h
        exact absurd (bind_none_ok h.1).1 h1
      · rintro ⟨r, h⟩
        exfalso
        apply h1
        unfold processProposal
        rw [hk]
        simp only [h]
  | application data =>
    rw [upm_of_carries hca]
    unfold dispatch
    rw [hk]
    cases e with
    | true => exact ⟨fun _ => rfl, fun _ => ⟨_, _, rfl⟩⟩
    | false => exact ⟨fun ⟨_, _, h⟩ => (by cases h), fun h => (by cases h)⟩
  | commit c => exact commit_iff hc hi hsd hd0 hs0 hca hk now

/-- **C105**: a member accepts exactly these messages: those that parse as a public message that is authentic and carries the right membership
tag, or as a private message that opens, and whose content is accepted. Nothing else is asked; in particular nothing of the
confirmation tag but that it is not too long. -/
theorem C105_accepted (hc : pr.Correct) {st : GroupState} (hr : Reachable pr st) :
    ∃ (sd : SuiteDesc) (d0 : Nat) (s0 : Ratchet ParentNode d0), suite st.group.groupContext.cipherSuite = .ok sd ∧
      st.vtree = s0.flat .leaf .parent ∧ d0 ≤ 31 ∧ ∀ raw now,
      ((∃ r st', unmarshalAndProcessMessage pr st raw now = (.ok r, st')) ↔
        (∃ v m a, unmarshal MlsMessage.dec raw = .ok ⟨v, .publicMessage m⟩ ∧ Spec.PublicOk pr st m a ∧
          Spec.ContentOk pr sd st.group now s0 a False) ∨
        (∃ v m a, unmarshal MlsMessage.dec raw = .ok ⟨v, .privateMessage m⟩ ∧ Spec.PrivateOk pr sd st d0 m a ∧
          Spec.ContentOk pr sd st.group now s0 a True)) := by
  have hi := hr.inv hc
  obtain ⟨sd, hsd⟩ := hi.suite
  obtain ⟨d0, hd0, s0, hs0⟩ := hi.tree.holds
  have hlen : st.group.tree.length = 2 ^ (d0 + 1) - 1 := hs0.length
  refine ⟨sd, d0, s0, hsd, hs0.flat, hd0, fun raw now => ?_⟩
  constructor
  · rintro ⟨r, st', h⟩
    obtain ⟨a, e, hca, _⟩ := accepted_cases h
    have hok := (contentOk_iff hc hi hsd hd0 hs0 hca now).1 ⟨r, st', h⟩
    cases hca with
    | pub hd hv =>
      refine .inl ⟨_, _, a, hd, verifyPublicMessage_ok hv, ?_⟩
      simpa using hok
    | priv hd hv =>
      refine .inr ⟨_, _, a, hd, (C62_received pr hc st sd hsd d0 hd0 hlen _ a).1 hv, ?_⟩
      simpa using hok
  · rintro (⟨v, m, a, h1, h2, h3⟩ | ⟨v, m, a, h1, h2, h3⟩)
    · refine (contentOk_iff hc hi hsd hd0 hs0 (.pub h1 ((verifyPublicMessage_iff hsd).2 h2)) now).2 ?_
      simpa using h3
    · refine (contentOk_iff hc hi hsd hd0 hs0 (.priv h1 ((C62_received pr hc st sd hsd d0 hd0 hlen m a).2 h2)) now).2 ?_
      simpa using h3

/-- There are such messages, on both sides: a commit with a path that one member accepts, and another, with a proposal too, that is
refused. Both are authentic. -/
example : toyThree.holds (fun (a, b, c) =>
    let m := toyCommit a 1 1 [] (List.replicate 32 9) []
    let m' := toyCommit b 0 0 [.add (toyMember 3).pub] (List.replicate 32 9) [6]
    decide ((unmarshalAndProcessMessage toyPrims a m toyLater).1 = .ok none) &&
    decide ((unmarshalAndProcessMessage toyPrims c m' toyLater).1 = .err)) = true := by decide +kernel

/-- A reachable state and a commit with a path for which everything of Spec.CommitOk holds. -/
theorem toyThree_commitOk : ∃ (st : GroupState) (sd : SuiteDesc) (d0 : Nat) (s0 : Ratchet ParentNode d0) (raw : Bytes)
    (a : AuthenticatedContent), Reachable toyPrims st ∧ st.vtree = s0.flat .leaf .parent ∧ Carries toyPrims st raw a false ∧
      (∃ c path, a.content.content = .commit c ∧ c.path = some path ∧ path.nodes.length = 2) ∧
      Spec.ContentOk toyPrims sd st.group toyLater s0 a False := by
  have key : toyThree.holds (fun (a, _, _) =>
    let m := toyCommit a 1 1 [] (List.replicate 32 9) []
    decide ((unmarshalAndProcessMessage toyPrims a m toyLater).1 = .ok none) &&
    (match unmarshal MlsMessage.dec m with
      | .ok ⟨_, .publicMessage m⟩ => (match m.content.content with
        | .commit c => (match c.path with | some p => decide (p.nodes.length = 2) | none => false)
        | _ => false)
      | _ => false)) = true := by decide +kernel
  obtain ⟨⟨a, b, c⟩, ht, key⟩ := Res.holds_ok key
  obtain ⟨hr, -, -⟩ := toyThree_reachable ht
  simp only at key
  clear ht
  generalize toyCommit a 1 1 [] (List.replicate 32 9) [] = raw at key
  rw [Bool.and_eq_true, decide_eq_true_eq] at key
  obtain ⟨k1, k2⟩ := key
  obtain ⟨sd, d0, s0, h1, h2, h3, h4⟩ := C105_accepted toyPrims_correct hr
  rcases (h4 raw toyLater).1 ⟨none, _, Prod.ext k1 rfl⟩ with ⟨v, m, x, g1, g2, g3⟩ | ⟨v, m, x, g1, g2, g3⟩
  · rw [g1] at k2
    simp only at k2
    refine ⟨a, sd, d0, s0, raw, x, hr, h2, .pub g1 ((verifyPublicMessage_iff h1).2 g2), ?_, g3⟩
    rw [g2.1]
    split at k2 <;> try cases k2
    next c hcm =>
    split at k2 <;> try cases k2
    next p hp => exact ⟨c, p, hcm, hp, of_decide_eq_true k2⟩
  · rw [g1] at k2
    cases k2

end Mls
