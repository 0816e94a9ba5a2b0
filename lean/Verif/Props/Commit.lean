import Verif.Proofs.Path
import Verif.Props.Invariant
/-
C54, C69, C70: what an accepted commit does, and the agreement of members.
-/
namespace Mls

open Spec (Ratchet nodeAt IsAncestor)

variable {pr : Prims}

/-! ### C69 -/

/-- **C69.** The epoch after an accepted commit is the one RFC 9420 prescribes (sections 7.4 to 7.9, 8 and 8.2). The tree is that before with
the proposals applied and the path merged; the new context has the next epoch, the tree hash of the new tree and
the confirmed transcript hash over the commit; the epoch secret is derived from the init secret of the epoch before, the commit
secret and the new context (with no pre-shared key); and the commit secret is all zeros without a path, and
with a path it is derived from the path secret encrypted to the member. -/
theorem C69_epoch (hc : pr.Correct) {st st' : GroupState} (hr : Reachable pr st) {raw : Bytes} {now : GoTime} {r : Option Bytes}
    {a : AuthenticatedContent} {e : Bool} {c : Commit} (hca : Carries pr st raw a e) (hk : a.content.content = .commit c)
    (h : unmarshalAndProcessMessage pr st raw now = (.ok r, st')) :
    ∃ (sd : SuiteDesc) (l : List (Proposal × UInt32)) (d0 d : Nat) (s0 : Ratchet ParentNode d0) (s s' : Ratchet ParentNode d)
        (th sec input ctx : Bytes), suite st.group.groupContext.cipherSuite = .ok sd ∧
      Spec.resolve a.content.sender.leafIndex st.group.pendingProposals c.proposals = some l ∧
      CommitTree pr sd st.vtree st'.vtree l a.content.sender.leafIndex c.path d0 d s0 s s' ∧
      s'.treeHash (pr.hash sd.hash) 0 = some th ∧
      (Spec.Rfc.confirmedTranscriptHashInput a.wireFormat a.content a.auth.signature).bytes = some input ∧
      Spec.NextEpoch pr sd st.group.keyState st'.group.keyState th sec (List.replicate sd.kdf.size 0) input
        a.auth.confirmationTag ctx ∧
      st'.group.pendingProposals = [] ∧
      match c.path with
      | none => sec = List.replicate sd.kdf.size 0
      | some path => ∃ provisional e ps, (Spec.Rfc.groupContext { st.group.groupContext with
            epoch := st.group.groupContext.epoch + 1, treeHash := th }).bytes = some provisional ∧
          Spec.Received pr sd s' provisional (a.content.sender.leafIndex.toNat % 2 ^ 31) st.group.myLeafIndex.toNat path
            (st.group.privTree.take (2 ^ (d + 1) - 1)) st'.group.privTree sec e ps := by
  have hi := hr.inv hc
  obtain ⟨sd, hsd⟩ := hi.suite
  obtain ⟨l, hp, t, h1, h2, h3, h4⟩ := accepted_commit hca hk h
  obtain ⟨d0, d, s0, s, s', htree⟩ := commit_tree hc hi hsd h2 h3 h4
  obtain ⟨th, sec, input, ctx, g1, g2, g3, g4, g5⟩ := finishCommit_next hsd h4
  rw [C38_none pr _ sd hsd] at g3
  rw [← Res.ok.inj g3] at g4
  have hth : s'.treeHash (pr.hash sd.hash) 0 = some th := by
    rw [htree.after] at g1
    exact (computeRootTreeHash_iff hc hsd htree.depth s' th).1 g1
  refine ⟨sd, l, d0, d, s0, s, s', th, sec, input, ctx, hsd, h1, htree, hth, transcriptInput_some.2 g2, g4, (finishCommit_group h4).2.2.2.2.2.2.2, ?_⟩
  rcases g5 with ⟨e1, e2⟩ | ⟨path, pt, e1, e2, e3⟩
  · rw [e1]; exact e2
  · rw [e1]
    obtain ⟨d2, s2, m, e, ps, k1, k2, k3, k4, k5⟩  :=
      commit_secret (newCtx := { st.group.groupContext with epoch := st.group.groupContext.epoch + 1 }) hc hi hsd h3 rfl e3
    have hd : d2 = d := by
      have := k4.symm.trans htree.after
      have hl := congrArg List.length this
      rw [flat_length, flat_length] at hl
      have p1 : 0 < 2 ^ (d2 + 1) := Nat.two_pow_pos _
      have p2 : 0 < 2 ^ (d + 1) := Nat.two_pow_pos _
      have : 2 ^ (d2 + 1) = 2 ^ (d + 1) := by omega
      have := Nat.pow_right_injective (Nat.le_refl 2) this
      omega
    subst hd
    obtain rfl := flat_inj _ _ (k4.symm.trans htree.after)
    rw [k4] at k5
    obtain ⟨provisional, q1, q2⟩ := PathSecrets.received (ctx := { st.group.groupContext with
      epoch := st.group.groupContext.epoch + 1, treeHash := th }) hsd k1 k2 k3 k5
    refine ⟨provisional, e, ps, context_some.2 q1, ?_⟩
    obtain ⟨x, res, pn, j, y, k, ct, o1, o2, o3, o4, o5, o6, o7⟩ := q2.opened
    refine ⟨q2.length, ⟨x, res, pn, j, y, k, ct, o1, o2, o3, o4, o5, ?_, o7⟩, q2.node, q2.commit⟩
    have hlt := (List.getElem?_eq_some_iff.1 o6).1
    obtain ⟨hl, hcopy⟩ := copyPrivTree_ok e2
    have hlen : t.length = 2 ^ (d2 + 1) - 1 := by
      have := (finishCommit_inv hc hi h2 h3 h4).length
      rw [← hl]
      obtain ⟨_, _, _, _, hpc⟩ := committed_path hc hi h3 e3
      rw [← hpc.read.length, this, ← derefTree_length st'.heap]
      show st'.vtree.length = _
      rw [htree.after, flat_length]
    rw [List.getElem?_take_of_lt (by omega)]
    exact hcopy _ _ o6

/-! ### C70 -/

/-- Two members have the same view of the group: the same tree, the same context, secrets and transcript, and the same
proposals waiting for a commit. -/
structure SameView (a b : GroupState) : Prop where
  tree : a.vtree = b.vtree
  keys : a.group.keyState = b.group.keyState
  pending : a.group.pendingProposals = b.group.pendingProposals

theorem SameView.symm {a b : GroupState} (h : SameView a b) : SameView b a := ⟨h.tree.symm, h.keys.symm, h.pending.symm⟩

theorem SameView.context {a b : GroupState} (h : SameView a b) : a.group.groupContext = b.group.groupContext :=
  congrArg Spec.Epoch.context h.keys

theorem SameView.epochSecret {a b : GroupState} (h : SameView a b) : a.group.epochSecret = b.group.epochSecret :=
  congrArg Spec.Epoch.epochSecret h.keys

theorem SameView.length {a b : GroupState} (h : SameView a b) : a.group.tree.length = b.group.tree.length := by
  have := congrArg List.length h.tree
  unfold GroupState.vtree at this
  rwa [derefTree_length, derefTree_length] at this

/-- What a message carries depends on the view only. -/
theorem SameView.carries {st st2 : GroupState} (hv : SameView st st2) {raw : Bytes} {a : AuthenticatedContent} {e : Bool}
    (h : Carries pr st raw a e) : Carries pr st2 raw a e := by
  cases h with
  | pub hd h =>
    refine .pub hd ?_
    unfold verifyPublicMessage at h ⊢
    rw [hv.context, hv.tree, hv.epochSecret] at h
    exact h
  | priv hd h =>
    refine .priv hd ?_
    unfold decryptPrivateMessage at h ⊢
    have hn : treeNumLeaves st.group.tree = treeNumLeaves st2.group.tree := by
      unfold treeNumLeaves
      rw [hv.length]
    rw [hv.context, hv.tree, hv.epochSecret, hn] at h
    exact h

theorem NextEpoch.unique {sd : SuiteDesc} {e e1 e2 : Spec.Epoch} {th sec psk input tag raw raw2 : Bytes}
    (h1 : Spec.NextEpoch pr sd e e1 th sec psk input tag raw) (h2 : Spec.NextEpoch pr sd e e2 th sec psk input tag raw2) :
    e1 = e2 := by
  have hx : e1.context = e2.context := by rw [h1.context, h2.context]
  have hraw : raw = raw2 := by
    have := h1.encoded.symm.trans ((congrArg (fun c => (Spec.Rfc.groupContext c).bytes) hx).trans h2.encoded)
    exact Option.some.inj this
  subst hraw
  obtain ⟨c1, i1, s1, n1⟩ := e1
  obtain ⟨c2, i2, s2, n2⟩ := e2
  have g1 := h1.interim
  have g2 := h2.interim
  have g3 := h1.epochSecret
  have g4 := h2.epochSecret
  have g5 := h1.initSecret
  have g6 := h2.initSecret
  simp only at hx g1 g2 g3 g4 g5 g6
  subst hx
  rw [g5, g6, g3, g4, g1, g2]

/-- `p` is a path secret that a member in the state `st` got from the commit in the message `raw`, by which it got to the state `st'`: one of
the encrypted path secrets of the commit opens with a private key that the member holds, and `p` is some steps above. -/
def Heard (pr : Prims) (sd : SuiteDesc) (st st' : GroupState) (raw p : Bytes) : Prop :=
  ∃ (a : AuthenticatedContent) (enc : Bool) (c : Commit) (path : UpdatePath) (pn : UpdatePathNode) (ct : HpkeCiphertext) (x : Nat)
      (k ctx ps : Bytes) (n : Nat),
    (∃ r now, unmarshalAndProcessMessage pr st raw now = (.ok r, st')) ∧ Carries pr st raw a enc ∧ a.content.content = .commit c ∧ c.path = some path ∧ pn ∈ path.nodes ∧ ct ∈ pn.encryptedPathSecret ∧
    st.group.privTree[x]? = some (some k) ∧
    (Spec.Rfc.groupContext { st'.group.groupContext with
      confirmedTranscriptHash := st.group.groupContext.confirmedTranscriptHash }).bytes = some ctx ∧
    pr.hpkeOpen sd k (Spec.encryptContext "UpdatePathNode" ctx) ct.kemOutput ct.ciphertext = some ps ∧
    n ≤ path.nodes.length ∧ p = Spec.pathSecret pr sd ps n

/-- Two members got different path secrets with the same public key from one message. -/
def PathCollision (pr : Prims) (st st' st2 st2' : GroupState) (raw : Bytes) : Prop :=
  ∃ sd p q, suite st.group.groupContext.cipherSuite = .ok sd ∧ Heard pr sd st st' raw p ∧ Heard pr sd st2 st2' raw q ∧
    p ≠ q ∧ (Spec.nodeKeys pr sd p).1 = (Spec.nodeKeys pr sd q).1

/-- The path secrets of a commit are got from what the message carries. -/
theorem PathSecrets.heard {sd : SuiteDesc} {st st' : GroupState} {raw : Bytes} {a : AuthenticatedContent} {enc : Bool} {c : Commit}
    {path : UpdatePath} (hsd : suite st.group.groupContext.cipherSuite = .ok sd)
    (hacc : ∃ r now, unmarshalAndProcessMessage pr st raw now = (.ok r, st')) (hca : Carries pr st raw a enc)
    (hk : a.content.content = .commit c) (hp : c.path = some path) {t : RTree} {pt : List (Option Bytes)}
    (hcp : copyPrivTree st.group.privTree st.group.tree.length t.length = .ok pt) {v : VTree} {th : Bytes}
    {input sec psk tag ctx : Bytes} (hne : Spec.NextEpoch pr sd st.group.keyState st'.group.keyState th sec psk input tag ctx)
    {F : List Nat} {i r : Nat} {pt' : List (Option Bytes)} {m e : Nat} {ps : Bytes}
    (h : PathSecrets pr sd v { st.group.groupContext with epoch := st.group.groupContext.epoch + 1, treeHash := th } F i r path pt pt' sec m e ps)
    {n : Nat} (hn : n ≤ path.nodes.length) : Heard pr sd st st' raw (Spec.pathSecret pr sd ps n) := by
  obtain ⟨res, pn, j, x, k, ct, h1, h2, h3, h4, h5, _, h6, h7⟩ := h.opened
  obtain ⟨raw', hraw, hopen⟩ := decryptPathSecret_ok (ctx := { st.group.groupContext with
    epoch := st.group.groupContext.epoch + 1, treeHash := th }) hsd h7
  refine ⟨a, enc, c, path, pn, ct, x, k, raw', ps, n, hacc, hca, hk, hp, List.mem_of_getElem? h2, List.mem_of_getElem? h6,
    (copyPrivTree_ok hcp).2 x k h5, ?_, hopen, hn, rfl⟩
  have := hne.context
  simp only [Group.keyState] at this
  rw [this]
  exact context_some.2 hraw

/-- **C70.** Two members with the same view of the group that accept the same message get the same data from it and have
the same view afterwards, epoch secrets included; or else they got from it two different path secrets with one public key. -/
theorem C70_agree (hc : pr.Correct) {st st2 st' st2' : GroupState} (hr : Reachable pr st) (hr2 : Reachable pr st2)
    (hv : SameView st st2) {raw : Bytes} {now now2 : GoTime} {r r2 : Option Bytes}
    (h : unmarshalAndProcessMessage pr st raw now = (.ok r, st'))
    (h2 : unmarshalAndProcessMessage pr st2 raw now2 = (.ok r2, st2')) :
    r = r2 ∧ (SameView st' st2' ∨ PathCollision pr st st' st2 st2' raw) := by
  obtain ⟨a, e, hca, hcase⟩ := accepted_cases h
  obtain ⟨a2, e2, hca2, hcase2⟩ := accepted_cases h2
  obtain ⟨rfl, rfl⟩ := (hv.carries hca).unique hca2
  rcases hcase with ⟨p, hp, rfl, hpp⟩ | ⟨c, hcm, rfl, hpc⟩ | ⟨data, hdata, rfl, rfl, _⟩
  · rcases hcase2 with ⟨p2, hp2, rfl, hpp2⟩ | ⟨c, hcm, _⟩ | ⟨data, hdata, _⟩
    · refine ⟨rfl, .inl ?_⟩
      rcases processProposal_cases (pr := pr) st a p hp with ⟨ref, hrf, he⟩ | ⟨hne, _⟩
      · rcases processProposal_cases (pr := pr) st2 a p hp with ⟨ref2, hrf2, he2⟩ | ⟨hne, _⟩
        · rw [hpp] at he
          rw [hpp2] at he2
          obtain rfl := (Prod.mk.inj he).2
          obtain rfl := (Prod.mk.inj he2).2
          rw [hv.context, hrf2] at hrf
          cases hrf
          exact ⟨hv.tree, hv.keys, by simp only [hv.pending]⟩
        · rw [hpp2] at hne; exact absurd rfl hne
      · rw [hpp] at hne; exact absurd rfl hne
    · rw [hp] at hcm; cases hcm
    · rw [hp] at hdata; cases hdata
  · rcases hcase2 with ⟨p, hp, _⟩ | ⟨c2, hcm2, rfl, hpc2⟩ | ⟨data, hdata, _⟩
    · rw [hcm] at hp; cases hp
    · refine ⟨rfl, ?_⟩
      have hi := hr.inv hc
      have hi2 := hr2.inv hc
      obtain ⟨sd, hsd⟩ := hi.suite
      have hsd2 : suite st2.group.groupContext.cipherSuite = .ok sd := by rw [← hv.context]; exact hsd
      obtain ⟨l, hp, t, k1, k2, k3, k4⟩ := accepted_commit hca hcm h
      obtain ⟨l2, hp2, t2, j1, j2, j3, j4⟩ := accepted_commit hca2 hcm h2
      rw [hv.pending, j1] at k1
      cases k1
      obtain ⟨d0, d, s0, s, s', htree⟩ := commit_tree hc hi hsd k2 k3 k4
      obtain ⟨d0', d', s0', s2, s2', htree2⟩ := commit_tree hc hi2 hsd2 j2 j3 j4
      rw [← hv.tree] at htree2
      have htr := htree.unique htree2
      obtain ⟨th, sec, input, ctx, g1, g2, g3, g4, g5⟩ := finishCommit_next hsd k4
      obtain ⟨th2, sec2, input2, ctx2, f1, f2, f3, f4, f5⟩ := finishCommit_next hsd2 j4
      rw [hv.context, htr, f1] at g1
      cases g1
      rw [g2] at f2
      cases f2
      rw [hv.context, f3] at g3
      have hpsk := Res.ok.inj g3
      have hpend : st'.group.pendingProposals = st2'.group.pendingProposals := by
        rw [(finishCommit_group k4).2.2.2.2.2.2.2, (finishCommit_group j4).2.2.2.2.2.2.2]
      have done : sec = sec2 → SameView st' st2' := by
        rintro rfl
        rw [hpsk, ← hv.keys] at f4
        exact ⟨htr, NextEpoch.unique g4 f4, hpend⟩
      rcases g5 with ⟨e1, e2⟩ | ⟨path, pt, e1, e2, e3⟩
      · rcases f5 with ⟨_, q2⟩ | ⟨_, _, q1, _⟩
        · exact .inl (done (by rw [e2, q2]))
        · rw [e1] at q1; cases q1
      · rcases f5 with ⟨q1, _⟩ | ⟨path2, pt2, q1, q2, q3⟩
        · rw [e1] at q1; cases q1
        · rw [e1] at q1
          cases q1
          obtain ⟨d, s, m, e, ps, u1, u2, u3, u4, u5⟩ := commit_secret
            (newCtx := { st.group.groupContext with epoch := st.group.groupContext.epoch + 1 }) hc hi hsd k3 rfl e3
          obtain ⟨d', s2, m', e', ps', v1, v2, v3, v4, v5⟩ := commit_secret
            (newCtx := { st2.group.groupContext with epoch := st2.group.groupContext.epoch + 1 }) hc hi2 hsd2 j3 rfl q3
          have hd : d = d' := by
            have := u4.symm.trans (htr.trans v4)
            have hl := congrArg List.length this
            rw [flat_length, flat_length] at hl
            have p1 : 0 < 2 ^ (d + 1) := Nat.two_pow_pos _
            have p2 : 0 < 2 ^ (d' + 1) := Nat.two_pow_pos _
            have : 2 ^ (d + 1) = 2 ^ (d' + 1) := by omega
            have := Nat.pow_right_injective (Nat.le_refl 2) this
            omega
          subst hd
          obtain rfl := flat_inj _ _ (u4.symm.trans (htr.trans v4))
          rw [← htr] at v5
          rcases u5.agree v5 with hs | ⟨n, n2, hn, hn2, hpq, hk⟩
          · exact .inl (done hs)
          · exact .inr ⟨sd, _, _, hsd, u5.heard hsd ⟨_, _, h⟩ hca hcm e1 e2 g4 hn, v5.heard hsd2 ⟨_, _, h2⟩ hca2 hcm e1 q2 f4 hn2, hpq, hk⟩
    · rw [hcm] at hdata; cases hdata
  · rcases hcase2 with ⟨p, hp, _⟩ | ⟨c2, hcm2, _⟩ | ⟨data2, hdata2, rfl, rfl, _⟩
    · rw [hp] at hdata; cases hdata
    · rw [hcm2] at hdata; cases hdata
    · rw [hdata] at hdata2
      cases hdata2
      exact ⟨rfl, .inl hv⟩

/-- All of the messages, in order, are accepted: the data got from them, and the group afterwards. -/
inductive Accepts (pr : Prims) : GroupState → List Bytes → List (Option Bytes) → GroupState → Prop where
  | nil (st : GroupState) : Accepts pr st [] [] st
  | cons {st st1 st2 : GroupState} {raw : Bytes} {raws : List Bytes} {now : GoTime} {r : Option Bytes} {rs : List (Option Bytes)}
      (h : unmarshalAndProcessMessage pr st raw now = (.ok r, st1)) (hs : Accepts pr st1 raws rs st2) :
      Accepts pr st (raw :: raws) (r :: rs) st2

/-- **C70**, over a history: two members with the same view that accept the same messages, any number of them, get the same data
and end with the same view, or from one of the messages they got different path secrets with one public key. -/
theorem C70_history (hc : pr.Correct) {st st2 st' st2' : GroupState} (hr : Reachable pr st) (hr2 : Reachable pr st2)
    (hv : SameView st st2) {raws : List Bytes} {rs rs2 : List (Option Bytes)} (h : Accepts pr st raws rs st')
    (h2 : Accepts pr st2 raws rs2 st2') :
    (rs = rs2 ∧ SameView st' st2') ∨
      ∃ (u v u' v' : GroupState) (raw : Bytes), raw ∈ raws ∧ Reachable pr u ∧ Reachable pr v ∧ SameView u v ∧ PathCollision pr u u' v v' raw := by
  induction h generalizing st2 rs2 with
  | nil =>
    cases h2
    exact .inl ⟨rfl, hv⟩
  | @cons st st1 st3 raw raws now r rs h hs ih =>
    cases h2 with
    | cons g gs =>
      obtain ⟨rfl, hv' | hcol⟩ := C70_agree hc hr hr2 hv h g
      · rcases ih (.message hr h ⟨by simp, by simp⟩) (.message hr2 g ⟨by simp, by simp⟩) hv' gs with
          ⟨rfl, hv2⟩ | ⟨u, v, u', v', m, hm, hh⟩
        · exact .inl ⟨rfl, hv2⟩
        · exact .inr ⟨u, v, u', v', m, List.mem_cons_of_mem _ hm, hh⟩
      · exact .inr ⟨_, _, _, _, _, List.mem_cons_self, hr, hr2, hv, hcol⟩

instance (a b : GroupState) : Decidable (SameView a b) :=
  decidable_of_iff (a.vtree = b.vtree ∧ a.group.keyState = b.group.keyState ∧
    a.group.pendingProposals = b.group.pendingProposals) ⟨fun h => ⟨h.1, h.2.1, h.2.2⟩, fun h => ⟨h.1, h.2, h.3⟩⟩

/-- Three members that agree; a proposal and two commits with paths later, those that are not the committer still do, and
the epoch secret has changed. -/
example : (match toyThree with
    | .ok (a, b, c) => decide (SameView a b ∧ SameView a c) &&
      (let m := toyCommit a 1 1 [] (List.replicate 32 9) []
       match a.after m, c.after m with
       | .ok a', .ok c' =>
         let m' := toyPublic a' 0 0 (.proposal (.remove 0)) [1]
         decide (SameView a' c' ∧ a'.group.epochSecret ≠ a.group.epochSecret) &&
         (match a'.after m', c'.after m' with
         | .ok a'', .ok c'' => decide (SameView a'' c'' ∧ a''.group.pendingProposals ≠ [])
         | _, _ => false)
       | _, _ => false)
    | _ => false) = true := by decide +kernel

/-! ### C54 -/

/-- **C54**, what is true of it: the Adds, Updates and Removes of an accepted commit, and its path, take effect on the
tree as RFC 9420 sections 7.5, 7.7 and 12.4.2 prescribe, with leaf indices taken modulo 2^31. Missing: the proposals of other types,
which have no effect (C54_extensions, C54_psk, C54_refuted). -/
theorem C54_partial (hc : pr.Correct) {st st' : GroupState} (hr : Reachable pr st) {raw : Bytes} {now : GoTime} {r : Option Bytes}
    {a : AuthenticatedContent} {e : Bool} {c : Commit} (hca : Carries pr st raw a e) (hk : a.content.content = .commit c)
    (h : unmarshalAndProcessMessage pr st raw now = (.ok r, st')) :
    ∃ sd l d0 d s0 s s', suite st.group.groupContext.cipherSuite = .ok sd ∧
      Spec.resolve a.content.sender.leafIndex st.group.pendingProposals c.proposals = some l ∧
      CommitTree pr sd st.vtree st'.vtree l a.content.sender.leafIndex c.path d0 d s0 s s' := by
  obtain ⟨sd, l, d0, d, s0, s, s', _, _, _, _, h1, h2, h3, _⟩ := C69_epoch hc hr hca hk h
  exact ⟨sd, l, d0, d, s0, s, s', h1, h2, h3⟩

/-- No message changes the extensions of the group context, so no GroupContextExtensions proposal ever has an effect. -/
theorem C54_extensions (st : GroupState) (raw : Bytes) (now : GoTime) :
    (unmarshalAndProcessMessage pr st raw now).2.group.groupContext.extensions = st.group.groupContext.extensions :=
  (message_effect (pr := pr) st raw now).1.extensions

/-- The PSK secret of the epoch after an accepted commit is that of no pre-shared keys, whatever PreSharedKey proposals
the commit has. -/
theorem C54_psk (hc : pr.Correct) {st st' : GroupState} (hr : Reachable pr st) {raw : Bytes} {now : GoTime} {r : Option Bytes}
    {a : AuthenticatedContent} {e : Bool} {c : Commit} (hca : Carries pr st raw a e) (hk : a.content.content = .commit c)
    (h : unmarshalAndProcessMessage pr st raw now = (.ok r, st')) :
    ∃ sd sec ctx, suite st.group.groupContext.cipherSuite = .ok sd ∧
      st'.group.epochSecret = Spec.epochSecret pr sd (Spec.joinerSecret pr sd st.group.initSecret sec ctx)
        (Spec.pskSecret pr sd []) ctx := by
  obtain ⟨sd, l, d0, d, s0, s, s', _, sec, _, ctx, h1, _, _, _, _, h2, _⟩ := C69_epoch hc hr hca hk h
  exact ⟨sd, sec, ctx, h1, h2.epochSecret⟩

/-- Proposals that should change the context, enter the key schedule, and close the group. -/
def toyExts : Proposal := .groupContextExtensions [⟨9, [1]⟩]
def toyPskProposal : Proposal := .psk ⟨.external [5], [6]⟩
def toyReInit : Proposal := .reInit ⟨[8], 1, 1, []⟩

/-- C54 is false: commits with a GroupContextExtensions, a PreSharedKey or a ReInit proposal are accepted. The first leaves
the extensions as they were; after the second all pre-shared keys are as good as none; and after the third the
group goes on: it accepts a further commit. -/
theorem C54_refuted : ∃ st, Reachable toyPrims st ∧
    (∃ raw, (unmarshalAndProcessMessage toyPrims st raw toyLater).1 = .ok none ∧
      (∃ m c, unmarshal MlsMessage.dec raw = .ok ⟨1, .publicMessage m⟩ ∧ m.content.content = .commit c ∧
        c.proposals = [.proposal (.groupContextExtensions [⟨9, [1]⟩])]) ∧
      (unmarshalAndProcessMessage toyPrims st raw toyLater).2.group.groupContext.extensions = []) ∧
    (∃ raw, (unmarshalAndProcessMessage toyPrims st raw toyLater).1 = .ok none ∧
      (∃ m c, unmarshal MlsMessage.dec raw = .ok ⟨1, .publicMessage m⟩ ∧ m.content.content = .commit c ∧
        c.proposals = [.proposal (.psk ⟨.external [5], [6]⟩)]) ∧
      (unmarshalAndProcessMessage toyPrims st raw toyLater).2.group.pskSecret = List.replicate 32 0) ∧
    ∃ raw raw' st', unmarshalAndProcessMessage toyPrims st raw toyLater = (.ok none, st') ∧
      (∃ m c, unmarshal MlsMessage.dec raw = .ok ⟨1, .publicMessage m⟩ ∧ m.content.content = .commit c ∧
        c.proposals = [.proposal (.reInit ⟨[8], 1, 1, []⟩)]) ∧
      (unmarshalAndProcessMessage toyPrims st' raw' toyLater).1 = .ok none ∧
      (unmarshalAndProcessMessage toyPrims st' raw' toyLater).2.group.groupContext.epoch =
        st.group.groupContext.epoch + 2 := by
  have key : (match toyTwo with
    | .ok (a, _) =>
      let m1 := toyCommit a 1 1 [toyExts] (List.replicate 32 9) []
      let m2 := toyPublic a 1 1 (.commit ⟨[.proposal toyPskProposal], none⟩) [1]
      let m3 := toyPublic a 1 1 (.commit ⟨[.proposal toyReInit], none⟩) [1]
      let st' := (unmarshalAndProcessMessage toyPrims a m3 toyLater).2
      let m4 := toyCommit st' 1 1 [] (List.replicate 32 9) []
      (decide ((unmarshalAndProcessMessage toyPrims a m1 toyLater).1 = .ok none ∧
          (unmarshalAndProcessMessage toyPrims a m1 toyLater).2.group.groupContext.extensions = []) &&
        decide ((unmarshalAndProcessMessage toyPrims a m2 toyLater).1 = .ok none ∧
          (unmarshalAndProcessMessage toyPrims a m2 toyLater).2.group.pskSecret = List.replicate 32 0) &&
        decide ((unmarshalAndProcessMessage toyPrims a m3 toyLater).1 = .ok none ∧
          (unmarshalAndProcessMessage toyPrims st' m4 toyLater).1 = .ok none ∧
          (unmarshalAndProcessMessage toyPrims st' m4 toyLater).2.group.groupContext.epoch = a.group.groupContext.epoch + 2)) &&
      (match unmarshal MlsMessage.dec m1, unmarshal MlsMessage.dec m2, unmarshal MlsMessage.dec m3 with
      | .ok ⟨1, .publicMessage p1⟩, .ok ⟨1, .publicMessage p2⟩, .ok ⟨1, .publicMessage p3⟩ =>
        (match p1.content.content, p2.content.content, p3.content.content with
        | .commit c1, .commit c2, .commit c3 => decide (c1.proposals = [.proposal (.groupContextExtensions [⟨9, [1]⟩])] ∧
            c2.proposals = [.proposal (.psk ⟨.external [5], [6]⟩)] ∧ c3.proposals = [.proposal (.reInit ⟨[8], 1, 1, []⟩)])
        | _, _, _ => false)
      | _, _, _ => false)
    | _ => false) = true := by decide +kernel
  split at key <;> try cases key
  next a b ht =>
  simp only [Bool.and_eq_true, decide_eq_true_eq] at key
  obtain ⟨⟨⟨⟨k1, k2⟩, k3, k4⟩, k5, k6, k7⟩, key⟩ := key
  split at key <;> try cases key
  next p1 p2 p3 hp1 hp2 hp3 =>
  split at key <;> try cases key
  next c1 c2 c3 hc1 hc2 hc3 =>
  obtain ⟨e1, e2, e3⟩ := of_decide_eq_true key
  have ha := (toyTwo_reachable ht).1
  clear ht key
  generalize toyCommit a 1 1 [toyExts] (List.replicate 32 9) [] = m1 at *
  generalize toyPublic a 1 1 (.commit ⟨[.proposal toyPskProposal], none⟩) [1] = m2 at *
  generalize toyPublic a 1 1 (.commit ⟨[.proposal toyReInit], none⟩) [1] = m3 at *
  generalize hx : unmarshalAndProcessMessage toyPrims a m3 toyLater = x at *
  generalize toyCommit x.2 1 1 [] (List.replicate 32 9) [] = m4 at *
  exact ⟨a, ha, ⟨m1, k1, ⟨p1, c1, hp1, hc1, e1⟩, k2⟩, ⟨m2, k3, ⟨p2, c2, hp2, hc2, e2⟩, k4⟩,
    m3, m4, x.2, hx.trans (Prod.ext k5 rfl), ⟨p3, c3, hp3, hc3, e3⟩, k6, k7⟩

end Mls
