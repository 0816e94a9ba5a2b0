import Verif.Props.Authorship
/-
C84: groups of people who use this library over a network that nobody can trust.
-/
namespace Mls

open Spec (Ratchet nodeAt)

variable {pr : Prims} {calls : Spec.Call → Prop}

theorem Spec.SignedBy.unique {w : Welcome} {kp : KeyPairPackage} {p p' : Bytes} (h : Spec.SignedBy pr w kp p) (h' : Spec.SignedBy pr w kp p') :
    p = p' := by
  obtain ⟨ref, gs, psk, info, raw, t, leaf, h1, h2, h3, h4, h5, h6, h7, rfl⟩ := h
  obtain ⟨ref', gs', psk', info', raw', t', leaf', h1', h2', h3', h4', h5', h6', h7', rfl⟩ := h'
  cases h1.symm.trans h1'
  cases h2.symm.trans h2'
  cases h3.symm.trans h3'
  cases h4.symm.trans h4'
  cases h5.symm.trans h5'
  cases h6.symm.trans h6'
  cases h7.symm.trans h7'
  rfl

theorem members_mem {t : VTree} {i : Nat} {l : LeafNode} (h : t[i]? = some (some (.leaf l))) : l ∈ Spec.members t := by
  unfold Spec.members
  rw [List.mem_filterMap]
  exact ⟨some (.leaf l), List.mem_of_getElem? h, rfl⟩

/-- The hash of the tree as the group's state has it is the one in its context. -/
def Spec.HashFits (pr : Prims) (st : GroupState) : Prop :=
  computeRootTreeHash pr st.group.groupContext.cipherSuite st.vtree = .ok st.group.groupContext.treeHash

/-- After an accepted commit the context has the hash of the tree. -/
theorem commit_hashFits {st st' : GroupState} {a : AuthenticatedContent} {c : Commit} (hk : a.content.content = .commit c) {now : GoTime}
    (h : processCommit pr st a [] [] now = (.ok (), st')) : Spec.HashFits pr st' := by
  rcases processCommit_cases (pr := pr) st a _ hk [] [] now with ⟨_, _, h', t, _, _, _, hf, hp'⟩ | ⟨hp', _⟩
  · rw [hp'] at h
    cases h
    have : ∃ d, suite st.group.groupContext.cipherSuite = .ok d := by
      have hf := hf
      unfold finishCommit at hf
      simp only [Res.bind_ok_iff] at hf
      obtain ⟨_, _, d, hd, _⟩ := hf
      exact ⟨d, hd⟩
    obtain ⟨d, hd⟩ := this
    obtain ⟨th, sec, input, raw, h1, _, _, h2, _⟩ := finishCommit_next hd hf
    have h3 := h2.context
    have h4 : st'.group.groupContext.treeHash = th := congrArg (·.treeHash) h3
    have h5 : st'.group.groupContext.cipherSuite = st.group.groupContext.cipherSuite := congrArg (·.cipherSuite) h3
    unfold Spec.HashFits
    rw [h4, h5]
    exact h1
  · rw [h] at hp'; exact absurd rfl hp'

/-- What is accepted by someone who knows all members of the group. -/
theorem known_receive (hc : pr.Correct) {st st' : GroupState} (hr : Reachable pr st) {raw : Bytes} {now : GoTime} {d : Option Bytes}
    (h : unmarshalAndProcessMessage pr st raw now = (.ok d, st'))
    (hk : ∀ sd, suite st.group.groupContext.cipherSuite = .ok sd → ∀ l ∈ Spec.members st.vtree, Spec.Known pr calls sd.sig l.signatureKey) :
    ∃ sa leaf sd, suite st.group.groupContext.cipherSuite = .ok sd ∧
      st.vtree[2 * sa.group.myLeafIndex.toNat % 2 ^ 32]? = some (some (.leaf leaf)) ∧
      sa.group.groupContext = st.group.groupContext ∧ Spec.Unforgeable pr calls sd.sig sa.group.signaturePriv leaf.signatureKey ∧
      ((∃ data rand guard, calls (.message sa data rand guard) ∧ d = some data ∧ st' = st) ∨
        ∃ kps r o sa1, calls (.invite sa kps r) ∧ createWelcome pr sa kps r = (.ok o, sa1) ∧ d = none ∧
          (∃ th cth, st'.group.groupContext = { st.group.groupContext with
            epoch := st.group.groupContext.epoch + 1, treeHash := th, confirmedTranscriptHash := cth }) ∧
          st'.group.pendingProposals = [] ∧ Spec.HashFits pr st' ∧ (NoParents st.group.tree → NoParents st'.group.tree) ∧
          (Spec.members st'.vtree).Perm (Spec.members st.vtree ++ kps.map fun k => k.leafNode) ∧
          ∀ i l, nodeAt st.vtree (2 * i) = some (.leaf l) → nodeAt st'.vtree (2 * i) = some (.leaf l)) := by
  obtain ⟨a, e, hca, hcase⟩ := accepted_cases h
  obtain ⟨li, leaf, sd, h1, h2, h3, h4⟩ := authentic_author (carries_authentic hca)
  obtain ⟨key, hu⟩ := hk sd h3 leaf (members_mem h2)
  obtain ⟨_, sa, g1, g2, g3, g4⟩ := h4 calls key hu
  subst g2 g3
  refine ⟨sa, leaf, sd, h3, h2, g1, hu, ?_⟩
  rcases g4 with ⟨data, rand, guard, k1, k2⟩ | ⟨kps, r, w, raw0, sa1, k1, k2, k3⟩
  · rcases hcase with ⟨p, hk, _, _⟩ | ⟨c, hk, _, _⟩ | ⟨data', hk, rfl, hs, _⟩
    · rw [k2] at hk; cases hk
    · rw [k2] at hk; cases hk
    · rw [k2] at hk
      cases hk
      exact .inl ⟨data, rand, guard, k1, rfl, hs⟩
  · have hk' : a.content.content = .commit { proposals := kps.map fun k => .proposal (.add k), path := none } := by rw [k3]; rfl
    rcases hcase with ⟨p, hk, _, _⟩ | ⟨c, hk, rfl, hq⟩ | ⟨data', hk, _, _, _⟩
    · rw [hk'] at hk; cases hk
    · rw [hk'] at hk
      cases hk
      refine .inr ⟨kps, r, _, sa1, k1, k2, rfl, ?_, ?_, commit_hashFits hk' hq, ?_, commit_adds_members hc hr hca hk' h, ?_⟩
      · have hid := (message_effect (pr := pr) st raw now).1
        have hep := (C44_message pr st raw now).2.1.1 ⟨a, e, _, hca, hk', by rw [h]⟩
        rw [h] at hid hep
        obtain ⟨i1, i2, i3, i4, _, _⟩ := hid
        dsimp only at hep i1 i2 i3 i4
        refine ⟨st'.group.groupContext.treeHash, st'.group.groupContext.confirmedTranscriptHash, ?_⟩
        rcases hx : st'.group.groupContext with ⟨x1, x2, x3, x4, x5, x6, x7⟩
        rw [hx] at hep i1 i2 i3 i4
        dsimp only at hep i1 i2 i3 i4
        subst hep i1 i2 i3 i4
        rfl
      · rcases processCommit_cases (pr := pr) st a _ hk' [] [] now with ⟨_, _, h', t, _, _, _, hf, hp'⟩ | ⟨hp', _⟩
        · rw [hp'] at hq
          cases hq
          unfold finishCommit at hf
          simp only [Res.bind_ok_iff] at hf
          obtain ⟨_, _, _, _, _, _, _, _, _, _, _, _, _, _, _, _, _, _, he⟩ := hf
          cases he
          rfl
        · rw [hq] at hp'; exact absurd rfl hp'
      · intro hn
        refine trace_noParents (as := [a]) (.accept (.nil st) hca h) hn ?_
        intro b hb c hc
        rw [List.mem_singleton.1 hb, hk'] at hc
        cases hc
        rfl
      · intro i l hl
        refine C75_keeps hc hr hca hk' h rfl ?_ hl
        intro l' hl' p hp
        dsimp only at hl'
        rw [resolve_adds] at hl'
        cases hl'
        obtain ⟨k, _, rfl⟩ := List.mem_map.1 hp
        rfl
    · rw [hk'] at hk; cases hk

/-- What holds of the states of people who are careful. -/
structure HeldInv (pr : Prims) (calls : Spec.Call → Prop) (st : GroupState) : Prop where
  flat : NoParents st.group.tree
  snug : Spec.SnugTree st.vtree
  pending : st.group.pendingProposals = []
  own : ∃ l, nodeAt st.vtree (2 * (st.group.myLeafIndex.toNat % 2 ^ 31)) = some (.leaf l)
  known : ∀ sd, suite st.group.groupContext.cipherSuite = .ok sd → ∀ l ∈ Spec.members st.vtree, Spec.Known pr calls sd.sig l.signatureKey
  hash : Spec.HashFits pr st
  lineage : ∃ ms, Spec.Lineage pr calls st.group.groupContext ms ∧ (Spec.members st.vtree).Perm ms

theorem Spec.Held.reach {st : GroupState} (h : Spec.Held pr calls st) : Reachable pr st := by
  induction h with
  | create h _ => exact .create h
  | join h _ _ => exact .join h
  | receive _ h hf ih => exact .message ih h hf
  | invite _ h hf ih => exact .invite ih h hf

theorem twice_mod (n : Nat) : 2 * n % 2 ^ 32 = 2 * (n % 2 ^ 31) := by omega

/-- An invitation leaves the leaves of the members where they are. -/
theorem InviteRun.keeps {st : GroupState} (hi : GroupInv pr st) {kps : List KeyPackage} {r : WelcomeRand} {w : Welcome}
    {raw : Bytes} {hp : Heap} {t : RTree} {sd : SuiteDesc} {th psk sig cth js es tag rawTree isig : Bytes} {ctx : GroupContext}
    (run : InviteRun pr st kps r w raw hp t sd th psk sig cth js es tag rawTree isig ctx) {i : Nat} {l : LeafNode}
    (hil : nodeAt st.vtree (2 * i) = some (.leaf l)) : nodeAt (derefTree hp t) (2 * i) = some (.leaf l) := by
  obtain ⟨d0, s0, d, s, hd0, hd, hs0, hs, hadd⟩ := run.ratchet hi
  have hlt := (List.getElem?_eq_some_iff.1 (nodeAt_some.1 hil)).1
  rw [hs0, flat_length, Nat.pow_succ] at hlt
  have hin : i < 2 ^ d0 := by omega
  have h0 := at_leafAt (show VAt st.vtree 0 s0 by rw [hs0]; exact at_flat _ _ s0) hin
  rw [Nat.zero_mul, Nat.zero_add, hil] at h0
  have h0 : s0.leafAt i = some l := by
    cases hx : s0.leafAt i with
    | none => rw [hx] at h0; cases h0
    | some n => rw [hx] at h0; cases h0; rfl
  obtain ⟨h1, h2⟩ := adds_keep _ (a := ⟨d0, s0⟩) hin h0 hadd
  have h3 := at_leafAt (show VAt (derefTree hp t) 0 s by rw [hs]; exact at_flat _ _ s) h1
  rw [Nat.zero_mul, Nat.zero_add, h2] at h3
  exact h3

/-- Whoever has joined has a leaf, and no proposals are pending. -/
theorem join_own {w : Welcome} {kp : KeyPairPackage} {now : GoTime} {j : GroupState} (h : groupFromWelcome pr w kp now = .ok j) :
    j.group.pendingProposals = [] ∧ ∃ l, nodeAt j.vtree (2 * (j.group.myLeafIndex.toNat % 2 ^ 31)) = some (.leaf l) := by
  unfold groupFromWelcome at h
  simp only [Res.bind_ok_iff] at h
  obtain ⟨ref, _, gs, _, _, _, _, _, h⟩ := h
  have hpend : j.group.pendingProposals = [] := by
    have h := h
    unfold groupFromSecrets at h
    simp only [Res.bind_ok_iff] at h
    obtain ⟨_, _, _, _, _, _, _, _, _, _, _, _, _, _, _, _, _, _, _, _, _, _, _, _, _, _, _, _, _, _, _, _, _, _, _, _, h⟩ := h
    cases h
    rfl
  obtain ⟨psk2, info, rw2, v, leaf, li, pt, g1, g2, g3, g4, g5, g6, g7, g8, g9, g10, g11, g12, g13, g14, g15, g16, g17, g18, g20, _, _, _⟩ :=
    groupFromSecrets_ok h
  refine ⟨hpend, ?_⟩
  have hv : j.vtree = v := by
    unfold GroupState.vtree
    rw [g12, g13]
    exact (deref_alloc v []).2
  unfold findLeaf at g10
  obtain ⟨l, hl, _⟩ := findLeafLoop_key _ _ _ g10
  refine ⟨l, nodeAt_some.2 ?_⟩
  have := getLeaf_some hl
  rw [hv, g20, ← twice_mod, UInt32.toNat_ofNat', Nat.mul_mod, Nat.mod_mod, ← Nat.mul_mod]
  exact this

theorem join_hashFits {w : Welcome} {kp : KeyPairPackage} {now : GoTime} {j : GroupState} (h : groupFromWelcome pr w kp now = .ok j) :
    Spec.HashFits pr j := by
  unfold groupFromWelcome at h
  simp only [Res.bind_ok_iff] at h
  obtain ⟨ref, _, gs, _, _, _, _, _, h⟩ := h
  obtain ⟨psk2, info, rw2, v, leaf, li, pt, g1, g2, g3, g4, g5, g6, g7, g8, g9, g10, g11, g12, g13, g14, _⟩ := groupFromSecrets_ok h
  have hv : j.vtree = v := by
    unfold GroupState.vtree
    rw [g12, g13]
    exact (deref_alloc v []).2
  unfold verifyIntegrity at g9
  simp only [Res.bind_ok_iff, Res.guardErr_ok_iff, beq_iff_eq] at g9
  obtain ⟨th2, q1, _, q2, _⟩ := g9
  unfold Spec.HashFits
  rw [hv, g14, q1, q2]

theorem HeldInv.create {id : Bytes} {kp : KeyPairPackage} {rand : Nat → UInt8} {st : GroupState} (h : createGroup pr id kp rand = .ok st)
    (hk : ∀ sd, suite st.group.groupContext.cipherSuite = .ok sd → Spec.Known pr calls sd.sig kp.pub.leafNode.signatureKey) : HeldInv pr calls st := by
  obtain ⟨c1, _, _, c4, _, _, c7, c8, _, _, c11⟩ := C52_created pr id kp rand st h
  have hm : Spec.members st.vtree = [kp.pub.leafNode] := by rw [c1]; rfl
  refine ⟨createGroup_noParents h, C77_create h, c11, ⟨kp.pub.leafNode, ?_⟩, ?_, by unfold Spec.HashFits; rw [c4]; exact c7, _, .create h, by rw [hm]⟩
  · rw [c8, c1]; rfl
  · intro sd hsd l hl
    rw [hm, List.mem_singleton] at hl
    rw [hl]
    exact hk sd hsd

/-- Whoever joins with a welcome from someone known has it from a member, who has made an invitation one epoch before. -/
theorem join_inviter (hc : pr.Correct) {w : Welcome} {kp : KeyPairPackage} {now : GoTime} {st : GroupState} {pub : Bytes}
    (h : groupFromWelcome pr w kp now = .ok st) (hs : Spec.SignedBy pr w kp pub)
    (hk : ∀ sd, suite st.group.groupContext.cipherSuite = .ok sd → Spec.Known pr calls sd.sig pub) :
    ∃ sa kps r, calls (.invite sa kps r) ∧ st.group.groupContext.epoch = sa.group.groupContext.epoch + 1 ∧
      (Reachable pr sa → HeldInv pr calls sa →
        (∀ k ∈ kps, ∀ sd, suite sa.group.groupContext.cipherSuite = .ok sd → Spec.Known pr calls sd.sig k.leafNode.signatureKey) →
        HeldInv pr calls st) := by
  obtain ⟨li, leaf, sd, g1, g2, g3, g4⟩ := C83_welcome hc h
  obtain rfl := hs.unique g3
  obtain ⟨key, hu⟩ := hk sd g2
  obtain ⟨sa, kps, r, w0, raw0, sa1, k1, k2, rfl, rfl, k5, k6⟩ := g4 calls key hu
  have hcs : st.group.groupContext.cipherSuite = sa.group.groupContext.cipherSuite := by rw [k5]
  refine ⟨sa, kps, r, k1, by rw [k5], fun hra hin hkn => ?_⟩
  obtain ⟨hp, t, q1, _, q3, q2, _⟩ := k6 hra
  obtain ⟨hsn, q2⟩ := q2 hin.snug
  obtain ⟨ms, hl, hperm⟩ := hin.lineage
  have hpm : (Spec.members st.vtree).Perm (ms ++ kps.map fun k => k.leafNode) := q3.trans (hperm.append_right _)
  have hpar : NoParents t := (treeApply_noParents hin.flat q1).2
  obtain ⟨lo, hown⟩ := hin.own
  obtain ⟨hp', t', sd', th, psk, sig, cth, js, es, tag, rawTree, isig, ctx, run, -⟩ := createWelcome_run k2
  have hkeep : nodeAt st.vtree (2 * (sa.group.myLeafIndex.toNat % 2 ^ 31)) = some (.leaf lo) := by
    have e := run.apply
    rw [q1] at e
    cases e
    rw [q2]
    exact run.keeps (hra.inv hc) hown
  rw [twice_mod] at g1
  have hlo : lo = leaf := by
    rw [nodeAt_some.2 g1] at hkeep
    cases hkeep
    rfl
  refine ⟨?_, hsn, (join_own h).1, (join_own h).2, ?_, join_hashFits h, ms ++ kps.map (fun k => k.leafNode), ?_, hpm⟩
  · rw [noParents_iff (h := st.heap)]
    show ∀ p, some (Node.parent p) ∉ st.vtree
    rw [q2]
    exact noParents_iff.1 hpar
  · intro sd' hsd' l hl
    rw [g2] at hsd'
    cases hsd'
    rw [hcs] at g2
    rcases List.mem_append.1 (q3.subset hl) with hl | hl
    · exact hin.known _ g2 l hl
    · obtain ⟨k, hk, rfl⟩ := List.mem_map.1 hl
      exact hkn k hk _ g2
  · rw [k5]
    refine .invite hl k1 k2 (by rw [← hcs]; exact g2) (leaf := leaf) ?_ hu
    rw [← hlo]
    exact hperm.subset (members_mem (nodeAt_some.1 hown))

theorem HeldInv.receive (hc : pr.Correct) {st st' : GroupState} (hr : Reachable pr st) (hin : HeldInv pr calls st) {raw : Bytes} {now : GoTime}
    {r : Res (Option Bytes)} (h : unmarshalAndProcessMessage pr st raw now = (r, st')) (hf : r.Fine)
    (hkn : ∀ st kps r, calls (.invite st kps r) → ∀ k ∈ kps, ∀ sd, suite st.group.groupContext.cipherSuite = .ok sd →
      Spec.Known pr calls sd.sig k.leafNode.signatureKey) : HeldInv pr calls st' := by
  cases r with
  | ok d =>
    obtain ⟨sa, leaf, sd, g1, g2, g3, g4, ⟨data, rand, guard, _, _, rfl⟩ | ⟨kps, r, o, sa1, k1, k2, rfl, ⟨th, cth, k3⟩, k4, k4', k5, k6, k7⟩⟩ :=
      known_receive hc hr h hin.known
    · exact hin
    · obtain ⟨ms, hl, hperm⟩ := hin.lineage
      have hid := (message_effect (pr := pr) st raw now).1
      rw [h] at hid
      have hcs : st'.group.groupContext.cipherSuite = sa.group.groupContext.cipherSuite := by rw [g3]; exact hid.cipherSuite
      refine ⟨k5 hin.flat, C77_message hc hr hin.snug h, k4, ?_, ?_, k4', ms ++ kps.map (fun k => k.leafNode), ?_,
        k6.trans (hperm.append_right _)⟩
      · obtain ⟨l, hl⟩ := hin.own
        refine ⟨l, ?_⟩
        rw [hid.myLeafIndex]
        exact k7 _ _ hl
      · intro sd' hsd' l hl
        rw [hcs] at hsd'
        rcases List.mem_append.1 (k6.subset hl) with hl | hl
        · exact hin.known _ (by rw [← g3]; exact hsd') l hl
        · obtain ⟨k, hk, rfl⟩ := List.mem_map.1 hl
          exact hkn _ _ _ k1 k hk _ hsd'
      · rw [k3, ← g3]
        rw [← g3] at hl
        exact .invite hl k1 k2 (by rw [g3]; exact g1) (hperm.subset (members_mem g2)) g4
  | err =>
    rw [(C43_partial pr st st' raw now h).2.2.2 hin.flat]
    exact hin
  | panic => exact absurd rfl hf.1
  | hang => exact absurd rfl hf.2

theorem HeldInv.invite {st st' : GroupState} (hin : HeldInv pr calls st) {kps : List KeyPackage} {rnd : WelcomeRand} {o : Res (Welcome × Bytes)}
    (h : createWelcome pr st kps rnd = (o, st')) : HeldInv pr calls st' := by
  have := (C51_partial pr st kps rnd).2.2 hin.flat
  rw [h] at this
  have : st' = st := this
  rw [this]
  exact hin

theorem Spec.Held.inv_aux (hc : pr.Correct) (hcare : Spec.Careful pr calls) :
    ∀ (n : Nat) (st : GroupState), Spec.Held pr calls st → st.group.groupContext.epoch.toNat ≤ n → HeldInv pr calls st := by
  intro n
  induction n using Nat.strongRecOn with
  | _ n ihn =>
  intro st hst
  induction hst with
  | create h hk => exact fun _ => .create h hk
  | @join w kp now st pub h hs hk =>
    intro hn
    obtain ⟨sa, kps, r, k1, k2, k3⟩ := join_inviter hc h hs hk
    have hsa := hcare.invite _ _ _ k1
    have hep' : st.group.groupContext.epoch.toNat = sa.group.groupContext.epoch.toNat + 1 := by
      rw [k2, UInt64.toNat_add]
      exact Nat.mod_eq_of_lt (hcare.epochs _ hsa)
    exact k3 hsa.reach (ihn (sa.group.groupContext.epoch.toNat) (by omega) sa hsa (Nat.le_refl _)) (hcare.invited _ _ _ k1)
  | @receive st st' raw now r hr h hf ih =>
    intro hn
    refine (ih ?_).receive hc hr.reach h hf hcare.invited
    have hlt := hcare.epochs _ hr
    obtain ⟨_, h1, h2⟩ := C44_message pr st raw now
    rw [h] at h1 h2
    by_cases hac : AcceptedCommit pr st raw now
    · have := h1.1 hac
      dsimp only at this
      rw [this, UInt64.toNat_add] at hn
      have : (1 : UInt64).toNat = 1 := rfl
      rw [this, Nat.mod_eq_of_lt hlt] at hn
      omega
    · have := h2.1 hac
      dsimp only at this
      rw [this] at hn
      exact hn
  | @invite st st' kps rnd o hr h hf ih =>
    intro hn
    have hgr := (C51_partial pr st kps rnd).1
    rw [h] at hgr
    exact (ih (by rw [← hgr]; exact hn)).invite h

theorem Spec.Held.inv (hc : pr.Correct) (hcare : Spec.Careful pr calls) {st : GroupState} (h : Spec.Held pr calls st) : HeldInv pr calls st :=
  Spec.Held.inv_aux hc hcare _ st h (Nat.le_refl _)

theorem Spec.Lineage.epoch {ctx : GroupContext} {ms : List LeafNode} (h : Spec.Lineage pr calls ctx ms) :
    ctx.epoch = 0 ∨ ∃ sa kps r, calls (.invite sa kps r) ∧ ctx.epoch = sa.group.groupContext.epoch + 1 := by
  cases h with
  | create h =>
    left
    obtain ⟨_, c3, _⟩ := C52_created pr _ _ _ _ h
    exact c3
  | invite hl hc h hs hm hu => exact .inr ⟨_, _, _, hc, rfl⟩

/-- The other way round: no group lasts longer than the epochs in which invitations are made. -/
theorem careful_of (hc : pr.Correct) (hm : ∀ st data rand guard, calls (.message st data rand guard) → Spec.Held pr calls st)
    (hi : ∀ st kps r, calls (.invite st kps r) → Spec.Held pr calls st ∧ HeldInv pr calls st ∧ st.group.groupContext.epoch.toNat + 2 < 2 ^ 64)
    (hd : ∀ st kps r, calls (.invite st kps r) → ∀ k ∈ kps, ∀ sd, suite st.group.groupContext.cipherSuite = .ok sd →
      Spec.Known pr calls sd.sig k.leafNode.signatureKey) : Spec.Careful pr calls := by
  have hinv : ∀ st, Spec.Held pr calls st → HeldInv pr calls st := by
    intro st hst
    induction hst with
    | create h hk => exact .create h hk
    | join h hs hk =>
      obtain ⟨sa, kps, r, k1, k2, k3⟩ := join_inviter hc h hs hk
      exact k3 (hi _ _ _ k1).1.reach (hi _ _ _ k1).2.1 (hd _ _ _ k1)
    | receive hr h hf ih => exact ih.receive hc hr.reach h hf hd
    | invite _ h _ ih => exact ih.invite h
  refine ⟨hm, fun st kps r h => (hi st kps r h).1, hd, fun st hst => ?_⟩
  obtain ⟨ms, hl, _⟩ := (hinv st hst).lineage
  rcases hl.epoch with e | ⟨sa, kps, r, k1, e⟩
  · rw [e]; decide
  · have := (hi _ _ _ k1).2.2
    rw [e, UInt64.toNat_add]
    have h1 : (1 : UInt64).toNat = 1 := rfl
    rw [h1, Nat.mod_eq_of_lt (by omega)]
    omega

/-! ### C84 -/

/-- **C84.** Whatever the network does, nobody gets into a group uninvited and nobody is put out: among people who use their keys with this library only, join with
welcomes from people they know and invite people they know, the members of each group, as anyone in it sees it, are the creator and those
invited, one invitation after the other, by members who saw the very context that the invitations before had led to. All of them are known. -/
theorem C84_members (hc : pr.Correct) (hcare : Spec.Careful pr calls) {st : GroupState} (hst : Spec.Held pr calls st) :
    (∃ ms, Spec.Lineage pr calls st.group.groupContext ms ∧ (Spec.members st.vtree).Perm ms) ∧
      ∀ sd, suite st.group.groupContext.cipherSuite = .ok sd → ∀ l ∈ Spec.members st.vtree, Spec.Known pr calls sd.sig l.signatureKey :=
  ⟨(hst.inv hc hcare).lineage, (hst.inv hc hcare).known⟩

/-- **C84.** Whoever are in a group with the same context see the same tree, so the same members at the same places. -/
theorem C84_agree (hc : pr.Correct) (hcare : Spec.Careful pr calls) {a b : GroupState} (ha : Spec.Held pr calls a) (hb : Spec.Held pr calls b)
    (he : a.group.groupContext = b.group.groupContext) :
    (∃ sd, suite a.group.groupContext.cipherSuite = .ok sd ∧ TreeCollision pr sd a.vtree b.vtree) ∨
      a.vtree = b.vtree := by
  · have ia := ha.inv hc hcare
    have ib := hb.inv hc hcare
    obtain ⟨sd, hsd⟩ := (ha.reach.inv hc).suite
    obtain ⟨da, hda, sa, hsa⟩ := (ha.reach.inv hc).tree.holds
    obtain ⟨db, hdb, sb, hsb⟩ := (hb.reach.inv hc).tree.holds
    have h1 := ia.hash
    have h2 := ib.hash
    unfold Spec.HashFits GroupState.vtree at h1 h2
    rw [hsa.flat] at h1
    rw [hsb.flat, ← he] at h2
    rcases C28_binding hc hsd hda hdb sa sb h1 h2 with e | e
    · right
      unfold GroupState.vtree
      rw [hsa.flat, hsb.flat, e]
    · exact .inl ⟨sd, hsd, _, _, sa, sb, hsa.flat, hsb.flat, e⟩

/-- **C84.** Whatever bytes come, all that can happen is one of these: they are refused, and nothing changes; they are read as the data that a member
has sent in the very same context, and nothing changes; or they bring in exactly those whom a member invites in the same context. -/
theorem C84_receive (hc : pr.Correct) (hcare : Spec.Careful pr calls) {st st' : GroupState} (hst : Spec.Held pr calls st) {raw : Bytes} {now : GoTime}
    {r : Res (Option Bytes)} (h : unmarshalAndProcessMessage pr st raw now = (r, st')) (hf : r.Fine) :
    (r = .err ∧ st' = st) ∨
      ∃ sa leaf, Spec.Held pr calls sa ∧ sa.group.groupContext = st.group.groupContext ∧
        st.vtree[2 * sa.group.myLeafIndex.toNat % 2 ^ 32]? = some (some (.leaf leaf)) ∧
        (∃ sd, suite st.group.groupContext.cipherSuite = .ok sd ∧ Spec.Unforgeable pr calls sd.sig sa.group.signaturePriv leaf.signatureKey) ∧
        ((∃ data rand guard, calls (.message sa data rand guard) ∧ r = .ok (some data) ∧ st' = st) ∨
          ∃ kps rnd, calls (.invite sa kps rnd) ∧ r = .ok none ∧
            st'.group.groupContext.epoch = st.group.groupContext.epoch + 1 ∧
            (Spec.members st'.vtree).Perm (Spec.members st.vtree ++ kps.map fun k => k.leafNode) ∧
            ∀ i l, nodeAt st.vtree (2 * i) = some (.leaf l) → nodeAt st'.vtree (2 * i) = some (.leaf l)) := by
  have hin := hst.inv hc hcare
  cases r with
  | ok d =>
    right
    obtain ⟨sa, leaf, sd, g1, g2, g3, g4, ⟨data, rand, guard, k1, rfl, k3⟩ | ⟨kps, r, o, sa1, k1, k2, rfl, ⟨th, cth, k3⟩, k4, k4', k5, k6, k7⟩⟩ :=
      known_receive hc hst.reach h hin.known
    · exact ⟨sa, leaf, hcare.message _ _ _ _ k1, g3, g2, ⟨sd, g1, g4⟩, .inl ⟨data, rand, guard, k1, rfl, k3⟩⟩
    · exact ⟨sa, leaf, hcare.invite _ _ _ k1, g3, g2, ⟨sd, g1, g4⟩, .inr ⟨kps, r, k1, rfl, by rw [k3], k6, k7⟩⟩
  | err => exact .inl ⟨rfl, (C43_partial pr st st' raw now h).2.2.2 hin.flat⟩
  | panic => exact absurd rfl hf.1
  | hang => exact absurd rfl hf.2

/-- **C84.** Making an invitation does not change the group. -/
theorem C84_invite (hc : pr.Correct) (hcare : Spec.Careful pr calls) {st : GroupState} (hst : Spec.Held pr calls st) (kps : List KeyPackage)
    (rnd : WelcomeRand) : (createWelcome pr st kps rnd).2 = st :=
  (C51_partial pr st kps rnd).2.2 (hst.inv hc hcare).flat

/-- The sender that a message names is inside the tree: in the clear, or in the sender data, which only members can encrypt. -/
structure Spec.SenderInside (pr : Prims) (st : GroupState) (raw : Bytes) : Prop where
  pub : ∀ v m li, unmarshal MlsMessage.dec raw = .ok ⟨v, .publicMessage m⟩ →
    m.content.groupID = st.group.groupContext.groupID → m.content.epoch = st.group.groupContext.epoch →
    m.content.sender = .member li → 2 * li.toNat < st.vtree.length
  priv : ∀ v m secret sd, unmarshal MlsMessage.dec raw = .ok ⟨v, .privateMessage m⟩ →
    m.groupID = st.group.groupContext.groupID → m.epoch = st.group.groupContext.epoch →
    Mls.deriveSecret pr st.group.groupContext.cipherSuite st.group.epochSecret lblSenderData = .ok secret →
    m.decryptSenderData pr st.group.groupContext.cipherSuite secret = .ok sd → 2 * sd.leafIndex.toNat < st.vtree.length

/-- **C84.** Nothing that comes makes the library panic or loop, but for messages whose sender is outside the tree (C49_outsider), as long as the keys of
people known can be read. -/
theorem C84_returns (hc : pr.Correct) (hcare : Spec.Careful pr calls) {st : GroupState} (hst : Spec.Held pr calls st)
    (hread : ∀ pub, (∀ sd, suite st.group.groupContext.cipherSuite = .ok sd → Spec.Known pr calls sd.sig pub) →
      Spec.Readable pr st.group.groupContext.cipherSuite pub)
    (hsup : supported st.group.groupContext.cipherSuite = .ok true) (hroom : st.group.tree.length < 2 ^ 31) (raw : Bytes) (now : GoTime)
    (hn : Spec.SenderInside pr st raw) : (unmarshalAndProcessMessage pr st raw now).1.Fine := by
  have hin := hst.inv hc hcare
  have hcom : ∀ a e c, Carries pr st raw a e → a.content.content = .commit c → ∃ sa kps r, calls (.invite sa kps r) ∧
      sa.group.groupContext = st.group.groupContext ∧ c = { proposals := kps.map fun k => .proposal (.add k), path := none } := by
    intro a e c hca hk
    obtain ⟨li, leaf, sd, h1, h2, h3, h4⟩ := authentic_author (carries_authentic hca)
    obtain ⟨key, hu⟩ := hin.known sd h3 leaf (members_mem h2)
    obtain ⟨_, sa, g1, g2, g3, ⟨data, rand, guard, k1, k2⟩ | ⟨kps, r, w, raw0, sa1, k1, k2, k3⟩⟩ := h4 calls key hu
    · rw [k2] at hk; cases hk
    · rw [k3] at hk
      cases hk
      exact ⟨sa, kps, r, k1, g1, rfl⟩
  refine C49_partial hc hst.reach hsup hroom raw now ⟨hn.pub, hn.priv, ?_⟩ ⟨?_, ?_⟩
  · intro a e c hca hk li hli
    obtain ⟨sa, kps, r, k1, k2, rfl⟩ := hcom a e c hca hk
    rcases hli with h | ⟨pp, hp, _⟩
    · obtain ⟨_, _, h⟩ := List.mem_map.1 h
      cases h
    · rw [hin.pending] at hp
      cases hp
  · intro x l hx
    exact hread _ fun sd hsd => hin.known sd hsd l (members_mem (nodeAt_some.1 hx))
  · intro a e c hca hk
    obtain ⟨sa, kps, r, k1, k2, rfl⟩ := hcom a e c hca hk
    refine ⟨fun k h => ?_, fun p hp => by cases hp⟩
    rcases h with h | ⟨pp, hp, _⟩
    · obtain ⟨k', hk', h⟩ := List.mem_map.1 h
      cases h
      exact hread _ fun sd hsd => hcare.invited _ _ _ k1 k hk' sd (by rw [k2]; exact hsd)
    · rw [hin.pending] at hp
      cases hp

/-! ### An example -/

/-- All calls of the three people. -/
def ToyStory.all (t : ToyStory) : List Spec.Call :=
  .package 1 (.basic [2]) (toyRand 2) :: .package 1 (.basic [3]) (toyRand 3) :: t.calls

/-- The key is used in these calls only, as a test. -/
def ToyStory.uses (t : ToyStory) (k : Bytes) : Bool :=
  toyLedger.all fun p => p.1 != k ||
    t.all.any fun c => c.returns (ledgerPrims toyLedger) && !c.returns ((ledgerPrims toyLedger).refusing .ed25519 k p.2)

theorem ToyStory.known {t : ToyStory} {k : Bytes} (h : t.uses k = true) : Spec.Known (ledgerPrims toyLedger) (· ∈ t.all) .ed25519 k :=
  ⟨k, ledger_unforgeable h⟩

/-- The three people of the story are careful, and the first two have states in which they can follow it. -/
theorem toyCareful : ∃ t : ToyStory, Spec.Careful (ledgerPrims toyLedger) (· ∈ t.all) ∧ Spec.Held (ledgerPrims toyLedger) (· ∈ t.all) t.b ∧
    (Spec.members t.b.vtree).length = 2 ∧
    (∃ b', unmarshalAndProcessMessage (ledgerPrims toyLedger) t.b t.message toyLater = (.ok (some [1, 2]), b')) ∧
    (∃ b', unmarshalAndProcessMessage (ledgerPrims toyLedger) t.b t.invitation toyLater = (.ok none, b')) := by
  have key : Res.holds (toyStory (ledgerPrims toyLedger)) (fun t => t.uses [11, 1] && t.uses [11, 2] && t.uses [11, 3] &&
      decide ((Spec.members t.b.vtree).map (fun l => l.signatureKey) = [[11, 1], [11, 2]]) &&
      decide ((unmarshalAndProcessMessage (ledgerPrims toyLedger) t.b t.message toyLater).1 = .ok (some [1, 2])) &&
      decide ((unmarshalAndProcessMessage (ledgerPrims toyLedger) t.b t.invitation toyLater).1 = .ok none) &&
      decide (t.b.group.groupContext.cipherSuite = 1)) = true := by
    decide +kernel
  obtain ⟨t, ht, key⟩ := Res.holds_ok key
  simp only [Bool.and_eq_true, decide_eq_true_eq] at key
  obtain ⟨⟨⟨⟨⟨⟨k1, k2⟩, k3⟩, k4⟩, k5⟩, k6⟩, k7⟩ := key
  refine ⟨t, ?_⟩
  have n1 := ToyStory.known k1
  have n2 := ToyStory.known k2
  have n3 := ToyStory.known k3
  have hsuite : ∀ {sd : SuiteDesc}, suite 1 = .ok sd → sd.sig = .ed25519 := fun h => by cases h; rfl
  have hgen : ∀ {n : UInt8} {kp : KeyPairPackage}, generateKeyPairPackage (ledgerPrims toyLedger) 1 (.basic [n]) (toyRand n) = .ok kp →
      kp.pub.cipherSuite = 1 ∧ kp.pub.leafNode.signatureKey = [11, n] := by
    intro n kp h
    obtain ⟨d, leaf, k, h1, h2, h3, rfl⟩ := generate_split h
    obtain ⟨_, sig, _, _, rfl⟩ := leafSign_split h2
    obtain ⟨_, sig', _, _, rfl⟩ := pkgSign_split h3
    cases h1
    exact ⟨rfl, rfl⟩
  have hc := ledgerPrims_correct toyLedger
  have hh := ht
  unfold toyStory at hh
  generalize ledgerPrims toyLedger = pr at *
  simp only [Res.bind_ok_iff] at hh
  obtain ⟨ka, e1, kb, e2, kc, e3, a, e4, ⟨w, raw⟩, e5, b, e6, d, e7, m, e8, ⟨w2, raw2⟩, e9, hh⟩ := hh
  dsimp only at e5 e6 e7 e8 e9 hh
  have hb : t.b = b := by cases hh; rfl
  have hcalls : ∀ c ∈ t.all, (∃ cs cred r, c = .package cs cred r) ∨ c = .invite a [kb.pub] default ∨
      (∃ data rand guard, c = .message (unmarshalAndProcessMessage pr (createWelcome pr a [kb.pub] default).2 raw toyLater).2 data rand guard) ∨
      c = .invite (unmarshalAndProcessMessage pr (createWelcome pr a [kb.pub] default).2 raw toyLater).2 [kc.pub] default := by
    intro c hc
    cases hh
    simp only [ToyStory.all, List.mem_cons, List.not_mem_nil, or_false] at hc
    rcases hc with rfl | rfl | rfl | rfl | rfl | rfl
    · exact .inl ⟨_, _, _, rfl⟩
    · exact .inl ⟨_, _, _, rfl⟩
    · exact .inl ⟨_, _, _, rfl⟩
    · exact .inr (.inl rfl)
    · exact .inr (.inr (.inl ⟨_, _, _, rfl⟩))
    · exact .inr (.inr (.inr rfl))
  generalize t.all = all at *
  rw [hb] at k4 k5 k6 k7 ⊢
  generalize hq1 : createWelcome pr a [kb.pub] default = q1 at *
  obtain ⟨o1, a1⟩ := q1
  dsimp only at *
  generalize hq2 : unmarshalAndProcessMessage pr a1 raw toyLater = q2 at *
  obtain ⟨o2, a2⟩ := q2
  dsimp only at *
  subst e5 e7
  have fa := C52_created pr _ _ _ _ e4
  have ca : a.group.groupContext.cipherSuite = 1 := by rw [fa.2.2.2.1]; exact (hgen e1).1
  have hka : ∀ sd, suite a.group.groupContext.cipherSuite = .ok sd → Spec.Known pr (· ∈ all) sd.sig ka.pub.leafNode.signatureKey := by
    intro sd hsd
    rw [ca] at hsd
    rw [hsuite hsd, (hgen e1).2]
    exact n1
  have ha : Spec.Held pr (· ∈ all) a := .create e4 hka
  have ia : HeldInv pr (· ∈ all) a := .create e4 hka
  have e11 : a1 = a := by
    have := (C51_partial pr a [kb.pub] default).2.2 ia.flat
    rw [hq1] at this
    exact this
  subst e11
  have ha2 : Spec.Held pr (· ∈ all) a2 := .receive ha hq2 ⟨by simp, by simp⟩
  have ca2 : a2.group.groupContext.cipherSuite = 1 := by
    have := (message_effect (pr := pr) a1 raw toyLater).1.cipherSuite
    rw [hq2] at this
    exact this.trans ca
  have hd : ∀ st kps r, Spec.Call.invite st kps r ∈ all → ∀ k ∈ kps, ∀ sd, suite st.group.groupContext.cipherSuite = .ok sd →
      Spec.Known pr (· ∈ all) sd.sig k.leafNode.signatureKey := by
    intro st kps r h k hk sd hsd
    rcases hcalls _ h with ⟨_, _, _, h⟩ | h | ⟨_, _, _, h⟩ | h <;> cases h
    · rw [List.mem_singleton] at hk
      rw [ca] at hsd
      rw [hsuite hsd, hk, (hgen e2).2]
      exact n2
    · rw [List.mem_singleton] at hk
      rw [ca2] at hsd
      rw [hsuite hsd, hk, (hgen e3).2]
      exact n3
  have hep : a2.group.groupContext.epoch.toNat ≤ 1 := by
    obtain ⟨_, h1, h2⟩ := C44_message pr a1 raw toyLater
    rw [hq2, fa.2.1] at h1 h2
    by_cases hac : AcceptedCommit pr a1 raw toyLater
    · have := h1.1 hac
      dsimp only at this
      rw [this]; decide
    · have := h2.1 hac
      dsimp only at this
      rw [this]; decide
  refine ⟨careful_of hc ?_ ?_ hd, ?_, by simpa using congrArg List.length k4, ⟨_, Prod.ext k5 rfl⟩, ⟨_, Prod.ext k6 rfl⟩⟩
  · intro st data rand guard h
    rcases hcalls _ h with ⟨_, _, _, h⟩ | h | ⟨_, _, _, h⟩ | h <;> cases h
    exact ha2
  · intro st kps r h
    rcases hcalls _ h with ⟨_, _, _, h⟩ | h | ⟨_, _, _, h⟩ | h <;> cases h
    · exact ⟨ha, ia, by rw [fa.2.1]; decide⟩
    · exact ⟨ha2, ia.receive hc ha.reach hq2 ⟨by simp, by simp⟩ hd, by omega⟩
  · obtain ⟨li, leaf, sd, g1, g2, g3, _⟩ := C83_welcome hc e6
    refine .join e6 g3 fun sd' hsd' => ?_
    have hm : leaf.signatureKey ∈ (Spec.members b.vtree).map fun l => l.signatureKey := List.mem_map.2 ⟨_, members_mem g1, rfl⟩
    have hs : sd'.sig = .ed25519 := hsuite (by rw [← k7]; exact hsd')
    rw [hs]
    rw [k4] at hm
    simp only [List.mem_cons, List.not_mem_nil, or_false] at hm
    rcases hm with hm | hm <;> rw [hm]
    · exact n1
    · exact n2

end Mls
