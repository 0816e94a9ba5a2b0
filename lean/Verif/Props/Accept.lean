import Verif.Props.Admission
import Verif.Props.Proposals
/-
C78: who follows an invitation.
-/
namespace Mls

open Spec (Ratchet nodeAt)
open Spec.Ratchet (addsOf updatesOf removesOf)

variable {pr : Prims}

/-- RFC 9420 section 10.1: what makes a key package valid for the group with this context. -/
structure Spec.PackageValid (pr : Prims) (ctx : GroupContext) (k : KeyPackage) : Prop where
  version : k.version = ctx.version
  cipherSuite : k.cipherSuite = ctx.cipherSuite
  source : ∃ lt, k.leafNode.source = .keyPackage lt
  signature : ∃ tbs, (Spec.Rfc.keyPackageTBS k).bytes = some tbs ∧ Spec.ValidSig pr k.cipherSuite k.leafNode.signatureKey "KeyPackageTBS" tbs k.signature
  initKey : k.leafNode.encryptionKey ≠ k.initKey

theorem packageValid_iff {ctx : GroupContext} {k : KeyPackage} : Spec.PackageValid pr ctx k ↔ k.verify pr ctx = .ok () := by
  rw [C59_verify]
  exact ⟨fun h => ⟨h.1, h.2, h.3, h.4, h.5⟩, fun ⟨a, b, c, d, e⟩ => ⟨a, b, c, d, e⟩⟩

/-- The message of an invitation reaches everyone in the same epoch. -/
theorem InviteRun.carries (hc : pr.Correct) {st st2 : GroupState} (hi : GroupInv pr st) (hv : SameView st st2) {kps : List KeyPackage}
    (hw : ∀ k ∈ kps, k.version = 1) {r : WelcomeRand} {w : Welcome} {raw : Bytes} {hp : Heap} {t : RTree}
    {sd : SuiteDesc} {th psk sig cth js es tag rawTree isig : Bytes} {ctx : GroupContext} (hown : Spec.OwnLeaf pr st)
    (run : InviteRun pr st kps r w raw hp t sd th psk sig cth js es tag rawTree isig ctx) :
    Carries pr st2 raw
      ⟨.privateMessage, st.group.framedContent (.commit { proposals := kps.map fun k => .proposal (.add k), path := none }), ⟨sig, tag⟩⟩ true := by
  obtain ⟨d, hd, hlen⟩ := hi.tree.complete
  have ho := hi.own
  have h2d : 2 ^ (d + 1) = 2 * 2 ^ d := by rw [Nat.pow_succ]; omega
  have hin : st.group.myLeafIndex.toNat < 2 ^ d := by omega
  have hpow : 2 ^ d ≤ 2 ^ 31 := Nat.pow_le_pow_right (by decide) hd
  have hmod : st.group.myLeafIndex.toNat % 2 ^ 31 = st.group.myLeafIndex.toNat := Nat.mod_eq_of_lt (by omega)
  have hlen2 : st2.group.tree.length = 2 ^ (d + 1) - 1 := by rw [← hv.length]; exact hlen
  obtain ⟨sd', rs, leaf, hsd', hleaf, hpub, hpriv⟩ := hown
  rw [run.suite] at hsd'
  cases hsd'
  obtain ⟨m, pt, g1, g2, g3, g4, g5, g6, _⟩ := encrypt_opens hc run.suite hd hlen hin run.message
  have hsg := run.signed
  unfold signPrivateMessageContent signAuthenticatedContent at hsg
  simp only [Res.bind_ok_iff] at hsg
  obtain ⟨a, ⟨tbs, htbs, sig', hsig, ha⟩, hcc⟩ := hsg
  cases ha
  cases hcc
  refine .priv g1 ?_
  rw [C62_received pr hc st2 sd (by rw [← hv.context]; exact run.suite) d hd hlen2]
  refine ⟨g5, by rw [g4]; decide, st.group.myLeafIndex, 0, r.guard, pt,
    ⟨.commit { proposals := kps.map fun k => .proposal (.add k), path := none }, ⟨sig, tag⟩⟩, 0, leaf, tbs, ?_, ?_, ?_, ?_, ?_, ?_⟩
  · rw [← hv.context, ← hv.epochSecret]; exact g6
  · rw [g3]
    have hrt := privateContent_rt _ pt [] g2 (by
      intro p hp
      simp only [List.mem_map] at hp
      obtain ⟨k, hk, rfl⟩ := hp
      exact hw k hk) (Or.inl rfl)
    rw [List.append_nil] at hrt
    exact hrt
  · simp only [Group.framedContent, g4, g6.group, g6.epoch]
  · rw [← hv.tree, hmod]; exact hleaf
  · rw [← hv.context]; exact contentTBS_some.2 htbs
  · rw [← hv.context, hpub]
    rw [hpriv] at hsig
    exact signWithLabel_valid hc run.suite lblFramedContentTBS_name (by decide) hsig

theorem verifyAdds_iff {ctx : GroupContext} (kps : List KeyPackage) :
    verifyAdds pr ctx (kps.map .add) = .ok () ↔ ∀ k ∈ kps, Spec.PackageValid pr ctx k := by
  induction kps with
  | nil => simp [verifyAdds]
  | cons k kps ih =>
    rw [List.forall_mem_cons, ← ih, packageValid_iff]
    simp only [List.map_cons, verifyAdds, Res.bind_ok_iff]
    constructor
    · rintro ⟨_, h1, h2⟩; exact ⟨h1, h2⟩
    · rintro ⟨h1, h2⟩; exact ⟨(), h1, h2⟩

theorem verifyProposalList_adds (kps : List KeyPackage) (s : UInt32) :
    verifyProposalList (kps.map .add) (kps.map fun _ => s) s = .ok () ↔ (kps.map fun k => k.leafNode.signatureKey).Nodup := by
  have hz : (kps.map Proposal.add).zip (kps.map fun _ => s) = kps.map fun k => (Proposal.add k, s) := by
    induction kps with
    | nil => rfl
    | cons k kps ih => simp only [List.map_cons, List.zip_cons_cons, ih]
  have h1 : (kps.map fun k => (Proposal.add k, s)).filterMap Spec.addKey = kps.map fun k => k.leafNode.signatureKey := by
    rw [List.filterMap_map]
    exact List.filterMap_eq_map' ▸ rfl
  have h2 : (kps.map fun k => (Proposal.add k, s)).filterMap Spec.target = [] := by
    rw [List.filterMap_map, List.filterMap_eq_nil_iff]
    intro k _; rfl
  have h3 : (kps.map fun k => (Proposal.add k, s)).filterMap Spec.pskID = [] := by
    rw [List.filterMap_map, List.filterMap_eq_nil_iff]
    intro k _; rfl
  rw [C32_rules _ _ _ (by simp) (by unfold PsksEncodable; rw [hz, h3]; simp), hz]
  constructor
  · intro h
    have := h.adds
    rwa [h1] at this
  · intro h
    refine ⟨by rw [h1]; exact h, by rw [h2]; simp, by rw [h2]; simp, by rw [h3]; simp, ?_, ?_, ?_⟩
    · rw [List.countP_eq_zero.2]
      · omega
      · intro x hx
        rw [List.mem_map] at hx
        obtain ⟨k, _, rfl⟩ := hx
        simp [Spec.isGce]
    · rintro ⟨x, hx, h⟩
      rw [List.mem_map] at hx
      obtain ⟨k, _, rfl⟩ := hx
      cases h
    · intro x hx
      rw [List.mem_map] at hx
      obtain ⟨k, _, rfl⟩ := hx
      rfl

theorem createWelcome_nonempty {st st1 : GroupState} {kps : List KeyPackage} {r : WelcomeRand} {w : Welcome} {raw : Bytes}
    (h : createWelcome pr st kps r = (.ok (w, raw), st1)) : kps ≠ [] := by
  rintro rfl
  cases h

theorem checkProposals_adds {g : Group} {s : UInt32} {kps : List KeyPackage} (hne : kps ≠ []) {o : List Proposal × List UInt32} :
    checkProposals pr g s { proposals := kps.map fun k => .proposal (.add k), path := none } = .ok o ↔
      o = (kps.map .add, kps.map fun _ => s) ∧ (kps.map fun k => k.leafNode.signatureKey).Nodup ∧
        ∀ k ∈ kps, Spec.PackageValid pr g.groupContext k := by
  have hres : resolveProposals s g.pendingProposals (kps.map fun k => .proposal (.add k)) = .ok (kps.map .add, kps.map fun _ => s) := by
    rw [resolveProposals_eq, resolve_adds]
    simp [orErr, Function.comp_def]
  have hnp : proposalListNeedsPath (kps.map .add) = false := by
    unfold proposalListNeedsPath
    rw [if_neg (by simpa using hne), List.any_eq_false]
    intro x hx
    rw [List.mem_map] at hx
    obtain ⟨k, _, rfl⟩ := hx
    simp [Proposal.needsPath]
  unfold checkProposals
  simp only [hres, Res.ok_bind, hnp, Bool.false_and, Bool.not_false, Res.guardErr_true, Res.pure_eq, Res.bind_ok_iff, Res.ok.injEq]
  constructor
  · rintro ⟨_, h1, _, h2, rfl⟩
    exact ⟨rfl, (verifyProposalList_adds kps s).1 h1, (verifyAdds_iff kps).1 h2⟩
  · rintro ⟨rfl, h1, h2⟩
    exact ⟨(), (verifyProposalList_adds kps s).2 h1, (), (verifyAdds_iff kps).2 h2, rfl⟩

theorem InviteRun.follows (hc : pr.Correct) {st st2 : GroupState} (hi : GroupInv pr st) (hi2 : GroupInv pr st2) (hv : SameView st st2)
    {kps : List KeyPackage} (hne : kps ≠ []) (hw : ∀ k ∈ kps, k.version = 1) {r : WelcomeRand} {w : Welcome} {raw : Bytes} {hp : Heap} {t : RTree}
    {sd : SuiteDesc} {th psk sig cth js es tag rawTree isig : Bytes} {ctx : GroupContext} (hown : Spec.OwnLeaf pr st)
    (run : InviteRun pr st kps r w raw hp t sd th psk sig cth js es tag rawTree isig ctx) (now : GoTime)
    (hk : ∀ k ∈ kps, Spec.PackageValid pr st.group.groupContext k) (hd : (kps.map fun k => k.leafNode.signatureKey).Nodup) :
    ∃ st2', unmarshalAndProcessMessage pr st2 raw now = (.ok none, st2') := by
  rw [upm_of_carries (run.carries hc hi hv hw hown)]
  have hchk := (checkProposals_adds (pr := pr) (g := st2.group) (s := st.group.myLeafIndex) hne).2 ⟨rfl, hd, by rw [← hv.context]; exact hk⟩
  have hap := run.apply
  rw [treeApply_adds _ _ _ _ (kps.map fun _ => st.group.myLeafIndex)] at hap
  obtain ⟨h2', t2', j1, j2⟩ := treeApply_view (l := kps.map fun k => (Proposal.add k, st.group.myLeafIndex)) hi.tree hi2.tree hv.tree
    (by simpa [Function.comp_def] using hap)
  simp only [List.map_map, Function.comp_def] at j1
  have hkk := hv.keys
  unfold Group.keyState at hkk
  obtain ⟨e1, e2, e3, e4⟩ := Spec.Epoch.mk.inj hkk
  have hcs : ctx.cipherSuite = st.group.groupContext.cipherSuite := by rw [run.context]
  have htag : tag.length < 2 ^ 30 := by
    have h := run.confirmed
    unfold GroupContext.signConfirmationTag signMAC at h
    rw [hcs, run.suite] at h
    simp only [Res.bind_ok_iff, Res.ok_bind, Res.pure_eq, Res.ok.injEq] at h
    obtain ⟨ck, _, rfl⟩ := h
    rw [hc.mac_length]
    have := hash_size_lt sd.hash
    omega
  obtain ⟨pt, hpt⟩ := copyPrivTree_total (b := t2'.length) hi2.length
  have hinit := deriveSecret_eq (pr := pr) run.suite es (label := lblInit) (name := "init") (by decide +kernel) (by decide)
  have hth := run.hash
  rw [j2] at hth
  have htr := run.transcript
  have hjs := run.joiner
  have hes := run.epoch
  rw [run.context] at hjs hes
  have hfin : ∃ st2', finishCommit pr st2.group h2' t2'
      ⟨.privateMessage, st.group.framedContent (.commit { proposals := kps.map fun k => .proposal (.add k), path := none }), ⟨sig, tag⟩⟩
      { proposals := kps.map fun k => .proposal (.add k), path := none } [] [] now = .ok st2' := by
    unfold finishCommit
    rw [← e1, ← e2, ← e4]
    simp only [hpt, run.suite, hth, htr, nextInterim_of run.suite _ htag, hjs, run.noPsk, hes, hinit, Res.ok_bind, Res.pure_eq]
    exact ⟨_, rfl⟩
  obtain ⟨st2', hfin⟩ := hfin
  refine ⟨st2', ?_⟩
  unfold dispatch processCommit
  simp only [Group.framedContent, Sender.leafIndex]
  rw [hchk]
  simp only
  rw [j1]
  simp only [Group.framedContent] at hfin
  simp only [hfin, Res.ok_bind]
  rfl

/-- **C78.** Who follows an invitation: every member in the same epoch as the inviter, at any time and whatever else they do, accepts its commit exactly
when all the key packages are valid for the group and no two of them have the same signature key. -/
theorem C78_follows (hc : pr.Correct) {st st1 st2 : GroupState} (hr : Reachable pr st) (hr2 : Reachable pr st2) (hv : SameView st st2)
    (hown : Spec.OwnLeaf pr st) {kps : List KeyPackage} (hw : ∀ k ∈ kps, k.version = 1) {r : WelcomeRand} {w : Welcome} {raw : Bytes}
    (h : createWelcome pr st kps r = (.ok (w, raw), st1)) (now : GoTime) :
    (∃ d st2', unmarshalAndProcessMessage pr st2 raw now = (.ok d, st2')) ↔
      (∀ k ∈ kps, Spec.PackageValid pr st.group.groupContext k) ∧ (kps.map fun k => k.leafNode.signatureKey).Nodup := by
  have hne := createWelcome_nonempty h
  obtain ⟨hp, t, sd, th, psk, sig, cth, js, es, tag, rawTree, isig, ctx, run, -⟩ := createWelcome_run h
  constructor
  · rintro ⟨d, st2', ha⟩
    obtain ⟨l, hh, t2, k1, k2, k3, k4⟩ := accepted_commit (run.carries hc (hr.inv hc) hv hw hown) rfl ha
    obtain ⟨-, h1, h2⟩ := (checkProposals_adds hne).1 k2
    rw [hv.context]
    exact ⟨h2, h1⟩
  · rintro ⟨h1, h2⟩
    obtain ⟨st2', ha⟩ := run.follows hc (hr.inv hc) (hr2.inv hc) hv hne hw hown now h1 h2
    exact ⟨none, st2', ha⟩

/-- **C78.** For valid key packages with different signature keys, all members in the same epoch as the inviter follow, and end up with the same view of
the next epoch. -/
theorem C78_together (hc : pr.Correct) {st st1 st2 st3 : GroupState} (hr : Reachable pr st) (hr2 : Reachable pr st2) (hr3 : Reachable pr st3)
    (hv : SameView st st2) (hv3 : SameView st st3) (hown : Spec.OwnLeaf pr st) {kps : List KeyPackage} (hw : ∀ k ∈ kps, k.version = 1)
    (hk : ∀ k ∈ kps, Spec.PackageValid pr st.group.groupContext k) (hd : (kps.map fun k => k.leafNode.signatureKey).Nodup) {r : WelcomeRand}
    {w : Welcome} {raw : Bytes} (h : createWelcome pr st kps r = (.ok (w, raw), st1)) (now now3 : GoTime) :
    ∃ st2' st3', unmarshalAndProcessMessage pr st2 raw now = (.ok none, st2') ∧ unmarshalAndProcessMessage pr st3 raw now3 = (.ok none, st3') ∧
      SameView st2' st3' ∧ st2'.group.groupContext.epoch = st2.group.groupContext.epoch + 1 := by
  have hne := createWelcome_nonempty h
  obtain ⟨hp, t, sd, th, psk, sig, cth, js, es, tag, rawTree, isig, ctx, run, -⟩ := createWelcome_run h
  obtain ⟨st2', ha⟩ := run.follows hc (hr.inv hc) (hr2.inv hc) hv hne hw hown now hk hd
  obtain ⟨st3', ha3⟩ := run.follows hc (hr.inv hc) (hr3.inv hc) hv3 hne hw hown now3 hk hd
  have g2 := run.member hc (hr.inv hc) (hr2.inv hc) hv hw ha
  have g3 := run.member hc (hr.inv hc) (hr3.inv hc) hv3 hw ha3
  refine ⟨st2', st3', ha, ha3, g2.same g3, ?_⟩
  rw [g2.context, run.context, ← hv.context]

/-- CreateWelcome does not check the key packages: with one whose signature is not valid it returns, the invited joins, and everyone else, the inviter
included, refuses the commit and stays behind. -/
theorem C78_refuted : ∃ st st2 st1 w raw kp j, Reachable toyPrims st ∧ Reachable toyPrims st2 ∧ SameView st st2 ∧ Spec.OwnLeaf toyPrims st ∧
    createWelcome toyPrims st [kp.pub] default = (.ok (w, raw), st1) ∧ groupFromWelcome toyPrims w kp toyLater = .ok j ∧
    j.group.groupContext.epoch = st.group.groupContext.epoch + 1 ∧ (unmarshalAndProcessMessage toyPrims st2 raw toyLater).1 = .err ∧
    (unmarshalAndProcessMessage toyPrims st1 raw toyLater).1 = .err := by
  have key : toyTwo.holds (fun (a, b) =>
      let kp := { toyMember 2 with pub := { (toyMember 2).pub with signature := [] } }
      decide (SameView a b) && toyOwns a 0 && (createWelcome toyPrims a [kp.pub] default).1.holds (fun (w, raw) =>
        (groupFromWelcome toyPrims w kp toyLater).holds (fun j => decide (j.group.groupContext.epoch = a.group.groupContext.epoch + 1)) &&
        decide ((unmarshalAndProcessMessage toyPrims b raw toyLater).1 = .err) &&
        decide ((unmarshalAndProcessMessage toyPrims (createWelcome toyPrims a [kp.pub] default).2 raw toyLater).1 = .err))) = true := by decide +kernel
  obtain ⟨⟨a, b⟩, h, key⟩ := Res.holds_ok key
  obtain ⟨hr, hr2⟩ := toyTwo_reachable h
  clear h
  generalize toyMember 2 = m at key
  simp only at key
  rw [Bool.and_eq_true, Bool.and_eq_true, decide_eq_true_eq] at key
  obtain ⟨⟨k1, k2⟩, k3⟩ := key
  obtain ⟨⟨w, raw⟩, hw, k4⟩ := Res.holds_ok k3
  simp only [Bool.and_eq_true, decide_eq_true_eq] at k4
  obtain ⟨⟨k5, k6⟩, k7⟩ := k4
  obtain ⟨j, hj, k8⟩ := Res.holds_ok k5
  exact ⟨a, b, _, w, raw, { m with pub := { m.pub with signature := [] } }, j, hr, hr2, k1, toyOwns_spec k2, Prod.ext hw rfl, hj,
    of_decide_eq_true k8, k6, k7⟩

/-- The hypotheses of C78_follows are met: the second of two members follows the invitation of two more by the first. -/
example : ∃ st st2 st1 w raw st2', Reachable toyPrims st ∧ Reachable toyPrims st2 ∧ SameView st st2 ∧ Spec.OwnLeaf toyPrims st ∧
    (∀ k ∈ [(toyMember 2).pub, (toyMember 3).pub], k.version = 1) ∧
    createWelcome toyPrims st [(toyMember 2).pub, (toyMember 3).pub] default = (.ok (w, raw), st1) ∧
    unmarshalAndProcessMessage toyPrims st2 raw toyLater = (.ok none, st2') := by
  have key : toyTwo.holds (fun (a, b) =>
      let kps := [(toyMember 2).pub, (toyMember 3).pub]
      decide (SameView a b) && toyOwns a 0 && decide (∀ k ∈ kps, k.version = 1) && (createWelcome toyPrims a kps default).1.holds (fun (_, raw) =>
        decide ((unmarshalAndProcessMessage toyPrims b raw toyLater).1 = .ok none))) = true := by decide +kernel
  obtain ⟨⟨a, b⟩, h, key⟩ := Res.holds_ok key
  obtain ⟨hr, hr2⟩ := toyTwo_reachable h
  clear h
  generalize toyMember 2 = m2, toyMember 3 = m3 at *
  simp only at key
  rw [Bool.and_eq_true, Bool.and_eq_true, Bool.and_eq_true, decide_eq_true_eq, decide_eq_true_eq] at key
  obtain ⟨⟨⟨k1, k2⟩, k3⟩, k4⟩ := key
  obtain ⟨⟨w, raw⟩, hw, k5⟩ := Res.holds_ok k4
  exact ⟨a, b, _, w, raw, _, hr, hr2, k1, toyOwns_spec k2, k3, Prod.ext hw rfl, Prod.ext (of_decide_eq_true k5) rfl⟩

end Mls
