import Verif.Props.Follow
import Verif.Props.Private
/-
C50: after an invitation, the members that process the commit and the invitees that join from the welcome agree.
-/
namespace Mls

open Spec (Ratchet nodeAt)

variable {pr : Prims}

/-- The group info of an invitation (group.go:694-704). -/
def inviteInfo (ctx : GroupContext) (rawTree tag : Bytes) (signer : UInt32) (sig : Bytes) : GroupInfo :=
  { groupContext := ctx, extensions := [{ ty := 2, data := rawTree }], confirmationTag := tag, signer, signature := sig }

/-- What CreateWelcome computes: the tree after the adds, its hash, the signature of the commit, the next group context, the
joiner secret, the epoch secret, the confirmation tag. -/
structure InviteRun (pr : Prims) (st : GroupState) (kps : List KeyPackage) (r : WelcomeRand) (w : Welcome) (raw : Bytes) (hp : Heap) (t : RTree)
    (sd : SuiteDesc) (th psk sig cth js es tag rawTree isig : Bytes) (ctx : GroupContext) : Prop where
  apply : treeApply st.heap st.group.tree (kps.map .add) [st.group.myLeafIndex] = .ok (hp, t)
  suite : suite st.group.groupContext.cipherSuite = .ok sd
  hash : computeRootTreeHash pr st.group.groupContext.cipherSuite (derefTree hp t) = .ok th
  noPsk : extractPSKSecret pr st.group.groupContext.cipherSuite [] [] = .ok psk
  signed : signPrivateMessageContent pr st.group.groupContext.cipherSuite st.group.signaturePriv
    (st.group.framedContent (.commit { proposals := kps.map fun k => .proposal (.add k), path := none })) st.group.groupContext r.commitSign =
      .ok ⟨.commit { proposals := kps.map fun k => .proposal (.add k), path := none }, ⟨sig, []⟩⟩
  transcript : confirmedTranscriptHash pr st.group.groupContext.cipherSuite .privateMessage
    (st.group.framedContent (.commit { proposals := kps.map fun k => .proposal (.add k), path := none })) sig st.group.interimTranscriptHash =
      .ok cth
  context : ctx = { st.group.groupContext with epoch := st.group.groupContext.epoch + 1, treeHash := th, confirmedTranscriptHash := cth }
  joiner : ctx.extractJoinerSecret pr st.group.initSecret (List.replicate sd.kdf.size 0) = .ok js
  epoch : ctx.extractEpochSecret pr js (some psk) = .ok es
  confirmed : ctx.signConfirmationTag pr es = .ok tag
  tree : encTree (derefTree hp t) = .ok rawTree
  infoSigned : (inviteInfo ctx rawTree tag st.group.myLeafIndex []).sign pr st.group.signaturePriv r.infoSign =
    .ok (inviteInfo ctx rawTree tag st.group.myLeafIndex isig)
  info : (inviteInfo ctx rawTree tag st.group.myLeafIndex isig).encrypt pr js psk = .ok w.encryptedGroupInfo
  secrets : encryptSecretsLoop pr st.group.groupContext.cipherSuite { joinerSecret := js, pathSecret := none, psks := [] }
    w.encryptedGroupInfo r.hpke 0 kps = .ok w.secrets
  cipherSuite : w.cipherSuite = st.group.groupContext.cipherSuite
  message : st.group.encryptPrivateMessage pr
    (st.group.framedContent (.commit { proposals := kps.map fun k => .proposal (.add k), path := none }))
    ⟨.commit { proposals := kps.map fun k => .proposal (.add k), path := none }, ⟨sig, tag⟩⟩ r.guard = .ok raw

theorem createWelcome_run {st st1 : GroupState} {kps : List KeyPackage} {r : WelcomeRand} {w : Welcome} {raw : Bytes}
    (h : createWelcome pr st kps r = (.ok (w, raw), st1)) :
    ∃ hp t sd th psk sig cth js es tag rawTree isig ctx,
      InviteRun pr st kps r w raw hp t sd th psk sig cth js es tag rawTree isig ctx ∧ st1 = { st with heap := hp } := by
  unfold createWelcome at h
  split at h
  · cases h
  · rcases ht : treeApply st.heap st.group.tree (kps.map .add) [st.group.myLeafIndex] with ⟨hp, t⟩ | _ | _ | _ <;> rw [ht] at h
    rotate_left
    · cases h
    · cases h
    · cases h
    simp only [Prod.mk.injEq] at h
    obtain ⟨h, rfl⟩ := h
    unfold finishWelcome at h
    simp only [Res.bind_ok_iff] at h
    obtain ⟨th, h1, sd, h2, psk, h3, c, h4, cth, h5, js, h6, es, h7, tag, h8, rt, h9, info, h10, egi, h11, secrets, h12, m, h13, h⟩ := h
    cases h
    have h4' := h4
    unfold signPrivateMessageContent signAuthenticatedContent at h4'
    simp only [Res.bind_ok_iff] at h4'
    obtain ⟨a, ⟨tbs, _, sig, _, ha⟩, hc⟩ := h4'
    cases ha
    cases hc
    have h10' := h10
    unfold GroupInfo.sign at h10'
    simp only [Res.bind_ok_iff] at h10'
    obtain ⟨_, _, isig, _, hi⟩ := h10'
    cases hi
    exact ⟨hp, t, sd, th, psk, sig, cth, js, es, tag, rt, isig, _, ⟨ht, h2, h1, h3, h4, h5, rfl, h6, h7, h8, h9, h10, h11, h12, rfl, h13⟩, rfl⟩

/-! ### The message -/

theorem senderData_inj {li gen li2 gen2 : UInt32} {g g2 : Bytes4}
    (h : Spec.senderData li.toNat gen.toNat g.toBytes = Spec.senderData li2.toNat gen2.toNat g2.toBytes) :
    li = li2 ∧ gen = gen2 ∧ g = g2 := by
  have h1 := unmarshal_senderData (raw := Spec.senderData li.toNat gen.toNat g.toBytes) (sd := ⟨li, gen, g⟩)
  have h2 := unmarshal_senderData (raw := Spec.senderData li.toNat gen.toNat g.toBytes) (sd := ⟨li2, gen2, g2⟩)
  have := (h1.2 rfl).symm.trans (h2.2 h)
  cases this
  exact ⟨rfl, rfl, rfl⟩

/-- What the message of an invitation carries for those in the same epoch. -/
theorem InviteRun.carried (hc : pr.Correct) {st st2 : GroupState} (hi : GroupInv pr st) (hv : SameView st st2) {kps : List KeyPackage}
    (hw : ∀ k ∈ kps, k.version = 1) {r : WelcomeRand} {w : Welcome} {raw : Bytes} {hp : Heap} {t : RTree}
    {sd : SuiteDesc} {th psk sig cth js es tag rawTree isig : Bytes} {ctx : GroupContext}
    (run : InviteRun pr st kps r w raw hp t sd th psk sig cth js es tag rawTree isig ctx) {a : AuthenticatedContent} {e : Bool}
    (hca : Carries pr st2 raw a e) :
    a = ⟨.privateMessage, st.group.framedContent (.commit { proposals := kps.map fun k => .proposal (.add k), path := none }), ⟨sig, tag⟩⟩ := by
  obtain ⟨d, hd, hlen⟩ := hi.tree.complete
  have hown := hi.own
  have h2d : 2 ^ (d + 1) = 2 * 2 ^ d := by rw [Nat.pow_succ]; omega
  have hin : st.group.myLeafIndex.toNat < 2 ^ d := by omega
  have hlen2 : st2.group.tree.length = 2 ^ (d + 1) - 1 := by rw [← hv.length]; exact hlen
  obtain ⟨m, pt, g1, g2, g3, g4, g5, g6, _⟩ := encrypt_opens hc run.suite hd hlen hin run.message
  cases hca with
  | pub hd' _ => rw [g1] at hd'; cases hd'
  | priv hd' hv' =>
    rw [g1] at hd'
    cases hd'
    rw [C62_received pr hc st2 sd (by rw [← hv.context]; exact run.suite) d hd hlen2] at hv'
    obtain ⟨_, _, li, gen, guard, pt2, c, k, leaf, tbs, ho, hdec, rfl, _⟩ := hv'
    rw [← hv.context, ← hv.epochSecret] at ho
    have hs := Option.some.inj (g6.sender.symm.trans ho.sender)
    obtain ⟨rfl, rfl, rfl⟩ := senderData_inj (gen := 0) hs
    have hpt := Option.some.inj (g6.content.symm.trans ho.content)
    subst hpt
    have hrt := privateContent_rt _ pt [] g2 (by
      intro p hp
      simp only [List.mem_map] at hp
      obtain ⟨k, hk, rfl⟩ := hp
      exact hw k hk) (Or.inl rfl)
    rw [List.append_nil] at hrt
    rw [g3] at hdec
    have hcc : (PrivateMessageContent.dec (Content.commit { proposals := kps.map fun k => .proposal (.add k), path := none }).ty).run pt =
        (.ok c, List.replicate k 0) := hdec
    have := hrt.symm.trans hcc
    obtain ⟨h1, _⟩ := Prod.mk.inj this
    cases h1
    simp only [Group.framedContent, g4, g6.group, g6.epoch]

/-! ### The members -/

theorem applyUpdates_adds (ss : List UInt32) (t : RTree) : ∀ (kps : List KeyPackage) (i : Nat), applyUpdates ss i (kps.map .add) t = .ok t := by
  intro kps
  induction kps with
  | nil => intro i; rfl
  | cons k kps ih => intro i; exact ih (i + 1)

theorem treeApply_adds (h : Heap) (t : RTree) (kps : List KeyPackage) (ss ss2 : List UInt32) :
    treeApply h t (kps.map .add) ss = treeApply h t (kps.map .add) ss2 := by
  unfold treeApply
  rw [applyUpdates_adds, applyUpdates_adds]

theorem resolve_adds (s : UInt32) (pending : List PendingProposal) (kps : List KeyPackage) :
    Spec.resolve s pending (kps.map fun k => .proposal (.add k)) = some (kps.map fun k => (.add k, s)) := by
  have := resolveProposals_eq s pending (kps.map fun k => .proposal (.add k))
  have h2 : resolveProposals s pending (kps.map fun k => .proposal (.add k)) = .ok (kps.map .add, kps.map fun _ => s) := by
    clear this
    induction kps with
    | nil => rfl
    | cons k kps ih =>
      simp only [List.map_cons, resolveProposals, ih, Res.ok_bind]
      rfl
  rw [h2] at this
  cases hr : Spec.resolve s pending (kps.map fun k => .proposal (.add k)) with
  | none => rw [hr] at this; simp [orErr] at this
  | some l =>
    rw [hr] at this
    simp only [Option.map_some, orErr, Res.ok.injEq, Prod.mk.injEq] at this
    obtain ⟨h3, h4⟩ := this
    congr 1
    clear hr h2
    induction l generalizing kps with
    | nil => cases kps with
      | nil => rfl
      | cons k kps => simp at h3
    | cons x l ih =>
      cases kps with
      | nil => simp at h3
      | cons k kps =>
        simp only [List.map_cons, List.cons.injEq] at h3 h4 ⊢
        exact ⟨Prod.ext h3.1.symm h4.1.symm, ih kps h3.2 h4.2⟩

/-- The group after the invitation, for whoever is in it. -/
structure AfterInvite (pr : Prims) (st : GroupState) (v : VTree) (ctx : GroupContext) (es tag : Bytes) : Prop where
  tree : st.vtree = v
  context : st.group.groupContext = ctx
  epoch : st.group.epochSecret = es
  init : deriveSecret pr ctx.cipherSuite es lblInit = .ok st.group.initSecret
  interim : nextInterimTranscriptHash pr ctx.cipherSuite ctx.confirmedTranscriptHash tag = .ok st.group.interimTranscriptHash
  pending : st.group.pendingProposals = []

theorem AfterInvite.same {st st2 : GroupState} {v : VTree} {ctx : GroupContext} {es tag : Bytes} (h : AfterInvite pr st v ctx es tag)
    (h2 : AfterInvite pr st2 v ctx es tag) : SameView st st2 := by
  refine ⟨h.tree.trans h2.tree.symm, ?_, h.pending.trans h2.pending.symm⟩
  unfold Group.keyState
  rw [h.context, h2.context, h.epoch, h2.epoch, Res.ok.inj (h.init.symm.trans h2.init), Res.ok.inj (h.interim.symm.trans h2.interim)]

theorem InviteRun.member (hc : pr.Correct) {st st2 st2' : GroupState} (hi : GroupInv pr st) (hi2 : GroupInv pr st2) (hv : SameView st st2)
    {kps : List KeyPackage} (hw : ∀ k ∈ kps, k.version = 1) {r : WelcomeRand} {w : Welcome} {raw : Bytes} {hp : Heap} {t : RTree}
    {sd : SuiteDesc} {th psk sig cth js es tag rawTree isig : Bytes} {ctx : GroupContext}
    (run : InviteRun pr st kps r w raw hp t sd th psk sig cth js es tag rawTree isig ctx) {now : GoTime} {d : Option Bytes}
    (h : unmarshalAndProcessMessage pr st2 raw now = (.ok d, st2')) : AfterInvite pr st2' (derefTree hp t) ctx es tag := by
  obtain ⟨a, e, hca, _⟩ := accepted_cases h
  obtain rfl := run.carried hc hi hv hw hca
  obtain ⟨l, hh, t2, k1, k2, k3, k4⟩ := accepted_commit hca rfl h
  rw [resolve_adds] at k1
  cases k1
  have hap := run.apply
  rw [treeApply_adds _ _ _ _ (kps.map fun _ => st.group.myLeafIndex)] at hap
  obtain ⟨h2', t2', j1, j2⟩ := treeApply_view (l := kps.map fun k => (Proposal.add k, st.group.myLeafIndex)) hi.tree hi2.tree hv.tree
    (by simpa [Function.comp_def] using hap)
  simp only [List.map_map, Function.comp_def] at j1 k3
  have k3' : treeApply st2.heap st2.group.tree (kps.map .add) (kps.map fun _ => st.group.myLeafIndex) = .ok (hh, t2) := k3
  rw [j1] at k3'
  cases k3'
  have hk := hv.keys
  unfold Group.keyState at hk
  obtain ⟨e1, e2, e3, e4⟩ := Spec.Epoch.mk.inj hk
  unfold finishCommit at k4
  simp only [Res.bind_ok_iff] at k4
  obtain ⟨pt, m1, sd2, m2, ⟨hf, tf, ctxf, ptf, sec⟩, m3, cth2, m4, itm, m5, js2, m6, psk2, m7, es2, m8, is2, m9, m10⟩ := k4
  simp only [Res.pure_eq, Res.ok.injEq, Prod.mk.injEq] at m3
  obtain ⟨th2, n1, rfl, rfl, rfl, rfl, rfl⟩ := m3
  rw [← e1] at m2 m4 m5 m6 m7 m8 m9 m10 n1
  rw [← e2] at m4
  rw [← e4] at m6
  rw [← j2, run.hash] at n1
  cases n1
  rw [run.suite] at m2
  cases m2
  rw [run.transcript] at m4
  cases m4
  rw [← run.context, run.joiner] at m6
  cases m6
  rw [run.noPsk] at m7
  cases m7
  rw [← run.context, run.epoch] at m8
  cases m8
  rw [← run.context] at m10
  cases m10
  have hcs : ctx.cipherSuite = st.group.groupContext.cipherSuite := by rw [run.context]
  have hct : ctx.confirmedTranscriptHash = cth := by rw [run.context]
  exact ⟨j2.symm, rfl, rfl, by rw [hcs]; exact m9, by rw [hcs, hct]; exact m5, rfl⟩

/-! ### The invitees -/

/-- The tree hashes of the two trees involve a collision of the hash function. -/
def TreeCollision (pr : Prims) (sd : SuiteDesc) (v v' : VTree) : Prop :=
  ∃ k k', ∃ s : Ratchet ParentNode k, ∃ s' : Ratchet ParentNode k', v = s.flat .leaf .parent ∧ v' = s'.flat .leaf .parent ∧
    ∃ a ∈ s.hashed (pr.hash sd.hash) 0, ∃ b ∈ s'.hashed (pr.hash sd.hash) 0, a ≠ b ∧ pr.hash sd.hash a = pr.hash sd.hash b

/-- One of the key packages has the reference of another. -/
def RefCollision (pr : Prims) (kps : List KeyPackage) (k : KeyPackage) : Prop :=
  ∃ k' ∈ kps, k' ≠ k ∧ ∃ ref, k'.generateRef pr = .ok ref ∧ k.generateRef pr = .ok ref

theorem encryptSecretsLoop_find {cs : UInt16} {gs : GroupSecrets} {egi : Bytes} {rand : Nat → Bytes} {ref : Bytes} :
    ∀ (ks : List KeyPackage) (i : Nat) (l : List EncryptedGroupSecrets) (s : EncryptedGroupSecrets),
      encryptSecretsLoop pr cs gs egi rand i ks = .ok l → l.find? (fun s => s.newMember == ref) = some s →
      ∃ k ∈ ks, ∃ j, k.generateRef pr = .ok ref ∧ gs.encrypt pr cs k.initKey egi (rand j) = .ok s.encryptedGroupSecrets := by
  intro ks
  induction ks with
  | nil => intro i l s h hf; cases h; cases hf
  | cons k ks ih =>
    intro i l s h hf
    simp only [encryptSecretsLoop, Res.bind_ok_iff] at h
    obtain ⟨ref', h1, ct, h2, rest, h3, h4⟩ := h
    cases h4
    rw [List.find?_cons] at hf
    by_cases hx : ref' = ref
    · subst hx
      simp only [beq_self_eq_true, Option.some.injEq] at hf
      subst hf
      exact ⟨k, List.mem_cons_self .., i, h1, h2⟩
    · rw [beq_false_of_ne hx] at hf
      obtain ⟨k', hk', j, g1, g2⟩ := ih _ _ _ h3 hf
      exact ⟨k', List.mem_cons_of_mem _ hk', j, g1, g2⟩

/-- What the key opening the welcome makes of it. -/
theorem InviteRun.secrets_open {st : GroupState} {kps : List KeyPackage} {r : WelcomeRand} {w : Welcome} {raw : Bytes} {hp : Heap} {t : RTree}
    {sd : SuiteDesc} {th psk sig cth js es tag rawTree isig : Bytes} {ctx : GroupContext}
    (run : InviteRun pr st kps r w raw hp t sd th psk sig cth js es tag rawTree isig ctx) {kp : KeyPairPackage}
    (ho : Spec.KeyOpens pr sd kp.pub.initKey kp.priv.initKey) {ref : Bytes} (hr : kp.pub.generateRef pr = .ok ref)
    {s : EncryptedGroupSecrets} (hf : w.findSecret ref = some s) :
    w.decryptGroupSecrets pr ref kp.priv.initKey = .ok { joinerSecret := js, pathSecret := none, psks := [] } ∨ RefCollision pr kps kp.pub := by
  obtain ⟨k, hk, j, g1, g2⟩ := encryptSecretsLoop_find _ _ _ _ run.secrets hf
  by_cases hkp : k = kp.pub
  · subst hkp
    left
    unfold GroupSecrets.encrypt encryptWithLabel at g2
    simp only [Res.bind_ok_iff] at g2
    obtain ⟨plain, p1, ec, p2, sd', p3, ⟨ko, ct⟩, p4, p5⟩ := g2
    rw [run.suite] at p3
    cases p3
    rw [orErr_ok_iff] at p4
    simp only [Res.pure_eq, Res.ok.injEq] at p5
    unfold Welcome.decryptGroupSecrets decryptWithLabel
    rw [hf, run.cipherSuite]
    simp only [orErr, Res.ok_bind, p2, run.suite, ← p5, ho _ _ _ _ _ p4]
    exact unmarshal_rt groupSecrets_rt p1 trivial
  · exact .inr ⟨k, hk, hkp, ref, g1, hr⟩

theorem groupInfo_version {i j : GroupInfo} {bs : Bytes} (h : i.enc = .ok bs) (hd : unmarshal GroupInfo.dec bs = .ok j) :
    i.groupContext.version = 1 := by
  rw [unmarshal_ok_iff] at hd
  simp only [GroupInfo.enc, GroupInfo.encTBS, GroupContext.enc, Enc.append_assoc, Enc.append_ok_iff] at h
  obtain ⟨x0, _, e0, _, rfl⟩ := h
  unfold GroupInfo.dec GroupContext.dec at hd
  simp only [P.bind_ok_iff] at hd
  obtain ⟨_, _, ⟨a0, s0, h0, a1, s1, h1, a2, s2, h2, a3, s3, h3, a4, s4, h4, a5, s5, h5, h⟩, _⟩ := hd
  have := (rU16_rt _ _ _ e0 trivial).symm.trans h0
  obtain ⟨h6, _⟩ := Prod.mk.inj this
  cases h6
  by_cases hv : i.groupContext.version = 1
  · exact hv
  · rw [if_pos (by simpa using hv)] at h
    cases h

theorem InviteRun.info_open (hc : pr.Correct) {st : GroupState} {kps : List KeyPackage} {r : WelcomeRand}
    {w : Welcome} {raw : Bytes} {hp : Heap} {t : RTree} {sd : SuiteDesc} {th psk sig cth js es tag rawTree isig : Bytes} {ctx : GroupContext}
    (run : InviteRun pr st kps r w raw hp t sd th psk sig cth js es tag rawTree isig ctx) {i : GroupInfo}
    (hi : w.decryptGroupInfo pr js psk = .ok i) :
    w.decryptGroupInfo pr js psk = .ok (inviteInfo ctx rawTree tag st.group.myLeafIndex isig) := by
  have h := run.info
  have hcs : ctx.cipherSuite = st.group.groupContext.cipherSuite := by rw [run.context]
  unfold GroupInfo.encrypt at h
  simp only [Res.bind_ok_iff, inviteInfo, hcs] at h
  obtain ⟨⟨key, nonce⟩, h1, plain, h2, h3⟩ := h
  rw [aeadSeal_ok_iff run.suite] at h3
  unfold Welcome.decryptGroupInfo at hi ⊢
  rw [run.cipherSuite, h1] at hi ⊢
  simp only [Res.ok_bind, (aeadOpen_ok_iff run.suite).2 (hc.aead_open _ _ _ _ _ _ h3)] at hi ⊢
  exact unmarshal_rt groupInfo_rt h2 (groupInfo_version h2 hi)

theorem InviteRun.invitee (hc : pr.Correct) {st j : GroupState} (hi : GroupInv pr st)
    {kps : List KeyPackage} {r : WelcomeRand} {w : Welcome} {raw : Bytes} {hp : Heap} {t : RTree} {sd : SuiteDesc}
    {th psk sig cth js es tag rawTree isig : Bytes} {ctx : GroupContext}
    (run : InviteRun pr st kps r w raw hp t sd th psk sig cth js es tag rawTree isig ctx) {kp : KeyPairPackage} {now : GoTime}
    (ho : Spec.KeyOpens pr sd kp.pub.initKey kp.priv.initKey) (h : groupFromWelcome pr w kp now = .ok j) :
    AfterInvite pr j (derefTree hp t) ctx es tag ∨ TreeCollision pr sd (derefTree hp t) j.vtree ∨ RefCollision pr kps kp.pub := by
  have hinv := join_inv hc h
  unfold groupFromWelcome at h
  simp only [Res.bind_ok_iff] at h
  obtain ⟨ref, h1, gs, h2, _, _, _, _, h⟩ := h
  have h2' := h2
  unfold Welcome.decryptGroupSecrets at h2'
  simp only [Res.bind_ok_iff, orErr_ok_iff] at h2'
  obtain ⟨s, hs, _⟩ := h2'
  rcases run.secrets_open ho h1 hs with e | e
  · rw [h2] at e
    cases e
    obtain ⟨psk2, info, rw2, v, leaf, li, pt, g1, g2, g3, g4, g5, g6, g7, g8, g9, g10, g11, g12, g13, g14, g15, g16, g17, g18, _, _, _, g19⟩ :=
      groupFromSecrets_ok h
    rw [run.cipherSuite, run.noPsk] at g1
    cases g1
    rw [run.info_open hc g2] at g2
    cases g2
    have g3' : some rawTree = some rw2 := g3
    cases g3'
    have hv : j.vtree = v := by
      unfold GroupState.vtree
      rw [g12, g13]
      exact (deref_alloc v []).2
    have hcs : ctx.cipherSuite = st.group.groupContext.cipherSuite := by rw [run.context]
    have key : AfterInvite pr j j.vtree ctx es tag := by
      have g16 : ctx.extractEpochSecret pr js (some psk) = .ok j.group.epochSecret := g16
      rw [run.epoch] at g16
      cases g16
      exact ⟨rfl, g14, rfl, g17, g18, g19⟩
    unfold verifyIntegrity at g9
    simp only [Res.bind_ok_iff, Res.guardErr_ok_iff, beq_iff_eq] at g9
    obtain ⟨th2, q1, _, q2, _⟩ := g9
    have q1 : computeRootTreeHash pr ctx.cipherSuite v = .ok th2 := q1
    have q2 : th2 = ctx.treeHash := q2
    rw [hcs] at q1
    have q3 : th2 = th := by rw [q2, run.context]
    subst q3
    obtain ⟨dd, hdd, s1, hs1⟩ := hinv.tree.holds
    have hto := (treeApply_effect (.inr hi.tree) run.apply).1
    rcases hto with he | hvt
    · exfalso
      have hh := run.hash
      rw [he] at hh
      unfold computeRootTreeHash computeTreeHash derefTree at hh
      rw [computeTreeHashLoop, List.map_nil, Res.idx, List.getElem?_nil] at hh
      cases hh
    · obtain ⟨d2, hd2, s2, hs2⟩ := hvt.holds
      have r1 := run.hash
      rw [hs2.flat] at r1
      rw [← hv] at q1
      unfold GroupState.vtree at q1
      rw [hs1.flat] at q1
      rcases C28_binding hc run.suite hd2 hdd s2 s1 r1 q1 with e | e
      · left
        have : j.vtree = derefTree hp t := by
          unfold GroupState.vtree
          rw [hs1.flat, hs2.flat, e]
        rw [this] at key
        exact key
      · exact .inr (.inl ⟨_, _, s2, s1, hs2.flat, hs1.flat, e⟩)
  · exact .inr (.inr e)

/-! ### C50 -/

/-- Whoever ends up in the group after the invitation of `kps` by `st`, that resulted in `w` and `raw` and left the inviter with `st1`. -/
inductive Party (pr : Prims) (st : GroupState) (kps : List KeyPackage) (w : Welcome) (raw : Bytes) (st1 : GroupState) :
    Option KeyPackage → GroupState → Prop
  /-- Another member, who agreed with the inviter and accepts the message. -/
  | member {st2 a : GroupState} {now : GoTime} {d : Option Bytes} (hr : Reachable pr st2) (hv : SameView st st2)
      (h : unmarshalAndProcessMessage pr st2 raw now = (.ok d, a)) : Party pr st kps w raw st1 none a
  /-- The inviter, who accepts the message, if none of the parent nodes was set. -/
  | inviter {a : GroupState} {now : GoTime} {d : Option Bytes} (hn : NoParents st.group.tree)
      (h : unmarshalAndProcessMessage pr st1 raw now = (.ok d, a)) : Party pr st kps w raw st1 none a
  /-- Whoever joins from the welcome, with a key package whose private key is the right one. -/
  | invitee {kp : KeyPairPackage} {a : GroupState} {now : GoTime} {sd : SuiteDesc}
      (hs : suite st.group.groupContext.cipherSuite = .ok sd) (ho : Spec.KeyOpens pr sd kp.pub.initKey kp.priv.initKey)
      (h : groupFromWelcome pr w kp now = .ok a) : Party pr st kps w raw st1 (some kp.pub) a

/-- Why an invitee may still end up elsewhere: the tree it reads has the hash of the tree `v` that the proposals result in, or its key
package has the reference of another one that is invited; both are collisions of the hash function. -/
def Misled (pr : Prims) (sd : SuiteDesc) (kps : List KeyPackage) (v : VTree) (who : Option KeyPackage) (a : GroupState) : Prop :=
  ∃ k, who = some k ∧ (TreeCollision pr sd v a.vtree ∨ RefCollision pr kps k)

theorem Party.after (hc : pr.Correct) {st st1 : GroupState} (hr : Reachable pr st) {kps : List KeyPackage} (hw : ∀ k ∈ kps, k.version = 1)
    {r : WelcomeRand} {w : Welcome} {raw : Bytes} (h : createWelcome pr st kps r = (.ok (w, raw), st1)) {hp : Heap} {t : RTree} {sd : SuiteDesc}
    {th psk sig cth js es tag rawTree isig : Bytes} {ctx : GroupContext}
    (run : InviteRun pr st kps r w raw hp t sd th psk sig cth js es tag rawTree isig ctx) {who : Option KeyPackage} {a : GroupState}
    (ha : Party pr st kps w raw st1 who a) :
    AfterInvite pr a (derefTree hp t) ctx es tag ∨ Misled pr sd kps (derefTree hp t) who a := by
  cases ha with
  | member hr2 hv hm => exact .inl (run.member hc (hr.inv hc) (hr2.inv hc) hv hw hm)
  | inviter hn hm =>
    have := (C51_partial pr st kps r).2.2 hn
    rw [h] at this
    have : st1 = st := this
    subst this
    exact .inl (run.member hc (hr.inv hc) (hr.inv hc) ⟨rfl, rfl, rfl⟩ hw hm)
  | invitee hs ho hj =>
    rw [run.suite] at hs
    cases hs
    rcases run.invitee hc (hr.inv hc) ho hj with e | e
    · exact .inl e
    · exact .inr ⟨_, rfl, e⟩

/-- C50, except for an inviter with parent nodes in its tree: all that accept the message of an invitation, having agreed with the inviter
before, and all that join from the welcome end up in the same epoch with the same tree, unless the hash function collides on what they read.
Missing: the inviter when a parent node above a new leaf is set, for whom it is false (C50_refuted). -/
theorem C50_partial (pr : Prims) (hc : pr.Correct) (st st1 : GroupState) (hr : Reachable pr st) (kps : List KeyPackage)
    (hw : ∀ k ∈ kps, k.version = 1) (r : WelcomeRand) (w : Welcome) (raw : Bytes) (h : createWelcome pr st kps r = (.ok (w, raw), st1)) :
    ∃ sd hp t, suite st.group.groupContext.cipherSuite = .ok sd ∧
      treeApply st.heap st.group.tree (kps.map .add) [st.group.myLeafIndex] = .ok (hp, t) ∧
      ∀ (k k' : Option KeyPackage) (a b : GroupState), Party pr st kps w raw st1 k a → Party pr st kps w raw st1 k' b →
        SameView a b ∨ Misled pr sd kps (derefTree hp t) k a ∨ Misled pr sd kps (derefTree hp t) k' b := by
  obtain ⟨hp, t, sd, th, psk, sig, cth, js, es, tag, rawTree, isig, ctx, run, _⟩ := createWelcome_run h
  refine ⟨sd, hp, t, run.suite, run.apply, fun k k' a b ha hb => ?_⟩
  rcases ha.after hc hr hw h run with ha | ha
  · rcases hb.after hc hr hw h run with hb | hb
    · exact .inl (ha.same hb)
    · exact .inr (.inr hb)
  · exact .inr (.inl ha)

/-- C50: those that were members before agree whatever the hash function does. -/
theorem C50_members (pr : Prims) (hc : pr.Correct) (st st1 : GroupState) (hr : Reachable pr st) (kps : List KeyPackage)
    (hw : ∀ k ∈ kps, k.version = 1) (r : WelcomeRand) (w : Welcome) (raw : Bytes) (h : createWelcome pr st kps r = (.ok (w, raw), st1))
    (a b : GroupState) (ha : Party pr st kps w raw st1 none a) (hb : Party pr st kps w raw st1 none b) : SameView a b := by
  obtain ⟨sd, hp, t, _, _, key⟩ := C50_partial pr hc st st1 hr kps hw r w raw h
  rcases key none none a b ha hb with e | ⟨_, e, _⟩ | ⟨_, e, _⟩
  · exact e
  · cases e
  · cases e

/-- Key packages made by the library come with the private init key. -/
theorem generated_init_opens (hc : pr.Correct) {cs : UInt16} {cred : Credential} {rand : KeyPackageRand} {kp : KeyPairPackage}
    (h : generateKeyPairPackage pr cs cred rand = .ok kp) {sd : SuiteDesc} (hsd : suite cs = .ok sd) :
    Spec.KeyOpens pr sd kp.pub.initKey kp.priv.initKey := by
  unfold generateKeyPairPackage generateEncryptionKeyPair at h
  rw [hsd] at h
  simp only [Res.bind_ok_iff, Res.ok_bind, Res.pure_eq] at h
  obtain ⟨leaf, h1, kpk, h2, h3⟩ := h
  cases h3
  have e1 : kpk.initKey = (pr.kemKeyPair sd.kem rand.init).1 := by
    unfold KeyPackage.sign at h2
    simp only [Res.bind_ok_iff] at h2
    obtain ⟨_, _, _, _, h2⟩ := h2
    cases h2
    rfl
  simp only [e1]
  exact fun info p r ko ct hs => hc.hpke_open_gen sd rand.init info p r ko ct hs

/-- The hypotheses of C50_partial are met: the first of three members invites two more; the inviter, another member and the two invitees
end up in an epoch that is not the one before, and agree. -/
example : toyThree.holds (fun (a, _, c) =>
    let names : List UInt8 := [3, 4]
    let kps := names.map fun n => (toyMember n).pub
    match createWelcome toyPrims a kps default with
    | (.ok (w, raw), a1) =>
      (a1.after raw).holds fun a' => (c.after raw).holds fun c' => (groupFromWelcome toyPrims w (toyMember 3) toyLater).holds fun j =>
        (groupFromWelcome toyPrims w (toyMember 4) toyLater).holds fun j' =>
          decide (SameView a c) && decide (kps.all fun k => k.version == 1) && decide (SameView a' c') && decide (SameView a' j) &&
            decide (SameView a' j') && decide (a'.group.epochSecret ≠ a.group.epochSecret) && decide (a.group.tree.all fun x => !(match x with | some (.parent _) => true | _ => false))
    | _ => false) = true := by decide +kernel

/-- C50 is false for the inviter: with a parent node above the new leaf set, CreateWelcome leaves the new leaf among its unmerged leaves, and
processing the message appends it once more: the inviter ends up with another tree and another epoch secret than the other member and the
invitee, who agree. Nobody notices. -/
theorem C50_refuted : ∃ (st st2 st1 a b j : GroupState) (w : Welcome) (raw : Bytes), Reachable toyPrims st ∧ Reachable toyPrims st2 ∧
    SameView st st2 ∧ createWelcome toyPrims st [(toyMember 3).pub] default = (.ok (w, raw), st1) ∧
    unmarshalAndProcessMessage toyPrims st1 raw toyLater = (.ok none, a) ∧
    unmarshalAndProcessMessage toyPrims st2 raw toyLater = (.ok none, b) ∧
    groupFromWelcome toyPrims w (toyMember 3) toyLater = .ok j ∧ SameView b j ∧
    a.vtree ≠ b.vtree ∧ a.group.groupContext ≠ b.group.groupContext ∧ a.group.epochSecret ≠ b.group.epochSecret := by
  have key : toyThree.holds (fun (a, _, c) =>
      let m := toyCommit a 1 1 [] (List.replicate 32 9) []
      (a.after m).holds fun a => (c.after m).holds fun c =>
        let r := createWelcome toyPrims a [(toyMember 3).pub] default
        r.1.holds fun (w, raw) =>
          (r.2.after raw).holds fun a' => (c.after raw).holds fun c' => (groupFromWelcome toyPrims w (toyMember 3) toyLater).holds fun j =>
            decide (SameView a c ∧ SameView c' j ∧ a'.vtree ≠ c'.vtree ∧ a'.group.groupContext ≠ c'.group.groupContext ∧
              a'.group.epochSecret ≠ c'.group.epochSecret ∧ (unmarshalAndProcessMessage toyPrims r.2 raw toyLater).1 = .ok none ∧
              (unmarshalAndProcessMessage toyPrims c raw toyLater).1 = .ok none)) = true := by decide +kernel
  obtain ⟨⟨a, b, c⟩, ht, key⟩ := Res.holds_ok key
  obtain ⟨hr1, hr2, hr3⟩ := toyThree_reachable ht
  simp only at key
  clear ht
  generalize toyCommit a 1 1 [] (List.replicate 32 9) [] = m at key
  obtain ⟨a0, ha0, key⟩ := Res.holds_ok key
  obtain ⟨c0, hc0, key⟩ := Res.holds_ok key
  obtain ⟨⟨w, raw⟩, hw, key⟩ := Res.holds_ok key
  simp only at key
  obtain ⟨a1, ha1, key⟩ := Res.holds_ok key
  obtain ⟨c1, hc1, key⟩ := Res.holds_ok key
  obtain ⟨j, hj, key⟩ := Res.holds_ok key
  rw [decide_eq_true_eq] at key
  obtain ⟨k1, k2, k3, k4, k5, k6, k7⟩ := key
  refine ⟨a0, c0, _, a1, c1, j, w, raw, hr1.after ha0, hr3.after hc0, k1, Prod.ext hw rfl, ?_, ?_, hj, k2, k3, k4, k5⟩
  · unfold GroupState.after at ha1
    split at ha1 <;> try cases ha1
    next r _ hm =>
    rw [hm] at k6
    cases k6
    exact hm
  · unfold GroupState.after at hc1
    split at hc1 <;> try cases hc1
    next r _ hm =>
    rw [hm] at k7
    cases k7
    exact hm

end Mls
