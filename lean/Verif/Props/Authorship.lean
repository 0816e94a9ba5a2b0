import Verif.Spec.Authorship
import Verif.Spec.Hostile
import Verif.Props.Library
import Verif.Props.Signing
import Verif.Props.Keys
/-
C83: what is accepted from a member was sent by that member, who saw the group as the recipient does.
-/
namespace Mls

open Spec (Ratchet nodeAt)

variable {pr : Prims}

theorem signWithLabel_refusing (s : SigScheme) (key m : Bytes) (cs : UInt16) (sk l c rand : Bytes) :
    signWithLabel (pr.refusing s key m) cs sk l c rand = signWithLabel pr cs sk l c rand ∨
      ∃ d, suite cs = .ok d ∧ d.sig = s ∧ sk = key ∧ encSignContent l c = .ok m := by
  unfold signWithLabel
  rcases h1 : encSignContent l c with x | _ | _ | _
  · rcases h2 : suite cs with d | _ | _ | _
    · by_cases h : d.sig = s ∧ sk = key ∧ x = m
      · obtain ⟨h3, h4, rfl⟩ := h
        exact .inr ⟨d, rfl, h3, h4, rfl⟩
      · left
        show orErr ((pr.refusing s key m).sign d.sig sk x rand) = orErr (pr.sign d.sig sk x rand)
        unfold Prims.refusing
        simp only [if_neg h]
    all_goals exact .inl rfl
  all_goals exact .inl rfl

theorem signAuthenticated_refusing (s : SigScheme) (key m : Bytes) (cs : UInt16) (sk : Bytes) (wf : WireFormat) (f : FramedContent)
    (ctx : GroupContext) (rand : Bytes) :
    signAuthenticatedContent (pr.refusing s key m) cs sk wf f ctx rand = signAuthenticatedContent pr cs sk wf f ctx rand ∨
      ∃ d tbs, suite cs = .ok d ∧ d.sig = s ∧ sk = key ∧ encFramedContentTBS wf f ctx = .ok tbs ∧
        encSignContent lblFramedContentTBS tbs = .ok m := by
  unfold signAuthenticatedContent
  rcases h1 : encFramedContentTBS wf f ctx with x | _ | _ | _
  · rcases signWithLabel_refusing (pr := pr) s key m cs sk lblFramedContentTBS x rand with h | ⟨d, h2, h3, h4, h5⟩
    · left
      show (signWithLabel _ _ _ _ _ _ >>= _) = _
      rw [h]; rfl
    · exact .inr ⟨d, x, h2, h3, h4, rfl, h5⟩
  all_goals exact .inl rfl

theorem signPrivate_refusing (s : SigScheme) (key m : Bytes) (cs : UInt16) (sk : Bytes) (f : FramedContent)
    (ctx : GroupContext) (rand : Bytes) :
    signPrivateMessageContent (pr.refusing s key m) cs sk f ctx rand = signPrivateMessageContent pr cs sk f ctx rand ∨
      ∃ d tbs, suite cs = .ok d ∧ d.sig = s ∧ sk = key ∧ encFramedContentTBS .privateMessage f ctx = .ok tbs ∧
        encSignContent lblFramedContentTBS tbs = .ok m := by
  unfold signPrivateMessageContent
  rcases signAuthenticated_refusing (pr := pr) s key m cs sk .privateMessage f ctx rand with h | h
  · left; rw [h]
  · exact .inr h

theorem deriveChildren_refusing (s : SigScheme) (key m : Bytes) (cs : UInt16) : ∀ (fuel : Nat) (t : List (Option Bytes)) (x : Nat),
    deriveChildren (pr.refusing s key m) cs fuel t x = deriveChildren pr cs fuel t x := by
  intro fuel
  induction fuel with
  | zero => intros; rfl
  | succ n ih =>
    intro t x
    unfold deriveChildren
    simp only [ih]
    rfl

theorem computeTreeHashLoop_refusing (s : SigScheme) (key m : Bytes) (cs : UInt16) (t : VTree) (ex : List UInt32) : ∀ (fuel x : Nat),
    computeTreeHashLoop (pr.refusing s key m) cs t ex fuel x = computeTreeHashLoop pr cs t ex fuel x := by
  intro fuel
  induction fuel with
  | zero => intros; rfl
  | succ n ih =>
    intro x
    unfold computeTreeHashLoop
    simp only [ih]
    rfl

theorem encryptSecretsLoop_refusing (s : SigScheme) (key m : Bytes) (cs : UInt16) (gs : GroupSecrets) (egi : Bytes) (rand : Nat → Bytes) :
    ∀ (kps : List KeyPackage) (i : Nat),
    encryptSecretsLoop (pr.refusing s key m) cs gs egi rand i kps = encryptSecretsLoop pr cs gs egi rand i kps := by
  intro kps
  induction kps with
  | nil => intros; rfl
  | cons k kps ih =>
    intro i
    unfold encryptSecretsLoop
    simp only [ih]
    rfl

theorem groupEncrypt_refusing (s : SigScheme) (key m : Bytes) (g : Group) (f : FramedContent) (c : PrivateMessageContent) (guard : Bytes4) :
    g.encryptPrivateMessage (pr.refusing s key m) f c guard = g.encryptPrivateMessage pr f c guard := by
  unfold Group.encryptPrivateMessage deriveSecretTree
  simp only [deriveChildren_refusing]
  rfl

theorem rootTreeHash_refusing (s : SigScheme) (key m : Bytes) (cs : UInt16) (t : VTree) :
    computeRootTreeHash (pr.refusing s key m) cs t = computeRootTreeHash pr cs t :=
  computeTreeHashLoop_refusing s key m cs t [] _ _

/-- What CreateApplicationMessage signs. -/
theorem message_signs {s : SigScheme} {key m : Bytes} {st : GroupState} {data rand : Bytes} {guard : Bytes4}
    (h : (Spec.Call.message st data rand guard).Signs pr s key m) :
    ∃ d tbs, suite st.group.groupContext.cipherSuite = .ok d ∧ d.sig = s ∧ st.group.signaturePriv = key ∧
      encFramedContentTBS .privateMessage (st.group.framedContent (.application data)) st.group.groupContext = .ok tbs ∧
      encSignContent lblFramedContentTBS tbs = .ok m := by
  obtain ⟨⟨raw, h1⟩, h2⟩ := h
  rcases signPrivate_refusing (pr := pr) s key m st.group.groupContext.cipherSuite st.group.signaturePriv
    (st.group.framedContent (.application data)) st.group.groupContext rand with h | h
  · refine absurd ⟨raw, ?_⟩ h2
    rw [← h1]
    unfold createApplicationMessage
    dsimp only
    rw [h]
    simp only [groupEncrypt_refusing]
  · exact h

theorem infoSign_refusing (s : SigScheme) (key m : Bytes) (i : GroupInfo) (sk rand : Bytes) :
    i.sign (pr.refusing s key m) sk rand = i.sign pr sk rand ∨
      ∃ d tbs, suite i.groupContext.cipherSuite = .ok d ∧ d.sig = s ∧ sk = key ∧ i.encTBS = .ok tbs ∧
        encSignContent lblGroupInfoTBS tbs = .ok m := by
  unfold GroupInfo.sign
  rcases h1 : i.encTBS with x | _ | _ | _
  · rcases signWithLabel_refusing (pr := pr) s key m i.groupContext.cipherSuite sk lblGroupInfoTBS x rand with h | ⟨d, h2, h3, h4, h5⟩
    · left
      show (signWithLabel _ _ _ _ _ _ >>= _) = _
      rw [h]; rfl
    · exact .inr ⟨d, x, h2, h3, h4, rfl, h5⟩
  all_goals exact .inl rfl

/-- What CreateWelcome signs: the commit, and the group info. -/
theorem invite_signs {s : SigScheme} {key m : Bytes} {st : GroupState} {kps : List KeyPackage} {r : WelcomeRand}
    (h : (Spec.Call.invite st kps r).Signs pr s key m) :
    ∃ w raw hp t sd th psk sig cth js es tag rawTree isig ctx,
      createWelcome pr st kps r = (.ok (w, raw), { st with heap := hp }) ∧
      InviteRun pr st kps r w raw hp t sd th psk sig cth js es tag rawTree isig ctx ∧ sd.sig = s ∧ st.group.signaturePriv = key ∧
      ((∃ tbs, encFramedContentTBS .privateMessage (st.group.framedContent (.commit { proposals := kps.map fun k => .proposal (.add k), path := none }))
          st.group.groupContext = .ok tbs ∧ encSignContent lblFramedContentTBS tbs = .ok m) ∨
        ∃ tbs, (inviteInfo ctx rawTree tag st.group.myLeafIndex []).encTBS = .ok tbs ∧ encSignContent lblGroupInfoTBS tbs = .ok m) := by
  obtain ⟨⟨⟨w, raw⟩, h1⟩, h2⟩ := h
  rcases hw : createWelcome pr st kps r with ⟨o, st1⟩
  rw [hw] at h1
  cases h1
  obtain ⟨hp, t, sd, th, psk, sig, cth, js, es, tag, rawTree, isig, ctx, run, rfl⟩ := createWelcome_run hw
  refine ⟨w, raw, hp, t, sd, th, psk, sig, cth, js, es, tag, rawTree, isig, ctx, rfl, run, ?_⟩
  rcases signPrivate_refusing (pr := pr) s key m st.group.groupContext.cipherSuite st.group.signaturePriv
    (st.group.framedContent (.commit { proposals := kps.map fun k => .proposal (.add k), path := none })) st.group.groupContext r.commitSign
    with h | ⟨d, tbs, e1, e2, e3, e4, e5⟩
  · rcases infoSign_refusing (pr := pr) s key m (inviteInfo ctx rawTree tag st.group.myLeafIndex []) st.group.signaturePriv r.infoSign
      with h' | ⟨d, tbs, e1, e2, e3, e4, e5⟩
    · refine absurd ⟨(w, raw), ?_⟩ h2
      unfold createWelcome at hw ⊢
      split at hw
      · cases hw
      · next hk =>
        rw [if_neg hk, run.apply]
        have g1 := run.signed
        rw [← h] at g1
        have g2 := run.infoSigned
        rw [← h'] at g2
        have hx := run.context
        subst hx
        unfold finishWelcome
        simp only [Res.bind_ok_iff]
        simp only [groupEncrypt_refusing, encryptSecretsLoop_refusing, rootTreeHash_refusing]
        exact ⟨th, run.hash, sd, run.suite, psk, run.noPsk, _, g1, cth, run.transcript, js, run.joiner, es, run.epoch, tag, run.confirmed,
          rawTree, run.tree, _, g2, w.encryptedGroupInfo, run.info, w.secrets, run.secrets, raw, run.message, by rw [← run.cipherSuite]; rfl⟩
    · have hs : suite st.group.groupContext.cipherSuite = .ok d := by
        have hx := run.context
        subst hx
        exact e1
      rw [run.suite] at hs
      cases hs
      exact ⟨e2, e3, .inr ⟨tbs, e4, e5⟩⟩
  · rw [run.suite] at e1
    cases e1
    exact ⟨e2, e3, .inl ⟨tbs, e4, e5⟩⟩

theorem leafSign_refusing (s : SigScheme) (key m : Bytes) (l : LeafNode) (cs : UInt16) (g : Bytes) (i : UInt32) (sk rand : Bytes) :
    l.sign (pr.refusing s key m) cs g i sk rand = l.sign pr cs g i sk rand ∨
      ∃ d tbs, suite cs = .ok d ∧ d.sig = s ∧ sk = key ∧ l.encTBS g i = .ok tbs ∧ encSignContent lblLeafNodeTBS tbs = .ok m := by
  unfold LeafNode.sign
  rcases h1 : l.encTBS g i with x | _ | _ | _
  · rcases signWithLabel_refusing (pr := pr) s key m cs sk lblLeafNodeTBS x rand with h | ⟨d, h2, h3, h4, h5⟩
    · left
      show (signWithLabel _ _ _ _ _ _ >>= _) = _
      rw [h]; rfl
    · exact .inr ⟨d, x, h2, h3, h4, rfl, h5⟩
  all_goals exact .inl rfl

theorem packageSign_refusing (s : SigScheme) (key m : Bytes) (k : KeyPackage) (sk rand : Bytes) :
    k.sign (pr.refusing s key m) sk rand = k.sign pr sk rand ∨
      ∃ d tbs, suite k.cipherSuite = .ok d ∧ d.sig = s ∧ sk = key ∧ k.encTBS = .ok tbs ∧ encSignContent lblKeyPackageTBS tbs = .ok m := by
  unfold KeyPackage.sign
  rcases h1 : k.encTBS with x | _ | _ | _
  · rcases signWithLabel_refusing (pr := pr) s key m k.cipherSuite sk lblKeyPackageTBS x rand with h | ⟨d, h2, h3, h4, h5⟩
    · left
      show (signWithLabel _ _ _ _ _ _ >>= _) = _
      rw [h]; rfl
    · exact .inr ⟨d, x, h2, h3, h4, rfl, h5⟩
  all_goals exact .inl rfl


/-- What GenerateKeyPairPackage signs: the leaf node, and the key package. -/
theorem package_signs {s : SigScheme} {key m : Bytes} {cs : UInt16} {cred : Credential} {r : KeyPackageRand}
    (h : (Spec.Call.package cs cred r).Signs pr s key m) :
    ∃ kp d, generateKeyPairPackage pr cs cred r = .ok kp ∧ suite cs = .ok d ∧ d.sig = s ∧ kp.priv.signatureKey = key ∧
      ((∃ tbs, kp.pub.leafNode.encTBS [] 0 = .ok tbs ∧ encSignContent lblLeafNodeTBS tbs = .ok m) ∨
        ∃ tbs, kp.pub.encTBS = .ok tbs ∧ encSignContent lblKeyPackageTBS tbs = .ok m) := by
  obtain ⟨⟨kp, h1⟩, h2⟩ := h
  have h1' := h1
  unfold generateKeyPairPackage at h1'
  simp only [Res.bind_ok_iff] at h1'
  obtain ⟨i, hi, e, he, d, hd, leaf, hl, k, hk, hkp⟩ := h1'
  cases hkp
  have hl' := hl
  unfold LeafNode.sign at hl'
  simp only [Res.bind_ok_iff] at hl'
  obtain ⟨tl, htl, sl, hsl, hle⟩ := hl'
  cases hle
  have hk' := hk
  unfold KeyPackage.sign at hk'
  simp only [Res.bind_ok_iff] at hk'
  obtain ⟨tk, htk, sk, hsk, hke⟩ := hk'
  cases hke
  refine ⟨_, d, h1, hd, ?_⟩
  rcases leafSign_refusing (pr := pr) s key m (generatedLeaf cs cred e.1 (pr.sigKeyPair d.sig r.sig).1 r.now1 r.now2) cs [] 0
    (pr.sigKeyPair d.sig r.sig).2 r.leafSign with h | ⟨d', tbs, e1, e2, e3, e4, e5⟩
  · rcases packageSign_refusing (pr := pr) s key m { version := 1, cipherSuite := cs, initKey := i.1, leafNode :=
        { generatedLeaf cs cred e.1 (pr.sigKeyPair d.sig r.sig).1 r.now1 r.now2 with signature := sl }, extensions := [], signature := [] }
      (pr.sigKeyPair d.sig r.sig).2 r.pkgSign with h' | ⟨d', tbs, e1, e2, e3, e4, e5⟩
    · refine absurd (show ∃ kp, generateKeyPairPackage (pr.refusing s key m) cs cred r = .ok kp from ?_) h2
      unfold generateKeyPairPackage
      simp only [Res.bind_ok_iff]
      exact ⟨_, i, hi, e, he, d, hd, _, h.trans hl, _, h'.trans hk, rfl⟩
    · dsimp only at e1
      rw [hd] at e1
      cases e1
      exact ⟨e2, e3, .inr ⟨tbs, e4, e5⟩⟩
  · rw [hd] at e1
    cases e1
    exact ⟨e2, e3, .inl ⟨tbs, e4, e5⟩⟩

/-- The labels of the four kinds of signatures differ. -/
theorem label_of {l l' c c' m : Bytes} (h : encSignContent l c = .ok m) (h' : encSignContent l' c' = .ok m) : l = l' ∧ c = c' :=
  C13_sign _ _ _ _ _ h h'

/-- Content authentic for a group, from a member whose key is used with the library only, is what that member sent, in the same view of the
group context. -/
theorem authentic_author {st : GroupState} {a : AuthenticatedContent} (h : Spec.Authentic pr st a) :
    ∃ li leaf sd, a.content.sender = .member li ∧ st.vtree[2 * li.toNat % 2 ^ 32]? = some (some (.leaf leaf)) ∧
      suite st.group.groupContext.cipherSuite = .ok sd ∧
      ∀ calls key, Spec.Unforgeable pr calls sd.sig key leaf.signatureKey → a.wireFormat = .privateMessage ∧
        ∃ sa, sa.group.groupContext = st.group.groupContext ∧ sa.group.myLeafIndex = li ∧ sa.group.signaturePriv = key ∧
          ((∃ data rand guard, calls (.message sa data rand guard) ∧ a.content = sa.group.framedContent (.application data)) ∨
            ∃ kps r w raw sa1, calls (.invite sa kps r) ∧ createWelcome pr sa kps r = (.ok (w, raw), sa1) ∧
              a.content = sa.group.framedContent (.commit { proposals := kps.map fun k => .proposal (.add k), path := none })) := by
  obtain ⟨li, leaf, tbs, h1, h2, h3, d, m, h4, h5, h6⟩ := h.signed
  rw [contentTBS_some] at h3
  rw [← suite_iff_spec] at h4
  refine ⟨li, leaf, d, h1, h2, h4, fun calls key hu => ?_⟩
  have h7 : encSignContent lblFramedContentTBS tbs = .ok m := by
    rw [encSignContent_eq lblFramedContentTBS_name (by decide), h5]; rfl
  obtain ⟨c, hc, hs⟩ := hu m _ h6
  have key : ∀ (sa : GroupState) (x : Content) tbs', encFramedContentTBS .privateMessage (sa.group.framedContent x) sa.group.groupContext = .ok tbs' →
      encSignContent lblFramedContentTBS tbs' = .ok m → a.wireFormat = .privateMessage ∧ sa.group.groupContext = st.group.groupContext ∧
        sa.group.myLeafIndex = li ∧ a.content = sa.group.framedContent x := by
    intro sa x tbs' g1 g2
    obtain ⟨_, rfl⟩ := label_of h7 g2
    obtain ⟨e1, e2, e3, e4, e5, e6, e7⟩ := C12_tbs _ _ _ _ _ _ _ h3 g1
    have e4' := e4
    rw [h1] at e4'
    obtain rfl := Sender.member.inj e4'
    refine ⟨e1, (e7 ⟨_, h1⟩).symm, rfl, ?_⟩
    cases hac : a.content
    rw [hac] at e2 e3 e4 e5 e6
    dsimp only at e2 e3 e4 e5 e6
    subst e2 e3 e4 e5 e6
    rfl
  cases c with
  | package cs cred r =>
    obtain ⟨kp, d', _, _, _, _, ⟨t', _, g⟩ | ⟨t', _, g⟩⟩ := package_signs hs
    · exact absurd (label_of h7 g).1 (by decide)
    · exact absurd (label_of h7 g).1 (by decide)
  | message sa data rand guard =>
    obtain ⟨d', tbs', _, _, g3, g4, g5⟩ := message_signs hs
    obtain ⟨k1, k2, k3, k4⟩ := key sa _ _ g4 g5
    exact ⟨k1, sa, k2, k3, g3, .inl ⟨data, rand, guard, hc, k4⟩⟩
  | invite sa kps r =>
    obtain ⟨w, raw, hp, t, sd, th, psk, sig, cth, js, es, tag, rawTree, isig, ctx, g0, run, _, g3, ⟨tbs', g4, g5⟩ | ⟨tbs', g4, g5⟩⟩ := invite_signs hs
    · obtain ⟨k1, k2, k3, k4⟩ := key sa _ _ g4 g5
      exact ⟨k1, sa, k2, k3, g3, .inr ⟨kps, r, w, raw, _, hc, g0, k4⟩⟩
    · exact absurd (label_of h7 g5).1 (by decide)

/-- The members after an accepted commit such as CreateWelcome makes. -/
theorem commit_adds_members (hc : pr.Correct) {st st' : GroupState} (hr : Reachable pr st) {raw : Bytes} {now : GoTime} {d : Option Bytes}
    {a : AuthenticatedContent} {e : Bool} {kps : List KeyPackage} (hca : Carries pr st raw a e)
    (hk' : a.content.content = .commit { proposals := kps.map fun k => .proposal (.add k), path := none })
    (h : unmarshalAndProcessMessage pr st raw now = (.ok d, st')) :
    (Spec.members st'.vtree).Perm (Spec.members st.vtree ++ kps.map fun k => k.leafNode) := by
  obtain ⟨sd', l, d0, dd, s0, s, s', q1, q2, ht⟩ := C54_partial hc hr hca hk' h
  dsimp only at q2 ht
  rw [resolve_adds] at q2
  cases q2
  obtain ⟨e1, e2⟩ := only_adds (l := kps.map fun k => (Proposal.add k, a.content.sender.leafIndex)) (by
    intro p hp
    obtain ⟨k, _, rfl⟩ := List.mem_map.1 hp
    rfl)
  have hap := ht.applied
  unfold Spec.applyProposals Ratchet.applyAll at hap
  rw [e1, e2] at hap
  simp only [List.foldlM_nil, Option.pure_def, Option.bind_some, Option.map_some, Option.some.injEq] at hap
  have hme := ht.merged
  dsimp only at hme
  subst hme
  rw [ht.after, ht.before, members_flat, members_flat]
  have hm := members_adds _ hap
  rw [List.map_map] at hm
  have ha : Ratchet.addsOf (kps.map ((fun p : Proposal × UInt32 => p.1.low) ∘ fun k => (Proposal.add k, a.content.sender.leafIndex))) =
      kps.map fun k => k.leafNode := by
    unfold Ratchet.addsOf
    rw [List.filterMap_map]
    induction kps with
    | nil => rfl
    | cons k kps ih => simp [Function.comp_def, Proposal.low]
  rw [ha] at hm
  exact hm

/-- **C83.** Whatever is accepted comes from a member (the one at the leaf `li`, with indices modulo 2^31). If their key is used with this library only
and their signatures cannot be forged, then that member made a call, in the group with the very same context (same id, epoch, tree hash, transcript), whose
effect is what the recipient gets: CreateApplicationMessage with the data that the recipient reads, or CreateWelcome for the
key packages whose leaves the recipient gets as new members. -/
theorem C83_message (hc : pr.Correct) {st st' : GroupState} (hr : Reachable pr st) {raw : Bytes} {now : GoTime} {d : Option Bytes}
    (h : unmarshalAndProcessMessage pr st raw now = (.ok d, st')) :
    ∃ (li : UInt32) (leaf : LeafNode) (sd : SuiteDesc), st.vtree[2 * li.toNat % 2 ^ 32]? = some (some (.leaf leaf)) ∧
      suite st.group.groupContext.cipherSuite = .ok sd ∧
      ∀ calls key, Spec.Unforgeable pr calls sd.sig key leaf.signatureKey →
        ∃ sa, sa.group.groupContext = st.group.groupContext ∧ sa.group.myLeafIndex = li ∧ sa.group.signaturePriv = key ∧
          ((∃ data rand guard, calls (.message sa data rand guard) ∧ d = some data ∧ st' = st) ∨
            ∃ kps r, calls (.invite sa kps r) ∧ d = none ∧
              st'.group.groupContext.epoch = st.group.groupContext.epoch + 1 ∧
              (Spec.members st'.vtree).Perm (Spec.members st.vtree ++ kps.map fun k => k.leafNode)) := by
  obtain ⟨a, e, hca, hcase⟩ := accepted_cases h
  obtain ⟨li, leaf, sd, h1, h2, h3, h4⟩ := authentic_author (carries_authentic hca)
  refine ⟨li, leaf, sd, h2, h3, fun calls key hu => ?_⟩
  obtain ⟨_, sa, g1, g2, g3, g4⟩ := h4 calls key hu
  refine ⟨sa, g1, g2, g3, ?_⟩
  rcases g4 with ⟨data, rand, guard, k1, k2⟩ | ⟨kps, r, w, raw0, sa1, k1, k2, k3⟩
  · rcases hcase with ⟨p, hk, _, _⟩ | ⟨c, hk, _, _⟩ | ⟨data', hk, rfl, hs, _⟩
    · rw [k2] at hk; cases hk
    · rw [k2] at hk; cases hk
    · rw [k2] at hk
      cases hk
      exact .inl ⟨data, rand, guard, k1, rfl, hs⟩
  · rcases hcase with ⟨p, hk, _, _⟩ | ⟨c, hk, rfl, _⟩ | ⟨data', hk, _, _, _⟩
    · rw [k3] at hk; cases hk
    · have hk' : a.content.content = .commit { proposals := kps.map fun k => .proposal (.add k), path := none } := by rw [k3]; rfl
      refine .inr ⟨kps, r, k1, rfl, ?_, ?_⟩
      · have := (C44_message pr st raw now).2.1.1 ⟨a, e, _, hca, hk', by rw [h]⟩
        rw [h] at this
        exact this
      · exact commit_adds_members hc hr hca hk' h
    · rw [k3] at hk; cases hk

/-- A key package that verifies, with the signature key of someone who uses that key with this library only, is one that they generated (but for the
signature value): nobody else can bind their key to another credential or to other encryption keys. -/
theorem C83_package {ctx : GroupContext} {k : KeyPackage} {d : SuiteDesc} (hd : suite k.cipherSuite = .ok d) (h : k.verify pr ctx = .ok ())
    {calls : Spec.Call → Prop} {key : Bytes} (hu : Spec.Unforgeable pr calls d.sig key k.leafNode.signatureKey) :
    ∃ cs cred r kp, calls (.package cs cred r) ∧ generateKeyPairPackage pr cs cred r = .ok kp ∧ kp.priv.signatureKey = key ∧
      { k with signature := [] } = { kp.pub with signature := [] } := by
  obtain ⟨_, _, _, ⟨tbs, h1, d', m, h2, h3, h4⟩, _⟩ := (C59_verify pr k ctx).1 h
  rw [packageTBS_some] at h1
  rw [← suite_iff_spec, hd] at h2
  cases h2
  have h5 : encSignContent lblKeyPackageTBS tbs = .ok m := by
    rw [encSignContent_eq lblKeyPackageTBS_name (by decide), h3]; rfl
  obtain ⟨c, hc, hs⟩ := hu m _ h4
  cases c with
  | package cs cred r =>
    obtain ⟨kp, d', g1, g2, g3, g4, ⟨t', _, g⟩ | ⟨t', e, g⟩⟩ := package_signs hs
    · exact absurd (label_of h5 g).1 (by decide)
    · obtain ⟨_, rfl⟩ := label_of h5 g
      exact ⟨cs, cred, r, kp, hc, g1, g4, C14_keyPackage _ _ _ h1 e⟩
  | message sa data rand guard =>
    obtain ⟨d', tbs', _, _, g3, g4, g5⟩ := message_signs hs
    exact absurd (label_of h5 g5).1 (by decide)
  | invite sa kps r =>
    obtain ⟨w, raw, hp, t, sd, th, psk, sig, cth, js, es, tag, rawTree, isig, ctx, g0, run, _, g3, ⟨tbs', g4, g5⟩ | ⟨tbs', g4, g5⟩⟩ := invite_signs hs
    · exact absurd (label_of h5 g5).1 (by decide)
    · exact absurd (label_of h5 g5).1 (by decide)

/-- Whoever is added by an accepted commit, with the signature key of someone who uses that key with this library only, is added with a key package that
they generated. -/
theorem C83_added {st st' : GroupState} {raw : Bytes} {now : GoTime} {d : Option Bytes} {a : AuthenticatedContent} {e : Bool} {c : Commit}
    (hca : Carries pr st raw a e) (hk : a.content.content = .commit c) (h : unmarshalAndProcessMessage pr st raw now = (.ok d, st'))
    {l : List (Proposal × UInt32)} (hl : Spec.resolve a.content.sender.leafIndex st.group.pendingProposals c.proposals = some l)
    {k : KeyPackage} {i : UInt32} (hm : (Proposal.add k, i) ∈ l) {sd : SuiteDesc} (hd : suite st.group.groupContext.cipherSuite = .ok sd)
    {calls : Spec.Call → Prop} {key : Bytes} (hu : Spec.Unforgeable pr calls sd.sig key k.leafNode.signatureKey) :
    ∃ cs cred r kp, calls (.package cs cred r) ∧ generateKeyPairPackage pr cs cred r = .ok kp ∧ kp.priv.signatureKey = key ∧
      { k with signature := [] } = { kp.pub with signature := [] } := by
  obtain ⟨l', hh, t, h1, h2, _, _⟩ := accepted_commit hca hk h
  rw [hl] at h1
  cases h1
  unfold checkProposals at h2
  simp only [Res.bind_ok_iff] at h2
  obtain ⟨⟨ps, ss⟩, _, _, _, _, hv, _, _, h2⟩ := h2
  dsimp only at hv h2
  cases h2
  have hver := verifyAdds_valid hv k (List.mem_map.2 ⟨_, hm, rfl⟩)
  refine C83_package ?_ hver hu
  rw [((C59_verify pr k _).1 hver).2.1]
  exact hd

/-- Every member of a group just joined, with the signature key of someone who uses that key with this library only, has the leaf (but for the signature
value) of a key package that they generated. -/
theorem C83_member (hc : pr.Correct) {w : Welcome} {kp : KeyPairPackage} {now : GoTime} {j : GroupState}
    (h : groupFromWelcome pr w kp now = .ok j) {i : Nat} {l : LeafNode} (hl : j.vtree[2 * i]? = some (some (.leaf l))) {sd : SuiteDesc}
    (hd : suite j.group.groupContext.cipherSuite = .ok sd) {calls : Spec.Call → Prop} {key : Bytes}
    (hu : Spec.Unforgeable pr calls sd.sig key l.signatureKey) :
    ∃ cs cred r k, calls (.package cs cred r) ∧ generateKeyPairPackage pr cs cred r = .ok k ∧ k.priv.signatureKey = key ∧
      { l with signature := [] } = { k.pub.leafNode with signature := [] } := by
  obtain ⟨sd', d, _, _, s, hv⟩ := C29_join hc h
  have hlt := (List.getElem?_eq_some_iff.1 hl).1
  rw [hv.array, flat_length, Nat.pow_succ] at hlt
  obtain ⟨tbs, h1, d', m, h2, h3, h4⟩ := (hv.leaves i l (by omega) (nodeAt_some.2 hl)).signature
  rw [leafTBS_some] at h1
  rw [← suite_iff_spec, hd] at h2
  cases h2
  have h5 : encSignContent lblLeafNodeTBS tbs = .ok m := by
    rw [encSignContent_eq lblLeafNodeTBS_name (by decide), h3]; rfl
  obtain ⟨c, hc, hs⟩ := hu m _ h4
  cases c with
  | package cs cred r =>
    obtain ⟨kp, d', g1, g2, g3, g4, ⟨t', e, g⟩ | ⟨t', e, g⟩⟩ := package_signs hs
    · obtain ⟨_, rfl⟩ := label_of h5 g
      exact ⟨cs, cred, r, kp, hc, g1, g4, (C14_leaf _ _ _ _ _ _ _ h1 e).1⟩
    · exact absurd (label_of h5 g).1 (by decide)
  | message sa data rand guard =>
    obtain ⟨d', tbs', _, _, g3, g4, g5⟩ := message_signs hs
    exact absurd (label_of h5 g5).1 (by decide)
  | invite sa kps r =>
    obtain ⟨w, raw, hp, t, sd, th, psk, sig, cth, js, es, tag, rawTree, isig, ctx, g0, run, _, g3, ⟨tbs', g4, g5⟩ | ⟨tbs', g4, g5⟩⟩ := invite_signs hs
    · exact absurd (label_of h5 g5).1 (by decide)
    · exact absurd (label_of h5 g5).1 (by decide)

/-- Trees with the same nodes have the same members. -/
theorem members_nodes : ∀ {v v' : VTree}, (∀ x, nodeAt v x = nodeAt v' x) → Spec.members v = Spec.members v'
  | [], [], _ => rfl
  | [], b :: v', h => by
    have h0 : b = none := by
      have := h 0
      cases b <;> simp_all [nodeAt]
    subst h0
    exact members_nodes (v := []) (v' := v') fun x => by simpa [nodeAt] using h (x + 1)
  | a :: v, [], h => by
    have h0 : a = none := by
      have := h 0
      cases a <;> simp_all [nodeAt]
    subst h0
    exact members_nodes (v := v) (v' := []) fun x => by simpa [nodeAt] using h (x + 1)
  | a :: v, b :: v', h => by
    have h0 : a = b := by
      have := h 0
      simpa [nodeAt] using this
    subst h0
    have ih := members_nodes (v := v) (v' := v') fun x => by simpa [nodeAt] using h (x + 1)
    unfold Spec.members at ih ⊢
    rw [List.filterMap_cons, List.filterMap_cons, ih]

/-- **C83**, for joining: the welcome comes from a member of the group joined. If their key is used with this library only and their signatures cannot
be forged, then that member called CreateWelcome, in the same group one epoch earlier; the group joined has the context and interim transcript hash that every member
gets by accepting that commit, its nodes are those that the inviter sees after adding the invited, and its members are the members before and
those invited in that call. The arrays are also of the same size, if the inviter's is no larger than needed; and in any case unless the tree read
has the hash of another. -/
theorem C83_welcome (hc : pr.Correct) {w : Welcome} {kp : KeyPairPackage} {now : GoTime} {j : GroupState}
    (h : groupFromWelcome pr w kp now = .ok j) :
    ∃ (li : UInt32) (leaf : LeafNode) (sd : SuiteDesc), j.vtree[2 * li.toNat % 2 ^ 32]? = some (some (.leaf leaf)) ∧
      suite j.group.groupContext.cipherSuite = .ok sd ∧ Spec.SignedBy pr w kp leaf.signatureKey ∧
      ∀ calls key, Spec.Unforgeable pr calls sd.sig key leaf.signatureKey →
        ∃ sa kps r w0 raw0 sa1, calls (.invite sa kps r) ∧ createWelcome pr sa kps r = (.ok (w0, raw0), sa1) ∧
          sa.group.myLeafIndex = li ∧ sa.group.signaturePriv = key ∧
          j.group.groupContext = { sa.group.groupContext with
            epoch := sa.group.groupContext.epoch + 1
            treeHash := j.group.groupContext.treeHash
            confirmedTranscriptHash := j.group.groupContext.confirmedTranscriptHash } ∧
          (Reachable pr sa → ∃ hp t, treeApply sa.heap sa.group.tree (kps.map .add) [sa.group.myLeafIndex] = .ok (hp, t) ∧
            (∀ x, nodeAt j.vtree x = nodeAt (derefTree hp t) x) ∧
            (Spec.members j.vtree).Perm (Spec.members sa.vtree ++ kps.map fun k => k.leafNode) ∧
            (Spec.SnugTree sa.vtree → Spec.SnugTree j.vtree ∧ j.vtree = derefTree hp t) ∧
            (TreeCollision pr sd (derefTree hp t) j.vtree ∨ j.vtree = derefTree hp t) ∧
            ((∀ k ∈ kps, k.version = 1) → ∀ st2 st2' now2 d2, Reachable pr st2 → SameView sa st2 →
              unmarshalAndProcessMessage pr st2 raw0 now2 = (.ok d2, st2') →
              st2'.group.groupContext = j.group.groupContext ∧ st2'.group.interimTranscriptHash = j.group.interimTranscriptHash ∧
              (TreeCollision pr sd (derefTree hp t) j.vtree ∨ st2'.vtree = j.vtree))) := by
  have hinv := join_inv hc h
  unfold groupFromWelcome at h
  simp only [Res.bind_ok_iff] at h
  obtain ⟨ref, k1, gs, k2, _, _, _, _, h⟩ := h
  obtain ⟨psk2, info, rw2, v, leaf, li, pt, g1, g2, g3, g4, g5, g6, g7, g8, g9, g10, g11, g12, g13, g14, g15, g16, g17, g18, _, _, _, g19⟩ :=
    groupFromSecrets_ok h
  have hv : j.vtree = v := by
    unfold GroupState.vtree
    rw [g12, g13]
    exact (deref_alloc v []).2
  unfold GroupInfo.verifySignature at g6
  rw [orFalse_ok_true] at g6
  obtain ⟨tbs, h1, h2⟩ := g6
  rw [verifyWithLabel_iff lblGroupInfoTBS_name (by decide)] at h2
  obtain ⟨d, m, h2, h3, h4⟩ := h2
  rw [← suite_iff_spec] at h2
  refine ⟨info.signer, leaf, d, by rw [hv]; exact getLeaf_some g5, by rw [g14]; exact h2,
    ⟨ref, gs, psk2, info, rw2, v, leaf, k1, k2, g1, g2, g3, g4, getLeaf_some g5, rfl⟩, fun calls key hu => ?_⟩
  have h5 : encSignContent lblGroupInfoTBS tbs = .ok m := by
    rw [encSignContent_eq lblGroupInfoTBS_name (by decide), h3]; rfl
  obtain ⟨c, hcall, hs⟩ := hu m _ h4
  cases c with
  | package cs cred r =>
    obtain ⟨kp, d', _, _, _, _, ⟨t', _, g⟩ | ⟨t', _, g⟩⟩ := package_signs hs
    · exact absurd (label_of h5 g).1 (by decide)
    · exact absurd (label_of h5 g).1 (by decide)
  | message sa data rand guard =>
    obtain ⟨d', tbs', _, _, _, e4, e5⟩ := message_signs hs
    exact absurd (label_of h5 e5).1 (by decide)
  | invite sa kps r =>
    obtain ⟨w0, raw0, hp, t, sd, th, psk, sig, cth, js, es, tag, rawTree, isig, ctx, e0, run, _, e3, ⟨tbs', e4, e5⟩ | ⟨tbs', e4, e5⟩⟩ := invite_signs hs
    · exact absurd (label_of h5 e5).1 (by decide)
    · obtain ⟨_, rfl⟩ := label_of h5 e5
      have hinfo := C14_groupInfo _ _ _ h1 e4
      obtain ⟨i1, i2, i3, i4, i5⟩ := info
      simp only [inviteInfo, GroupInfo.mk.injEq, and_true] at hinfo
      obtain ⟨rfl, rfl, rfl, rfl⟩ := hinfo
      dsimp only at g9 g14 g18 h2
      have hraw : some rawTree = some rw2 := g3
      cases hraw
      have hcs : i1.cipherSuite = sa.group.groupContext.cipherSuite := by rw [run.context]
      have hd : d = sd := by
        rw [hcs, run.suite] at h2
        exact (Res.ok.inj h2).symm
      subst hd
      refine ⟨sa, kps, r, w0, raw0, _, hcall, e0, rfl, e3, ?_, ?_⟩
      · rw [g14]
        conv_lhs => rw [run.context]
        conv_rhs => rw [run.context]
      · intro hra
        have hi := hra.inv hc
        have htree : TreeCollision pr d (derefTree hp t) j.vtree ∨ j.vtree = derefTree hp t := by
          unfold verifyIntegrity at g9
          simp only [Res.bind_ok_iff, Res.guardErr_ok_iff, beq_iff_eq] at g9
          obtain ⟨th2, q1, _, q2, _⟩ := g9
          rw [hcs] at q1
          have q3 : th2 = th := by rw [q2, run.context]
          subst q3
          obtain ⟨dd, hdd, s1, hs1⟩ := hinv.tree.holds
          rcases (treeApply_effect (.inr hi.tree) run.apply).1 with he | hvt
          · exfalso
            have hh := run.hash
            rw [he] at hh
            unfold computeRootTreeHash computeTreeHash derefTree at hh
            rw [computeTreeHashLoop, List.map_nil, Res.idx, List.getElem?_nil] at hh
            cases hh
          · obtain ⟨d2, hd2, s2, hs2⟩ := hvt.holds
            have r1 := run.hash
            rw [hs2.flat] at r1
            rw [← hv] at q1
            unfold GroupState.vtree at q1
            rw [hs1.flat] at q1
            rcases C28_binding hc run.suite hd2 hdd s2 s1 r1 q1 with e | e
            · right
              unfold GroupState.vtree
              rw [hs1.flat, hs2.flat, e]
            · exact .inl ⟨_, _, s2, s1, hs2.flat, hs1.flat, e⟩
        have hnodes : ∀ x, nodeAt j.vtree x = nodeAt (derefTree hp t) x := by
          obtain ⟨t', u1, u2, _⟩ := C26_nodes run.tree
          rw [g4] at u1
          cases u1
          rw [hv]
          exact u2
        refine ⟨hp, t, run.apply, hnodes, ?_, ?_, htree, ?_⟩
        · obtain ⟨d0, s0, dd, s, hd0, hd, hs0, hs, hadd⟩ := run.ratchet hi
          rw [members_nodes hnodes, hs, hs0, members_flat, members_flat]
          exact members_adds _ hadd
        · intro hsn
          obtain ⟨d0, s0, dd, s, hd0, hd, hs0, hs, hadd⟩ := run.ratchet hi
          have hsn' : Spec.SnugTree (derefTree hp t) :=
            ⟨dd, s, hs, snug_adds _ (t := some ⟨d0, s0⟩) (fun a ha => by cases ha; exact hsn.of hs0) _ hadd⟩
          have := C77_sent hsn' run.tree
          rw [g4] at this
          cases this
          rw [hv]
          exact ⟨hsn', rfl⟩
        · intro hw st2 st2' now2 d2 hr2 hv2 hacc
          have haft := run.member hc hi (hr2.inv hc) hv2 hw hacc
          refine ⟨haft.context.trans g14.symm, ?_, htree.imp_right fun e => haft.tree.trans e.symm⟩
          exact Res.ok.inj (haft.interim.symm.trans g18)

/-! ### An example -/

/-- Toy primitives with a ledger of who signs what: nothing else can be signed, and nothing else verifies. -/
def ledgerPrims (log : List (Bytes × Bytes)) : Prims :=
  { toyPrims with
    sign := fun _ k m _ => if log.contains (k, m) then some (k ++ m) else none
    verify := fun s k m sig => if s.ecdsa && k.isEmpty then none else some (sig == k ++ m && log.contains (k, m)) }

theorem ledgerPrims_correct (log : List (Bytes × Bytes)) : (ledgerPrims log).Correct where
  hash_length := toyPrims_correct.hash_length
  mac_length := toyPrims_correct.mac_length
  extract_length := toyPrims_correct.extract_length
  expand_length := toyPrims_correct.expand_length
  aead_seal := toyPrims_correct.aead_seal
  aead_open := toyPrims_correct.aead_open
  hpke_open_gen := toyPrims_correct.hpke_open_gen
  hpke_open_derive := toyPrims_correct.hpke_open_derive
  sign_verify s r m rand sig h := by
    have key : ∀ k, (if log.contains (k, m) then some (k ++ m) else none) = some sig → sig = k ++ m ∧ log.contains (k, m) = true := by
      intro k h
      split at h
      · next hl => cases h; exact ⟨rfl, hl⟩
      · cases h
    obtain ⟨h1, h2⟩ := key _ h
    show (if s.ecdsa && ((toyPrims.sigKeyPair s r).1).isEmpty then none else
      some (sig == (toyPrims.sigKeyPair s r).1 ++ m && log.contains ((toyPrims.sigKeyPair s r).1, m))) = some true
    have h3 : (ledgerPrims log).sigKeyPair s r = toyPrims.sigKeyPair s r := rfl
    have h4 : (toyPrims.sigKeyPair s r).2 = (toyPrims.sigKeyPair s r).1 := by
      simp only [toyPrims]; split <;> rfl
    rw [h3, h4] at h1 h2
    rw [h2, h1]
    cases he : s.ecdsa <;> cases r <;> simp [toyPrims, he]
  verify_readable s k m sig h m' sig' := by
    simp only [ledgerPrims] at h ⊢
    split at h
    · cases h
    · next hk => rw [if_neg hk]; simp

def Res.isOk {α : Type} : Res α → Bool
  | .ok _ => true
  | _ => false

theorem Res.isOk_iff {α : Type} (x : Res α) : x.isOk = true ↔ ∃ a, x = .ok a := by cases x <;> simp [Res.isOk]

/-- Whether a call returns. -/
def Spec.Call.returns (pr : Prims) : Spec.Call → Bool
  | .package cs cred r => (generateKeyPairPackage pr cs cred r).isOk
  | .message st data rand guard => (createApplicationMessage pr st data rand guard).isOk
  | .invite st kps r => (createWelcome pr st kps r).1.isOk

theorem Spec.Call.returns_iff (pr : Prims) (c : Spec.Call) : c.returns pr = true ↔ c.Returns pr := by
  cases c <;> exact Res.isOk_iff _

/-- Randomness for the key package of a member. -/
def toyRand (name : UInt8) : KeyPackageRand :=
  { init := [12, name], enc := [10, name], sig := [11, name], leafSign := [], pkgSign := [], now1 := toyNow, now2 := toyNow }

/-- Three people: the first creates a group and invites the second, sends a message and invites the third. The calls of the
first, the second's state when the message and the second invitation come, and these. -/
structure ToyStory where
  calls : List Spec.Call
  b : GroupState
  welcome : Welcome
  kb : KeyPairPackage
  message : Bytes
  invitation : Bytes

def toyStory (pr : Prims) : Res ToyStory := do
  let ka ← generateKeyPairPackage pr 1 (.basic [1]) (toyRand 1)
  let kb ← generateKeyPairPackage pr 1 (.basic [2]) (toyRand 2)
  let kc ← generateKeyPairPackage pr 1 (.basic [3]) (toyRand 3)
  let a ← createGroup pr [7] ka fun _ => 9
  let (w, raw) ← (createWelcome pr a [kb.pub] default).1
  let a1 := (createWelcome pr a [kb.pub] default).2
  let b ← groupFromWelcome pr w kb toyLater
  let _ ← (unmarshalAndProcessMessage pr a1 raw toyLater).1
  let a2 := (unmarshalAndProcessMessage pr a1 raw toyLater).2
  let m ← createApplicationMessage pr a2 [1, 2] [] ⟨1, 2, 3, 4⟩
  let (_, raw2) ← (createWelcome pr a2 [kc.pub] default).1
  return { calls := [.package 1 (.basic [1]) (toyRand 1), .invite a [kb.pub] default, .message a2 [1, 2] [] ⟨1, 2, 3, 4⟩, .invite a2 [kc.pub] default],
           b, welcome := w, kb, message := m, invitation := raw2 }

/-- The messages that a call of the first signs (toy signatures are the key followed by the message). -/
def ledgerSigned (c : Spec.Call) : Res (List Bytes) :=
  match c with
  | .package cs cred r => do
    let kp ← generateKeyPairPackage toyPrims cs cred r
    return [kp.pub.leafNode.signature.drop 2, kp.pub.signature.drop 2]
  | .message st data rand _ => do
    let c ← signPrivateMessageContent toyPrims 1 st.group.signaturePriv (st.group.framedContent (.application data)) st.group.groupContext rand
    return [c.auth.signature.drop 2]
  | .invite st kps r => do
    let (w, _) ← (createWelcome toyPrims st kps r).1
    let c ← signPrivateMessageContent toyPrims 1 st.group.signaturePriv
      (st.group.framedContent (.commit { proposals := kps.map fun k => .proposal (.add k), path := none })) st.group.groupContext r.commitSign
    let psk ← extractPSKSecret toyPrims 1 [] []
    let ref ← (kps.headD default).generateRef toyPrims
    let gs ← w.decryptGroupSecrets toyPrims ref (kps.headD default).initKey
    let info ← w.decryptGroupInfo toyPrims gs.joinerSecret psk
    return [c.auth.signature.drop 2, info.signature.drop 2]

def ledgerSignedAll : List Spec.Call → Res (List Bytes)
  | [] => .ok []
  | c :: cs => do
    let x ← ledgerSigned c
    let y ← ledgerSignedAll cs
    return x ++ y

/-- All that is signed in the story. -/
def toyLedger : List (Bytes × Bytes) :=
  match (do
    let s ← toyStory toyPrims
    let x ← ledgerSignedAll s.calls
    let y ← ledgerSigned (.package 1 (.basic [2]) (toyRand 2))
    let z ← ledgerSigned (.package 1 (.basic [3]) (toyRand 3))
    return x.map (fun m => ([11, 1], m)) ++ y.map (fun m => ([11, 2], m)) ++ z.map (fun m => ([11, 3], m)) : Res (List (Bytes × Bytes))) with
  | .ok l => l
  | _ => []

example : toyLedger.length = 11 := by decide +kernel

/-- Every message that verifies under the key is signed with it in one of the calls. -/
theorem ledger_unforgeable {log : List (Bytes × Bytes)} {calls : List Spec.Call} {s : SigScheme} {k : Bytes}
    (h : (log.all fun p => p.1 != k || calls.any fun c => c.returns (ledgerPrims log) && !c.returns ((ledgerPrims log).refusing s k p.2)) = true) :
    Spec.Unforgeable (ledgerPrims log) (· ∈ calls) s k k := by
  intro m sig hv
  simp only [ledgerPrims] at hv
  split at hv
  · cases hv
  · simp only [Option.some.injEq, Bool.and_eq_true, List.contains_iff_mem] at hv
    have := (List.all_eq_true.1 h) _ hv.2
    simp only [bne_self_eq_false, Bool.false_or, List.any_eq_true, Bool.and_eq_true, Bool.not_eq_true'] at this
    obtain ⟨c, hc, h1, h2⟩ := this
    refine ⟨c, hc, (Spec.Call.returns_iff _ _).1 h1, fun h3 => ?_⟩
    rw [← Spec.Call.returns_iff, h2] at h3
    cases h3

/-- The theorems apply to the story: the second joins with the first's welcome, reads the first's message and follows the first's second invitation, and
the first's key is used in these calls only. -/
example : ∃ (log : List (Bytes × Bytes)) (calls : List Spec.Call) (w : Welcome) (kb : KeyPairPackage) (b b' b'' : GroupState) (m raw : Bytes)
    (leaf : LeafNode), groupFromWelcome (ledgerPrims log) w kb toyLater = .ok b ∧ b.vtree[0]? = some (some (.leaf leaf)) ∧
    unmarshalAndProcessMessage (ledgerPrims log) b m toyLater = (.ok (some [1, 2]), b') ∧
    unmarshalAndProcessMessage (ledgerPrims log) b raw toyLater = (.ok none, b'') ∧
    Spec.Unforgeable (ledgerPrims log) (· ∈ calls) .ed25519 [11, 1] leaf.signatureKey := by
  have key : Res.holds (toyStory (ledgerPrims toyLedger)) (fun t =>
      decide (groupFromWelcome (ledgerPrims toyLedger) t.welcome t.kb toyLater = .ok t.b) &&
      (match (t.b.vtree[0]? : Option (Option Node)) with
        | some (some (.leaf l)) => l.signatureKey == [11, 1]
        | _ => false) &&
      decide ((unmarshalAndProcessMessage (ledgerPrims toyLedger) t.b t.message toyLater).1 = .ok (some [1, 2])) &&
      decide ((unmarshalAndProcessMessage (ledgerPrims toyLedger) t.b t.invitation toyLater).1 = .ok none) &&
      toyLedger.all fun p => p.1 != [11, 1] ||
        t.calls.any fun c => c.returns (ledgerPrims toyLedger) && !c.returns ((ledgerPrims toyLedger).refusing .ed25519 [11, 1] p.2)) = true := by
    decide +kernel
  obtain ⟨t, _, key⟩ := Res.holds_ok key
  simp only [Bool.and_eq_true, decide_eq_true_eq] at key
  obtain ⟨⟨⟨⟨k1, k2⟩, k3⟩, k4⟩, k5⟩ := key
  split at k2
  · next l hl =>
    rw [beq_iff_eq] at k2
    refine ⟨toyLedger, t.calls, t.welcome, t.kb, t.b, _, _, t.message, t.invitation, l, k1, hl, Prod.ext k3 rfl, Prod.ext k4 rfl, ?_⟩
    rw [k2]
    exact ledger_unforgeable k5
  · cases k2

end Mls
