import Verif.Proofs.Sign
import Verif.Props.Time
import Verif.Props.Serial
import Verif.Model.Group
import Verif.Spec.Toy
/-
C52, C57, C58, C59: key packages, created groups, welcomes.
-/
namespace Mls

/-! ### C59 -/

/-- C59: a key package is accepted exactly when it is valid for the group. -/
theorem C59_verify (pr : Prims) (k : KeyPackage) (ctx : GroupContext) :
    k.verify pr ctx = .ok () ↔
      k.version = ctx.version ∧ k.cipherSuite = ctx.cipherSuite ∧
      (∃ lt, k.leafNode.source = .keyPackage lt) ∧
      (∃ tbs, (Spec.Rfc.keyPackageTBS k).bytes = some tbs ∧
        Spec.ValidSig pr k.cipherSuite k.leafNode.signatureKey "KeyPackageTBS" tbs k.signature) ∧
      k.leafNode.encryptionKey ≠ k.initKey := by
  have hk : k.leafNode.isKeyPackage = true ↔ ∃ lt, k.leafNode.source = .keyPackage lt := by
    unfold LeafNode.isKeyPackage
    cases k.leafNode.source <;> simp
  unfold KeyPackage.verify
  simp only [Res.bind_ok_iff, Res.guardErr_ok_iff, beq_iff_eq, hk, Bool.not_eq_true', beq_eq_false_iff_ne]
  constructor
  · rintro ⟨_, h1, _, h2, _, h3, b, h4, _, rfl, h6⟩
    exact ⟨h1, h2, h3, keyPackage_verifySignature_iff.1 h4, h6⟩
  · rintro ⟨h1, h2, h3, h4, h5⟩
    exact ⟨(), h1, (), h2, (), h3, true, keyPackage_verifySignature_iff.2 h4, (), rfl, h5⟩

/-- C59: an accepted commit adds only such key packages. -/
theorem C59_commit (pr : Prims) (st st' : GroupState) (a : AuthenticatedContent) (c : Commit)
    (ids : List PreSharedKeyID) (psks : List Bytes) (now : GoTime) (hc : a.content.content = .commit c)
    (h : processCommit pr st a ids psks now = (.ok (), st')) :
    ∃ ps ss, resolveProposals a.content.sender.leafIndex st.group.pendingProposals c.proposals = .ok (ps, ss) ∧
      ∀ k, Proposal.add k ∈ ps → k.verify pr st.group.groupContext = .ok () := by
  unfold processCommit at h
  rw [hc] at h
  simp only at h
  split at h <;> try (simp at h; done)
  next ps ss hk =>
  unfold checkProposals at hk
  simp only [Res.bind_ok_iff] at hk
  obtain ⟨⟨ps', ss'⟩, h1, _, h2, _, h3, h4⟩ := hk
  refine ⟨ps', ss', h1, ?_⟩
  simp only at h3
  clear h h1 h2 h4
  induction ps' with
  | nil => intro k hk; cases hk
  | cons p ps' ih =>
    intro k hk
    cases p with
    | add k' =>
      simp only [verifyAdds, Res.bind_ok_iff] at h3
      obtain ⟨_, h0, h3⟩ := h3
      rcases List.mem_cons.1 hk with e | hk
      · cases e; exact h0
      · exact ih h3 k hk
    | update | remove | psk | reInit | externalInit | groupContextExtensions =>
      simp only [verifyAdds] at h3
      rcases List.mem_cons.1 hk with e | hk
      · cases e
      · exact ih h3 k hk

/-! ### C58 -/

/-- The randomness of the concrete cases. -/
def exKeyRand : KeyPackageRand :=
  { init := [1, 1], enc := [2, 2], sig := [3, 3], leafSign := [], pkgSign := [],
    now1 := ⟨62135596800 + 1790000000, 5⟩, now2 := ⟨62135596800 + 1790000000, 7⟩ }

theorem generate_split {pr : Prims} {cs : UInt16} {cred : Credential} {r : KeyPackageRand} {kp : KeyPairPackage}
    (h : generateKeyPairPackage pr cs cred r = .ok kp) :
    ∃ d leaf k, suite cs = .ok d ∧
      (generatedLeaf cs cred (pr.kemKeyPair d.kem r.enc).1 (pr.sigKeyPair d.sig r.sig).1 r.now1 r.now2).sign pr cs []
        0 (pr.sigKeyPair d.sig r.sig).2 r.leafSign = .ok leaf ∧
      KeyPackage.sign pr ⟨1, cs, (pr.kemKeyPair d.kem r.init).1, leaf, [], []⟩ (pr.sigKeyPair d.sig r.sig).2
        r.pkgSign = .ok k ∧
      kp = ⟨k, ⟨(pr.kemKeyPair d.kem r.init).2, (pr.kemKeyPair d.kem r.enc).2, (pr.sigKeyPair d.sig r.sig).2⟩⟩ := by
  unfold generateKeyPairPackage generateEncryptionKeyPair at h
  rcases suite_ok_or_panic cs with hd | ⟨d, hd⟩
  · rw [hd] at h; simp at h
  · rw [hd] at h
    simp only [Res.ok_bind, Res.pure_eq, Res.bind_ok_iff, Res.ok.injEq] at h
    obtain ⟨leaf, h1, k, h2, h3⟩ := h
    exact ⟨d, leaf, k, hd, h1, h2, h3.symm⟩

theorem leafSign_split {pr : Prims} {cs : UInt16} {n n' : LeafNode} {g : Bytes} {li : UInt32} {priv rand : Bytes}
    (h : n.sign pr cs g li priv rand = .ok n') :
    ∃ tbs sig, n.encTBS g li = .ok tbs ∧ signWithLabel pr cs priv lblLeafNodeTBS tbs rand = .ok sig ∧
      n' = { n with signature := sig } := by
  unfold LeafNode.sign at h
  simp only [Res.bind_ok_iff, Res.pure_eq, Res.ok.injEq] at h
  obtain ⟨tbs, h1, sig, h2, h3⟩ := h
  exact ⟨tbs, sig, h1, h2, h3.symm⟩

theorem pkgSign_split {pr : Prims} {k k' : KeyPackage} {priv rand : Bytes} (h : k.sign pr priv rand = .ok k') :
    ∃ tbs sig, k.encTBS = .ok tbs ∧ signWithLabel pr k.cipherSuite priv lblKeyPackageTBS tbs rand = .ok sig ∧
      k' = { k with signature := sig } := by
  unfold KeyPackage.sign at h
  simp only [Res.bind_ok_iff, Res.pure_eq, Res.ok.injEq] at h
  obtain ⟨tbs, h1, sig, h2, h3⟩ := h
  exact ⟨tbs, sig, h1, h2, h3.symm⟩

/-- C58: a generated key package is accepted by any group of its suite, unless the two HPKE keys
drawn are equal. -/
theorem C58_valid (pr : Prims) (hc : pr.Correct) (cs : UInt16) (cred : Credential) (r : KeyPackageRand)
    (kp : KeyPairPackage) (h : generateKeyPairPackage pr cs cred r = .ok kp) (ctx : GroupContext)
    (hv : ctx.version = 1) (hcs : ctx.cipherSuite = cs) (hne : kp.pub.leafNode.encryptionKey ≠ kp.pub.initKey) :
    kp.pub.verify pr ctx = .ok () := by
  obtain ⟨d, leaf, k, hd, h1, h2, rfl⟩ := generate_split h
  obtain ⟨_, _, hl1, hl2, rfl⟩ := leafSign_split h1
  obtain ⟨tbs, sig, hk1, hk2, rfl⟩ := pkgSign_split h2
  rw [C59_verify]
  refine ⟨hv.symm, hcs.symm, ⟨_, rfl⟩, ⟨tbs, packageTBS_some.2 hk1, ?_⟩, hne⟩
  exact signWithLabel_valid hc hd lblKeyPackageTBS_name (by decide) hk2

/-- C58: and so is the leaf in it, for every group and position. -/
theorem C58_leaf (pr : Prims) (hc : pr.Correct) (cs : UInt16) (cred : Credential) (r : KeyPackageRand)
    (kp : KeyPairPackage) (h : generateKeyPairPackage pr cs cred r = .ok kp) (groupID : Bytes) (li : UInt32) :
    kp.pub.leafNode.verifySignature pr cs groupID li = .ok true ∧ kp.pub.leafNode.credential = cred ∧
      kp.pub.cipherSuite = cs := by
  obtain ⟨d, leaf, k, hd, h1, h2, rfl⟩ := generate_split h
  obtain ⟨tbs, sig, hl1, hl2, rfl⟩ := leafSign_split h1
  obtain ⟨_, _, hk1, hk2, rfl⟩ := pkgSign_split h2
  refine ⟨leaf_verifySignature_iff.2 ⟨tbs, leafTBS_some.2 hl1, ?_⟩, rfl, rfl⟩
  exact signWithLabel_valid hc hd lblLeafNodeTBS_name (by decide) hl2

/-- C58: it survives serialisation. -/
theorem C58_serial (pr : Prims) (cs : UInt16) (cred : Credential) (r : KeyPackageRand) (kp : KeyPairPackage)
    (h : generateKeyPairPackage pr cs cred r = .ok kp) (raw : Bytes) (hb : kp.pub.bytes = .ok raw) :
    unmarshalKeyPackage raw = .ok kp.pub := by
  obtain ⟨d, leaf, k, hd, h1, h2, rfl⟩ := generate_split h
  obtain ⟨tbs, sig, hk1, hk2, rfl⟩ := pkgSign_split h2
  exact C04_roundtrip _ _ rfl hb

/-- C58: its lifetime is accepted from the second after it was made until 30 days later (clocks
that go forward by at most 60 days during the call). -/
theorem C58_lifetime (pr : Prims) (cs : UInt16) (cred : Credential) (r : KeyPackageRand) (kp : KeyPairPackage)
    (h : generateKeyPairPackage pr cs cred r = .ok kp) (t : GoTime)
    (h1 : 62135596800 + 7776000 ≤ r.now1.sec) (h2 : r.now1.sec ≤ r.now2.sec)
    (h3 : r.now2.sec ≤ r.now1.sec + 5184000) (h4 : r.now2.sec < 2 ^ 62) (hn : r.now2.nsec < 1000000000)
    (hn' : t.nsec < 1000000000) (ht1 : r.now1.sec < t.sec) (ht2 : t.sec < r.now2.sec + 2592000) :
    kp.pub.leafNode.lifetimeOk t = true := by
  obtain ⟨d, leaf, k, hd, hl, hk, rfl⟩ := generate_split h
  obtain ⟨_, _, _, _, rfl⟩ := leafSign_split hl
  obtain ⟨_, _, _, _, rfl⟩ := pkgSign_split hk
  have hadd : r.now2.add (30 * 24 * 3600 * 1000000000) = ⟨r.now2.sec + 2592000, r.now2.nsec⟩ := by
    unfold GoTime.add
    have e1 : (30 * 24 * 3600 * 1000000000 : Int).tdiv 1000000000 = 2592000 := by decide
    have e2 : (30 * 24 * 3600 * 1000000000 : Int).tmod 1000000000 = 0 := by decide
    simp only [e1, e2]
    rw [if_neg (by omega), if_neg (by omega), addSec_eq (by omega) (by omega) (by omega) (by omega), if_pos (by omega)]
    simp
  have e1 : ((newLifetime r.now1 (r.now2.add (30 * 24 * 3600 * 1000000000))).notBefore.toNat : Int) =
      r.now1.sec - 62135596800 := by
    unfold newLifetime GoTime.toUnix
    simp only [UInt64.toNat_ofNat']
    rw [wrap64_of (by unfold unixToInternal; omega) (by unfold unixToInternal; omega)]
    unfold unixToInternal
    omega
  have e2 : ((newLifetime r.now1 (r.now2.add (30 * 24 * 3600 * 1000000000))).notAfter.toNat : Int) =
      r.now2.sec + 2592000 - 62135596800 := by
    rw [hadd]
    unfold newLifetime GoTime.toUnix
    simp only [UInt64.toNat_ofNat']
    rw [wrap64_of (by unfold unixToInternal; omega) (by unfold unixToInternal; omega)]
    unfold unixToInternal
    omega
  show (t.isZero || (newLifetime r.now1 (r.now2.add (30 * 24 * 3600 * 1000000000))).verify t) = true
  rw [Bool.or_eq_true]
  right
  rw [C40_lifetime _ _ hn' (by unfold Spec.unixNano; omega) (by omega)]
  unfold Spec.unixNano
  omega

example : ∃ kp, generateKeyPairPackage toyPrims 1 (.basic [65]) exKeyRand = .ok kp ∧
    kp.pub.leafNode.encryptionKey ≠ kp.pub.initKey ∧ ∃ raw, kp.pub.bytes = .ok raw := by
  have : (generateKeyPairPackage toyPrims 1 (.basic [65]) exKeyRand).bind (fun kp =>
    if kp.pub.leafNode.encryptionKey ≠ kp.pub.initKey then kp.pub.bytes.bind fun _ => .ok true else .err) = .ok true := by
    decide +kernel
  rcases hkp : generateKeyPairPackage toyPrims 1 (.basic [65]) exKeyRand with kp | _ | _ | _ <;> rw [hkp] at this
  · refine ⟨kp, rfl, ?_⟩
    rw [Res.bind_ok'] at this
    split at this
    · next h =>
      refine ⟨h, ?_⟩
      rcases hb : kp.pub.bytes with raw | _ | _ | _ <;> rw [hb] at this
      · exact ⟨raw, rfl⟩
      all_goals cases this
    · cases this
  all_goals cases this

/-! ### C57 -/

/-- C57: the secret found for a reference is the first entry that carries it. -/
theorem C57_find (w : Welcome) (ref : Bytes) (s : EncryptedGroupSecrets) :
    w.findSecret ref = some s ↔
      ∃ i : Nat, w.secrets[i]? = some s ∧ s.newMember = ref ∧ ∀ j < i, w.newMembers[j]? ≠ some ref := by
  unfold Welcome.findSecret Welcome.newMembers
  induction w.secrets with
  | nil => simp
  | cons x l ih =>
    rw [List.find?_cons]
    by_cases hx : x.newMember = ref
    · simp only [hx, beq_self_eq_true, Option.some.injEq]
      constructor
      · rintro rfl
        exact ⟨0, by simp, hx, by intro j hj; omega⟩
      · rintro ⟨i, h1, h2, h3⟩
        cases i with
        | zero => simpa using h1
        | succ i => exact absurd (by simp [hx]) (h3 0 (by omega))
    · rw [beq_false_of_ne hx]
      simp only
      rw [ih]
      constructor
      · rintro ⟨i, h1, h2, h3⟩
        refine ⟨i + 1, by simpa using h1, h2, ?_⟩
        intro j hj
        cases j with
        | zero => simpa using hx
        | succ j => simpa using h3 j (by omega)
      · rintro ⟨i, h1, h2, h3⟩
        cases i with
        | zero => 
          simp only [List.getElem?_cons_zero, Option.some.injEq] at h1
          rw [h1] at hx
          exact absurd h2 hx
        | succ i =>
          refine ⟨i, by simpa using h1, h2, ?_⟩
          intro j hj
          simpa using h3 (j + 1) (by omega)

/-- C57: there is one exactly when the reference is listed. -/
theorem C57_find_none (w : Welcome) (ref : Bytes) : w.findSecret ref = none ↔ ref ∉ w.newMembers := by
  unfold Welcome.findSecret Welcome.newMembers
  rw [List.find?_eq_none]
  simp only [beq_iff_eq, List.mem_map, not_exists, not_and]

theorem encryptSecretsLoop_refs {pr : Prims} {cs : UInt16} {gs : GroupSecrets} {egi : Bytes} {rand : Nat → Bytes} :
    ∀ (ks : List KeyPackage) (i : Nat) (l : List EncryptedGroupSecrets),
      encryptSecretsLoop pr cs gs egi rand i ks = .ok l →
      ks.map (KeyPackage.generateRef pr) = l.map fun s => Res.ok s.newMember := by
  intro ks
  induction ks with
  | nil => intro i l h; cases h; rfl
  | cons k ks ih =>
    intro i l h
    simp only [encryptSecretsLoop, Res.bind_ok_iff] at h
    obtain ⟨ref, h1, ct, h2, rest, h3, h4⟩ := h
    cases h4
    simp [h1, ih _ _ h3]

/-- C57: the welcome of an invitation lists exactly the references of the invited key packages, in
order. -/
theorem C57_listed (pr : Prims) (st st' : GroupState) (ks : List KeyPackage) (r : WelcomeRand) (w : Welcome)
    (msg : Bytes) (h : createWelcome pr st ks r = (.ok (w, msg), st')) :
    ks.map (KeyPackage.generateRef pr) = w.newMembers.map Res.ok := by
  unfold createWelcome at h
  split at h
  · cases h
  · split at h <;> try (simp at h; done)
    simp only [Prod.mk.injEq] at h
    obtain ⟨h, _⟩ := h
    unfold finishWelcome at h
    simp only [Res.bind_ok_iff] at h
    obtain ⟨_, _, _, _, _, _, _, _, _, _, _, _, _, _, _, _, _, _, _, _, _, _, secrets, hs, _, _, he⟩ := h
    cases he
    rw [encryptSecretsLoop_refs _ _ _ hs]
    simp [Welcome.newMembers]

/-- C57: whoever is not listed cannot join. -/
theorem C57_others (pr : Prims) (w : Welcome) (kp : KeyPairPackage) (now : GoTime) (ref : Bytes)
    (hr : kp.pub.generateRef pr = .ok ref) (h : ref ∉ w.newMembers) : groupFromWelcome pr w kp now = .err := by
  unfold groupFromWelcome Welcome.decryptGroupSecrets
  rw [hr]
  simp only [Res.ok_bind]
  rw [(C57_find_none w ref).2 h]
  rfl

/-- C57: joining uses the first entry carrying the joiner's reference. -/
theorem C57_joined (pr : Prims) (w : Welcome) (kp : KeyPairPackage) (now : GoTime) (st : GroupState)
    (h : groupFromWelcome pr w kp now = .ok st) :
    ∃ ref s raw, kp.pub.generateRef pr = .ok ref ∧ w.findSecret ref = some s ∧
      decryptWithLabel pr w.cipherSuite kp.priv.initKey lblWelcome w.encryptedGroupInfo s.encryptedGroupSecrets =
        .ok raw := by
  unfold groupFromWelcome Welcome.decryptGroupSecrets at h
  simp only [Res.bind_ok_iff, orErr_ok_iff] at h
  obtain ⟨ref, h1, _, ⟨s, h2, raw, h3, _⟩, _⟩ := h
  exact ⟨ref, s, raw, h1, h2, h3⟩

example : (⟨1, [⟨[5], ⟨[], []⟩⟩, ⟨[6], ⟨[], []⟩⟩, ⟨[5], ⟨[1], [1]⟩⟩], []⟩ : Welcome).findSecret [5] =
    some ⟨[5], ⟨[], []⟩⟩ := by decide

/-! ### C52 -/

theorem treeAdd_single (l : LeafNode) : treeAdd [] [none] l = .ok ([], [some (.leaf l)]) := by
  have h1 : findFree ([none] : RTree) (([none] : RTree).length + 1) 0 = .ok (0, true) := by decide
  have h2 : addAncestors [none] (treeNumLeaves ([none] : RTree)) (UInt32.ofNat 0) 64 [] (nodeOfLeaf 0) = .ok [] := by
    decide
  unfold treeAdd
  rw [h1]
  simp only [Res.ok_bind, if_true]
  rw [h2]
  rfl

/-- C52: a created group. -/
theorem C52_created (pr : Prims) (groupID : Bytes) (kp : KeyPairPackage) (rand : Nat → UInt8) (st : GroupState)
    (h : createGroup pr groupID kp rand = .ok st) :
    st.vtree = [some (.leaf kp.pub.leafNode)] ∧
    st.group.groupContext.epoch = 0 ∧ st.group.groupContext.groupID = groupID ∧
    st.group.groupContext.cipherSuite = kp.pub.cipherSuite ∧ st.group.groupContext.version = kp.pub.version ∧
    st.group.groupContext.extensions = [] ∧
    computeRootTreeHash pr kp.pub.cipherSuite st.vtree = .ok st.group.groupContext.treeHash ∧
    st.group.myLeafIndex = 0 ∧ st.group.privTree = [some kp.priv.encryptionKey] ∧
    st.group.signaturePriv = kp.priv.signatureKey ∧ st.group.pendingProposals = [] := by
  unfold createGroup at h
  rw [treeAdd_single] at h
  simp only [Res.ok_bind, Res.bind_ok_iff, Res.setIdx_ok_iff] at h
  obtain ⟨pt, ⟨_, hpt⟩, th, hth, d, hd, tag, htag, interim, hi, psk, hpsk, init, hinit, he⟩ := h
  cases he
  refine ⟨rfl, rfl, rfl, rfl, rfl, rfl, hth, rfl, ?_, rfl, rfl⟩
  rw [hpt]; rfl

/-- C52: the epoch secret is fresh randomness of the size of the KDF, and the init secret of the
next epoch is derived from it as the RFC says. -/
theorem C52_secrets (pr : Prims) (groupID : Bytes) (kp : KeyPairPackage) (rand : Nat → UInt8) (st : GroupState)
    (h : createGroup pr groupID kp rand = .ok st) :
    ∃ d, (kp.pub.cipherSuite.toNat, d) ∈ Spec.suites ∧
      st.group.epochSecret = (List.range d.kdf.size).map rand ∧
      st.group.initSecret = Spec.deriveSecret pr d st.group.epochSecret "init" := by
  unfold createGroup at h
  rw [treeAdd_single] at h
  simp only [Res.ok_bind, Res.bind_ok_iff] at h
  obtain ⟨pt, hpt, th, hth, d, hd, tag, htag, interim, hi, psk, hpsk, init, hinit, he⟩ := h
  cases he
  refine ⟨d, (suite_iff_spec _ _).1 hd, rfl, ?_⟩
  have hn : lblPrefix ++ lblInit = Spec.ascii ("MLS 1.0 " ++ "init") := by decide
  rw [deriveSecret_eq hd _ hn (by decide)] at hinit
  cases hinit
  rfl

/-- C52: with a suite of the table, and a leaf that can be encoded, a group can always be created. -/
theorem C52_total (pr : Prims) (hc : pr.Correct) (groupID : Bytes) (kp : KeyPairPackage) (rand : Nat → UInt8)
    (hcs : 1 ≤ kp.pub.cipherSuite.toNat ∧ kp.pub.cipherSuite.toNat ≤ 7) (raw : Bytes)
    (hl : kp.pub.leafNode.enc = .ok raw) : ∃ st, createGroup pr groupID kp rand = .ok st := by
  have hs : ∃ d, suite kp.pub.cipherSuite = .ok d := by
    have : kp.pub.cipherSuite.toNat = 1 ∨ kp.pub.cipherSuite.toNat = 2 ∨ kp.pub.cipherSuite.toNat = 3 ∨
      kp.pub.cipherSuite.toNat = 4 ∨ kp.pub.cipherSuite.toNat = 5 ∨ kp.pub.cipherSuite.toNat = 6 ∨
      kp.pub.cipherSuite.toNat = 7 := by omega
    simp only [suite_iff_spec, Spec.suites]
    rcases this with h | h | h | h | h | h | h <;> rw [h] <;> exact ⟨_, by simp; rfl⟩
  obtain ⟨d, hd⟩ := hs
  have hroot : root (treeNumLeaves (derefTree [] [some (TNode.leaf kp.pub.leafNode)])) = 0 := by
    have : treeNumLeaves (derefTree [] [some (TNode.leaf kp.pub.leafNode)]) = 1 := by
      simp [treeNumLeaves, derefTree, numLeavesFromWidth]
    rw [this]; decide
  have hleaf : leafOfNode 0 = some 0 := by decide
  have hth : ∃ th, computeRootTreeHash pr kp.pub.cipherSuite (derefTree [] [some (TNode.leaf kp.pub.leafNode)]) = .ok th := by
    unfold computeRootTreeHash computeTreeHash
    rw [hroot, computeTreeHashLoop]
    have : Res.idx (derefTree [] [some (TNode.leaf kp.pub.leafNode)]) 0 = .ok (some (.leaf kp.pub.leafNode)) := rfl
    rw [this, hleaf]
    simp only [Res.ok_bind]
    have e : hashedLeaf (some (Node.leaf kp.pub.leafNode)) (List.contains ([] : List UInt32) (UInt32.ofNat 0)) =
      .ok (some kp.pub.leafNode) := rfl
    rw [e]
    simp only [Res.ok_bind, encLeafNodeHashInput, hl, hd]
    exact ⟨_, rfl⟩
  obtain ⟨th, hth⟩ := hth
  have hn : lblPrefix ++ lblInit = Spec.ascii ("MLS 1.0 " ++ "init") := by decide
  have hn2 : lblPrefix ++ lblConfirm = Spec.ascii ("MLS 1.0 " ++ "confirm") := by decide
  unfold createGroup
  rw [treeAdd_single]
  simp only [Res.ok_bind]
  rw [Res.setIdx_of_lt _ (by simp), hth, hd]
  simp only [Res.ok_bind, GroupContext.signConfirmationTag]
  rw [deriveSecret_eq hd _ hn2 (by decide), deriveSecret_eq hd _ hn (by decide)]
  simp only [Res.ok_bind, signMAC, hd, Res.pure_eq, nextInterimTranscriptHash, extractPSKSecret, List.length_nil,
    ne_eq, not_true_eq_false, if_false, extractPSKSecretLoop]
  rw [writeOpaqueVec_vec (by rw [hc.mac_length]; have := kdfSize_le d.hash; omega)]
  exact ⟨_, rfl⟩

/-- The key pair package of the concrete cases. -/
def exKp (name : UInt8) : KeyPairPackage :=
  { pub := exKeyPackage name, priv := { initKey := [1], encryptionKey := [10, name], signatureKey := [2] } }

example : (∃ raw, (exKp 7).pub.leafNode.enc = .ok raw) ∧ 1 ≤ (exKp 7).pub.cipherSuite.toNat ∧
    (exKp 7).pub.cipherSuite.toNat ≤ 7 ∧ toyPrims.Correct := ⟨⟨_, rfl⟩, by decide, by decide, toyPrims_correct⟩

end Mls
