import Verif.Props.Sending
import Verif.Props.Crash
import Verif.Model.Misc
/-
C111: exactly what the calls that make something return, and when they panic: GenerateKeyPairPackage, CreateGroup, CreateWelcome.
-/
namespace Mls

open Spec (Ratchet)

variable {pr : Prims}

/-! ### Specification -/

/-- The leaf node of a new key package: RFC 9420, what the library can do, and valid from the first to 30 days after the second reading of the
clock. -/
def Spec.freshLeaf (cs : UInt16) (credential : Credential) (encryptionKey signatureKey : Bytes) (now1 now2 : GoTime) : LeafNode :=
  { encryptionKey, signatureKey, credential,
    capabilities := { versions := [1], cipherSuites := [cs], extensions := [2], proposals := [1, 2, 3], credentials := [1] },
    source := .keyPackage { notBefore := UInt64.ofNat (now1.toUnix % 2 ^ 64).toNat,
                            notAfter := UInt64.ofNat ((now2.add (30 * 24 * 3600 * 1000000000)).toUnix % 2 ^ 64).toNat },
    extensions := [], signature := [] }

/-- RFC 9420 section 10: a new key package, with the private keys to it. -/
def Spec.Rfc.keyPairPackage (pr : Prims) (cs : UInt16) (sd : SuiteDesc) (credential : Credential) (r : KeyPackageRand) :
    Option KeyPairPackage := do
  let init := pr.kemKeyPair sd.kem r.init
  let enc := pr.kemKeyPair sd.kem r.enc
  let sig := pr.sigKeyPair sd.sig r.sig
  let leaf := Spec.freshLeaf cs credential enc.1 sig.1 r.now1 r.now2
  let leafSignature ← Rfc.sign pr sd sig.2 "LeafNodeTBS" (Rfc.leafNodeTBS leaf [] 0) r.leafSign
  let package : KeyPackage :=
    { version := 1, cipherSuite := cs, initKey := init.1, leafNode := { leaf with signature := leafSignature }, extensions := [], signature := [] }
  let signature ← Rfc.sign pr sd sig.2 "KeyPackageTBS" (Rfc.keyPackageTBS package) r.pkgSign
  return { pub := { package with signature }, priv := { initKey := init.2, encryptionKey := enc.2, signatureKey := sig.2 } }

/-- Inviting `kps` panics: everything up to the encrypted group info can be made, and so can the group secrets for the key packages before one
of a suite that does not exist. -/
def Spec.InviteCrash (pr : Prims) (sd : SuiteDesc) (g : Group) (kps : List KeyPackage) (r : WelcomeRand) {d : Nat}
    (s : Ratchet ParentNode d) : Prop :=
  ∃ p pre k post, Rfc.prepared pr sd g.groupContext g.initSecret g.interimTranscriptHash g.signaturePriv g.myLeafIndex kps r s = some p ∧
    kps = pre ++ k :: post ∧ (¬ ∃ sk, (k.cipherSuite.toNat, sk) ∈ Spec.suites) ∧
    (pre = [] ∨ ∃ x l, Rfc.sealedSecrets p = some x ∧ Rfc.secretsFor pr sd x.2 x.1 r.hpke 0 pre = some l)

/-! ### Generation -/

/-- **C111**, generation: GenerateKeyPairPackage panics exactly for the suites that do not exist; for the others it returns the key package of
RFC 9420 if there is one, and an error if there is none. -/
theorem C111_generation (cs : UInt16) (credential : Credential) (r : KeyPackageRand) (hk : ∀ ty, credential ≠ .other ty) :
    ((¬ ∃ sd, (cs.toNat, sd) ∈ Spec.suites) → generateKeyPairPackage pr cs credential r = .panic) ∧
    ∀ sd, (cs.toNat, sd) ∈ Spec.suites → generateKeyPairPackage pr cs credential r = match Spec.Rfc.keyPairPackage pr cs sd credential r with
      | some kp => .ok kp
      | none => .err := by
  have hkn := known_of_ne hk
  constructor
  · intro hn
    rcases suite_ok_or_panic cs with hd | ⟨d, hd⟩
    · unfold generateKeyPairPackage generateEncryptionKeyPair
      rw [hd]
      rfl
    · exact absurd ⟨d, (suite_iff_spec _ _).1 hd⟩ hn
  · intro sd hsd
    rw [← suite_iff_spec] at hsd
    have hgen : generateKeyPairPackage pr cs credential r = (do
        let leaf ← (Spec.freshLeaf cs credential (pr.kemKeyPair sd.kem r.enc).1 (pr.sigKeyPair sd.sig r.sig).1 r.now1 r.now2).sign pr cs [] 0
          (pr.sigKeyPair sd.sig r.sig).2 r.leafSign
        let k ← KeyPackage.sign pr ⟨1, cs, (pr.kemKeyPair sd.kem r.init).1, leaf, [], []⟩ (pr.sigKeyPair sd.sig r.sig).2 r.pkgSign
        .ok ⟨k, ⟨(pr.kemKeyPair sd.kem r.init).2, (pr.kemKeyPair sd.kem r.enc).2, (pr.sigKeyPair sd.sig r.sig).2⟩⟩) := by
      unfold generateKeyPairPackage generateEncryptionKeyPair
      rw [hsd]
      rfl
    rw [hgen]
    unfold Spec.Rfc.keyPairPackage
    dsimp only
    generalize pr.sigKeyPair sd.sig r.sig = sk
    generalize hl : Spec.freshLeaf cs credential (pr.kemKeyPair sd.kem r.enc).1 sk.1 r.now1 r.now2 = leaf
    have hkl : leaf.credential.Known := by rw [← hl]; exact hkn
    have hfine : (leaf.sign pr cs [] 0 sk.2 r.leafSign).Fine :=
      Res.Fine.bind (leafNode_encTBS_fine hkl _ _) fun _ _ => (signWithLabel_fine hsd _ _ _ _).bind fun _ _ => Res.fine_ok _
    have h1 := fun n' => (C102_signed (pr := pr) hsd sk.2 r.leafSign).2.1 leaf [] 0 n'
    cases hs : Spec.Rfc.sign pr sd sk.2 "LeafNodeTBS" (Spec.Rfc.leafNodeTBS leaf [] 0) r.leafSign with
    | none =>
      rw [show (leaf.sign pr cs [] 0 sk.2 r.leafSign) = .err from ?_]
      · simp
      · cases h2 : leaf.sign pr cs [] 0 sk.2 r.leafSign with
        | ok n' =>
          have := ((h1 n').1 h2).2
          rw [show (0 : UInt32).toNat = 0 from rfl, hs] at this
          cases this
        | err => rfl
        | panic => exact absurd h2 hfine.1
        | hang => exact absurd h2 hfine.2
    | some ls =>
      have h3 : leaf.sign pr cs [] 0 sk.2 r.leafSign = .ok { leaf with signature := ls } :=
        (h1 { leaf with signature := ls }).2 ⟨rfl, hs⟩
      rw [h3]
      simp only [Res.ok_bind, Option.bind_eq_bind, Option.bind_some]
      generalize hpk : (⟨1, cs, (pr.kemKeyPair sd.kem r.init).1, { leaf with signature := ls }, [], []⟩ : KeyPackage) = pk
      have hpcs : pk.cipherSuite = cs := by rw [← hpk]
      have hpkn : pk.leafNode.credential.Known := by rw [← hpk]; exact hkl
      have hfine2 : (pk.sign pr sk.2 r.pkgSign).Fine :=
        Res.Fine.bind (keyPackage_encTBS_fine hpkn) fun _ _ => (signWithLabel_fine (by rw [hpcs]; exact hsd) _ _ _ _).bind fun _ _ => Res.fine_ok _
      have h4 := fun k' => (C102_signed (pr := pr) hsd sk.2 r.pkgSign).2.2.1 pk k' hpcs
      cases hs2 : Spec.Rfc.sign pr sd sk.2 "KeyPackageTBS" (Spec.Rfc.keyPackageTBS pk) r.pkgSign with
      | none =>
        rw [show pk.sign pr sk.2 r.pkgSign = .err from ?_]
        · rfl
        · cases h2 : pk.sign pr sk.2 r.pkgSign with
          | ok k' =>
            have := ((h4 k').1 h2).2
            rw [hs2] at this
            cases this
          | err => rfl
          | panic => exact absurd h2 hfine2.1
          | hang => exact absurd h2 hfine2.2
      | some ps =>
        rw [(h4 { pk with signature := ps }).2 ⟨rfl, hs2⟩]
        subst hpk
        rfl

/-! ### Creation -/

/-- **C111**, creation: CreateGroup panics exactly for a key package of a suite that does not exist whose leaf node has an encoding; when it returns
a group is said in C107_creation. -/
theorem C111_creation (hc : pr.Correct) (id : Bytes) (kp : KeyPairPackage) (rand : Nat → UInt8)
    (hk : ∀ ty, kp.pub.leafNode.credential ≠ .other ty) :
    (createGroup pr id kp rand = .panic ↔
      (¬ ∃ sd, (kp.pub.cipherSuite.toNat, sd) ∈ Spec.suites) ∧ ∃ b, (Spec.Rfc.leafNode kp.pub.leafNode).bytes = some b) ∧
    createGroup pr id kp rand ≠ .hang := by
  have hkn := known_of_ne hk
  have hidx : (Res.setIdx (List.replicate ([some (TNode.leaf kp.pub.leafNode)] : RTree).length (none : Option Bytes)) 0
      (some kp.priv.encryptionKey)) = .ok [some kp.priv.encryptionKey] := rfl
  have hloop : computeRootTreeHash pr kp.pub.cipherSuite (derefTree [] [some (TNode.leaf kp.pub.leafNode)]) =
      (do let input ← (encLeafNodeHashInput 0 (some kp.pub.leafNode) : Res Bytes)
          let d ← suite kp.pub.cipherSuite
          return pr.hash d.hash input) := by
    have hroot : root (treeNumLeaves (derefTree [] [some (TNode.leaf kp.pub.leafNode)])) = 0 := by
      have : treeNumLeaves (derefTree [] [some (TNode.leaf kp.pub.leafNode)]) = 1 := by
        simp [treeNumLeaves, derefTree, numLeavesFromWidth]
      rw [this]; decide
    have hleaf : leafOfNode 0 = some 0 := by decide
    unfold computeRootTreeHash computeTreeHash
    rw [hroot, computeTreeHashLoop]
    have : Res.idx (derefTree [] [some (TNode.leaf kp.pub.leafNode)]) 0 = .ok (some (.leaf kp.pub.leafNode)) := rfl
    rw [this, hleaf]
    simp only [Res.ok_bind]
    have e : hashedLeaf (some (Node.leaf kp.pub.leafNode)) (List.contains ([] : List UInt32) (UInt32.ofNat 0)) =
      .ok (some kp.pub.leafNode) := rfl
    rw [e]
    rfl
  have hin : ∀ b, kp.pub.leafNode.enc = .ok b → ∃ x, encLeafNodeHashInput 0 (some kp.pub.leafNode) = .ok x := by
    intro b hb
    unfold encLeafNodeHashInput writeOptional addU8 addU32
    dsimp only
    rw [hb]
    exact ⟨_, rfl⟩
  by_cases he : ∃ b, (Spec.Rfc.leafNode kp.pub.leafNode).bytes = some b
  · by_cases hs : ∃ sd, (kp.pub.cipherSuite.toNat, sd) ∈ Spec.suites
    · obtain ⟨st, h⟩ := (C107_creation hc id kp rand).2 ⟨hs, he⟩
      rw [h]
      exact ⟨⟨fun h => (by cases h), fun h => absurd hs h.1⟩, fun h => (by cases h)⟩
    · have : createGroup pr id kp rand = .panic := by
        obtain ⟨b, hb⟩ := he
        obtain ⟨x, hx⟩ := hin b (Enc.val_ok_iff.2 (by rw [leafNode_val]; exact hb))
        have hp : suite kp.pub.cipherSuite = .panic := by
          rcases suite_ok_or_panic kp.pub.cipherSuite with hd | ⟨d, hd⟩
          · exact hd
          · exact absurd ⟨d, (suite_iff_spec _ _).1 hd⟩ hs
        unfold createGroup
        rw [treeAdd_single]
        simp only [Res.ok_bind]
        rw [hidx]
        simp only [Res.ok_bind]
        rw [hloop, hx, hp]
        rfl
      rw [this]
      exact ⟨⟨fun _ => ⟨hs, he⟩, fun _ => rfl⟩, fun h => (by cases h)⟩
  · have : createGroup pr id kp rand = .err := by
      have hle : kp.pub.leafNode.enc = .err := by
        have hf := leafNode_enc_fine hkn
        cases h : kp.pub.leafNode.enc with
        | ok b => exact absurd ⟨b, by rw [← leafNode_val]; exact Enc.val_ok_iff.1 h⟩ he
        | err => rfl
        | panic => exact absurd h hf.1
        | hang => exact absurd h hf.2
      have hx : encLeafNodeHashInput 0 (some kp.pub.leafNode) = .err := by
        unfold encLeafNodeHashInput writeOptional addU8 addU32
        dsimp only
        rw [hle]
        rfl
      unfold createGroup
      rw [treeAdd_single]
      simp only [Res.ok_bind]
      rw [hidx]
      simp only [Res.ok_bind]
      rw [hloop, hx]
      rfl
    rw [this]
    exact ⟨⟨fun h => (by cases h), fun h => absurd h.2 he⟩, fun h => (by cases h)⟩

/-! ### Invitations -/

theorem keyPackage_in_commit {ks : List KeyPackage} {k : KeyPackage} (hk : k ∈ ks) {x : Bytes}
    (h : writeVector ProposalOrRef.enc (ks.map fun k => .proposal (.add k)) = .ok x) : ∃ b, k.enc = .ok b ∧ b.length < 2 ^ 30 := by
  have hcat : ∀ (ks : List KeyPackage) (y : Bytes), k ∈ ks →
      Enc.concat ((ks.map fun k => ProposalOrRef.proposal (.add k)).map ProposalOrRef.enc) = .ok y → ∃ b, k.enc = .ok b ∧ b.length ≤ y.length := by
    intro ks
    induction ks with
    | nil => intro y h; cases h
    | cons k' ks ih =>
      intro y hk h
      rw [List.map_cons, List.map_cons, Enc.concat] at h
      rw [Enc.append_ok_iff] at h
      obtain ⟨u, v, h1, h2, rfl⟩ := h
      rcases List.mem_cons.1 hk with rfl | hk
      · unfold ProposalOrRef.enc at h1
        dsimp only at h1
        rw [Enc.append_ok_iff] at h1
        obtain ⟨_, w, _, h3, rfl⟩ := h1
        unfold Proposal.enc at h3
        dsimp only at h3
        rw [Enc.append_ok_iff] at h3
        obtain ⟨_, b, _, h4, rfl⟩ := h3
        refine ⟨b, h4, ?_⟩
        simp only [List.length_append]
        omega
      · obtain ⟨b, h3, h4⟩ := ih v hk h2
        refine ⟨b, h3, ?_⟩
        rw [List.length_append]
        omega
  unfold writeVector at h
  cases hy : Enc.concat ((ks.map fun k => ProposalOrRef.proposal (.add k)).map ProposalOrRef.enc) with
  | ok y =>
    rw [hy] at h
    obtain ⟨b, h1, h2⟩ := hcat ks y hk hy
    exact ⟨b, h1, Nat.lt_of_le_of_lt h2 (writeOpaqueVec_bound h)⟩
  | err => rw [hy] at h; cases h
  | panic => rw [hy] at h; cases h
  | hang => rw [hy] at h; cases h

theorem prepared_encodes {sd : SuiteDesc} (hsd : suite cs = .ok sd) {ctx : GroupContext} {initSecret interim signKey : Bytes} {leaf : UInt32}
    {kps : List KeyPackage} {r : WelcomeRand} {d : Nat} {s : Ratchet ParentNode d} {p : Spec.Rfc.Prepared}
    (h : Spec.Rfc.prepared pr sd ctx initSecret interim signKey leaf kps r s = some p) {k : KeyPackage} (hk : k ∈ kps) :
    ∃ b, k.enc = .ok b ∧ b.length < 2 ^ 30 := by
  unfold Spec.Rfc.prepared at h
  simp only [Option.bind_eq_bind, Option.bind_eq_some_iff] at h
  obtain ⟨_, _, sig, h1, _⟩ := h
  obtain ⟨tbs, ht, _⟩ := (sign_rfc hsd lblFramedContentTBS_name (framedContentTBS_val _ _ _) _ _ _).2 h1
  have ht' : (addU16 1 ++ WireFormat.enc .privateMessage ++ (Spec.Rfc.framed ctx leaf
      (.commit { proposals := kps.map fun k => .proposal (.add k), path := none })).enc ++ ctx.enc : Enc) = .ok tbs := ht
  rw [Enc.append_ok_iff] at ht'
  obtain ⟨_, _, ht', _⟩ := ht'
  rw [Enc.append_ok_iff] at ht'
  obtain ⟨_, y, _, hy, _⟩ := ht'
  unfold FramedContent.enc at hy
  rw [Enc.append_ok_iff] at hy
  obtain ⟨_, z, _, hz, _⟩ := hy
  replace hz : Commit.enc { proposals := kps.map fun k => .proposal (.add k), path := none } = .ok z := hz
  unfold Commit.enc at hz
  rw [Enc.append_ok_iff] at hz
  obtain ⟨v, _, hv, _⟩ := hz
  exact keyPackage_in_commit hk hv

/-- The loop over the key packages panics at the first of a suite that does not exist. -/
theorem secretsLoop_panic {cs : UInt16} {sd : SuiteDesc} (hsd : suite cs = .ok sd) {gs : GroupSecrets} {e : Bytes} {r : Nat → Bytes} :
    ∀ (ks : List KeyPackage) (i : Nat), (∀ k ∈ ks, ∃ b, k.enc = .ok b ∧ b.length < 2 ^ 30) →
    (encryptSecretsLoop pr cs gs e r i ks).PanicIff (∃ pre k post l, ks = pre ++ k :: post ∧
      (¬ ∃ sk, (k.cipherSuite.toNat, sk) ∈ Spec.suites) ∧ encryptSecretsLoop pr cs gs e r i pre = .ok l) := by
  intro ks
  induction ks with
  | nil =>
    intro i _
    refine (Res.fine_ok _).panicIff ?_
    rintro ⟨pre, k, post, l, h, _⟩
    cases pre <;> cases h
  | cons k ks ih =>
    intro i h
    obtain ⟨b, hb, hbl⟩ := h k (List.mem_cons_self ..)
    obtain ⟨inp, hin⟩ : ∃ inp, encRefHashInput lblKeyPackageRef b = .ok inp := by
      unfold encRefHashInput
      rw [writeOpaqueVec_vec (by decide), writeOpaqueVec_vec hbl]
      exact ⟨_, rfl⟩
    rcases suite_ok_or_panic k.cipherSuite with hp | ⟨sk, hsk⟩
    · have : k.generateRef pr = .panic := by
        unfold KeyPackage.generateRef refHash
        rw [hb]
        simp only [Res.ok_bind]
        rw [hin, hp]
        rfl
      have hn : ¬ ∃ sk, (k.cipherSuite.toNat, sk) ∈ Spec.suites := by
        rintro ⟨sk, hsk⟩
        rw [(suite_iff_spec _ _).2 hsk] at hp
        cases hp
      unfold encryptSecretsLoop
      rw [this]
      exact ⟨⟨fun _ => ⟨[], k, ks, [], rfl, hn, rfl⟩, fun _ => rfl⟩, fun h => (by cases h)⟩
    · have href : k.generateRef pr = .ok (pr.hash sk.hash inp) := by
        unfold KeyPackage.generateRef refHash
        rw [hb]
        simp only [Res.ok_bind]
        rw [hin, hsk]
        rfl
      have hin' : ∃ sk, (k.cipherSuite.toNat, sk) ∈ Spec.suites := ⟨sk, (suite_iff_spec _ _).1 hsk⟩
      have hef : (gs.encrypt pr cs k.initKey e (r i)).Fine :=
        Res.Fine.bind (groupSecrets_enc_fine gs) fun _ _ => encryptWithLabel_fine hsd _ _ _ _ _
      have hrest := ih (i + 1) fun k' hk' => h k' (List.mem_cons_of_mem _ hk')
      rw [encryptSecretsLoop, href, Res.ok_bind]
      refine (hef.bindPanic fun ct _ => hrest.tail fun _ _ => Res.fine_ok _).congr ?_
      constructor
      · rintro ⟨ct, hct, pre, k', post, l, rfl, h1, h2⟩
        refine ⟨k :: pre, k', post, ⟨pr.hash sk.hash inp, ct⟩ :: l, rfl, h1, ?_⟩
        rw [encryptSecretsLoop, href, hct, Res.ok_bind, Res.ok_bind, h2]
        rfl
      · rintro ⟨pre, k', post, l, he, h1, h2⟩
        cases pre with
        | nil =>
          cases he
          exact absurd hin' h1
        | cons k'' pre =>
          cases he
          rw [encryptSecretsLoop, href, Res.ok_bind] at h2
          simp only [Res.bind_ok_iff] at h2
          obtain ⟨ct, h3, l', h4, _⟩ := h2
          exact ⟨ct, h3, pre, k', post, l', rfl, h1, h4⟩

theorem prepareWelcome_fine {g : Group} {sd : SuiteDesc} (hsd : suite g.groupContext.cipherSuite = .ok sd) {h : Heap} {t : RTree}
    (hsh : Spec.IsTree (derefTree h t)) (hkl : KnownLeaves t) {kps : List KeyPackage} (hk : ∀ k ∈ kps, k.leafNode.credential.Known)
    (r : WelcomeRand) : (prepareWelcome pr g h t kps r).Fine := by
  unfold prepareWelcome
  dsimp only
  refine (computeRootTreeHash_fine hsd hsh (hkl.deref h)).bind fun th _ => ?_
  rw [hsd]
  simp only [Res.ok_bind]
  have hcon : Content.Known (.commit { proposals := kps.map fun k => .proposal (.add k), path := none }) := by
    refine ⟨fun p hp => ?_, fun u hu => by cases hu⟩
    obtain ⟨k, hkm, rfl⟩ := List.mem_map.1 hp
    exact hk k hkm
  refine (extractPSKSecret_nil_fine hsd).bind fun psk _ => (signPrivateMessageContent_fine hsd hcon _ _ _).bind fun c hcc => ?_
  refine (confirmedTranscriptHash_fine hsd hcon _ _ _).bind fun cth _ => ?_
  generalize hctx : ({ g.groupContext with
    epoch := g.groupContext.epoch + 1, treeHash := th, confirmedTranscriptHash := cth } : GroupContext) = ctx
  have hcs : ctx.cipherSuite = g.groupContext.cipherSuite := by rw [← hctx]
  have hsc : suite ctx.cipherSuite = .ok sd := by rw [hcs]; exact hsd
  refine (extractJoinerSecret_fine hsc _ _).bind fun js _ => (extractEpochSecret_fine hsc _ _).bind fun es _ => ?_
  refine (signConfirmationTag_fine hsc _).bind fun tag _ => Res.Fine.bind (encTree_fine (hkl.deref h)) fun raw _ => ?_
  refine Res.Fine.bind (Res.Fine.bind (groupInfo_encTBS_fine _) fun _ _ => (signWithLabel_fine hsc _ _ _ _).bind fun _ _ => Res.fine_ok _) fun info hinfo => ?_
  have hics : info.groupContext.cipherSuite = g.groupContext.cipherSuite := by
    unfold GroupInfo.sign at hinfo
    simp only [Res.bind_ok_iff] at hinfo
    obtain ⟨_, _, _, _, hinfo⟩ := hinfo
    cases hinfo
    exact hcs
  have hsi : suite info.groupContext.cipherSuite = .ok sd := by rw [hics]; exact hsd
  exact Res.Fine.bind ((welcomeKeyAndNonce_fine hsi _ _).bind fun _ _ => Res.Fine.bind (groupInfo_enc_fine _) fun _ _ => aeadSeal_fine hsi _ _ _ _)
    fun _ _ => Res.fine_ok _

/-- **C111**, invitations: in every group in use, CreateWelcome for key packages with credentials of known types panics exactly if there is none,
or if the new tree has at most 2^31 leaves and Spec.InviteCrash holds; and it never returns exactly if the new tree has more leaves. When it returns
an invitation is said in C107_invitation. -/
theorem C111_invitation (hc : pr.Correct) {st : GroupState} (hr : Reachable pr st) :
    ∃ (sd : SuiteDesc) (d : Nat) (s : Ratchet ParentNode d), (st.group.groupContext.cipherSuite.toNat, sd) ∈ Spec.suites ∧
      st.vtree = s.flat .leaf .parent ∧ ∀ (kps : List KeyPackage) (r : WelcomeRand), (∀ k ∈ kps, ∀ ty, k.leafNode.credential ≠ .other ty) →
      ((createWelcome pr st kps r).1 = .panic ↔ kps = [] ∨ (Spec.withMembers s kps).1 ≤ 31 ∧
        Spec.InviteCrash pr sd st.group kps r (Spec.withMembers s kps).2) ∧
      ((createWelcome pr st kps r).1 = .hang ↔ 31 < (Spec.withMembers s kps).1) := by
  obtain ⟨sd, d0, s0, hsd, hd0, hs0, hlen, hin⟩ := reachable_shape hc hr
  have hi := hr.inv hc
  have hf := hr.fineInv hc
  refine ⟨sd, d0, s0, (suite_iff_spec _ _).1 hsd, hs0.flat, fun kps r hk => ?_⟩
  have hk' : ∀ k ∈ kps, k.leafNode.credential.Known := fun k h => known_of_ne (hk k h)
  by_cases hne : kps = []
  · subst hne
    refine ⟨⟨fun _ => .inl rfl, fun _ => rfl⟩, ⟨fun h => ?_, fun h => ?_⟩⟩
    · cases h
    · exact absurd h (Nat.not_lt.2 hd0)
  have hout := treeApply_outcome (s := some ⟨d0, s0⟩) hd0 hs0 (kps.map fun k => (Proposal.add k, st.group.myLeafIndex))
  simp only [applyProposals_adds, List.map_map, Function.comp_def] at hout
  have hap := treeApply_adds st.heap st.group.tree kps [st.group.myLeafIndex] (kps.map fun _ => st.group.myLeafIndex)
  unfold createWelcome
  rw [if_neg (by simpa using hne), hap]
  rcases hout with ⟨hsm, h', t', h2, h3⟩ | ⟨hsm, h2⟩
  · replace h2 : treeApply st.heap st.group.tree (kps.map .add) (kps.map fun _ => st.group.myLeafIndex) = .ok (h', t') := h2
    rw [h2] at hap
    rw [h2]
    dsimp only
    have hkl : KnownLeaves t' := hf.leaves.apply (fun p hp => by
      obtain ⟨k, hkm, rfl⟩ := List.mem_map.1 hp
      exact hk' k hkm) hap
    have hv : ValidTree h' t' := applyAdds_valid _ _ _ _ _ hi.tree (treeApply_added hap)
    have hsh := (Shaped.of hv hkl).isTree h'
    have hcon : Content.Known (.commit { proposals := kps.map fun k => .proposal (.add k), path := none }) := by
      refine ⟨fun p hp => ?_, fun u hu => by cases hu⟩
      obtain ⟨k, hkm, rfl⟩ := List.mem_map.1 hp
      exact hk' k hkm
    have hp : (finishWelcome pr st.group h' t' kps r).PanicIff (Spec.InviteCrash pr sd st.group kps r (Spec.withMembers s0 kps).2) := by
      rw [finishWelcome_prepare]
      refine ((prepareWelcome_fine hsd hsh hkl hk' r).bindPanic fun p hpp => (secretsLoop_panic hsd kps 0 fun k hkm =>
        prepared_encodes hsd ((prepareWelcome_iff hc hsd hsm h3).1 hpp) hkm).tail fun secrets _ =>
          (groupEncrypt_fine hc hi _ hcon _).bind fun _ _ => Res.fine_ok _).congr ?_
      constructor
      · rintro ⟨p, hpp, pre, k, post, l, h4, h5, h6⟩
        refine ⟨p, pre, k, post, (prepareWelcome_iff hc hsd hsm h3).1 hpp, h4, h5, ?_⟩
        by_cases hpre : pre = []
        · exact .inl hpre
        · obtain ⟨gb, cb, h7, h8⟩ := encryptSecretsLoop_encodes hpre h6
          exact .inr ⟨(gb, cb), l, sealedSecrets_iff.2 ⟨h7, h8⟩, (secretsFor_iff hsd h7 h8 _ _ _).1 h6⟩
      · rintro ⟨p, pre, k, post, hpp, h4, h5, h6⟩
        have hpp := (prepareWelcome_iff hc hsd hsm h3).2 hpp
        rcases h6 with rfl | ⟨⟨gb, cb⟩, l, h6, h7⟩
        · exact ⟨p, hpp, [], k, post, [], h4, h5, rfl⟩
        · obtain ⟨h8, h9⟩ := sealedSecrets_iff.1 h6
          exact ⟨p, hpp, pre, k, post, l, h4, h5, (secretsFor_iff hsd h8 h9 _ _ _).2 h7⟩
    replace hsm : (Spec.withMembers s0 kps).1 ≤ 31 := hsm
    exact ⟨hp.1.trans ⟨fun h => .inr ⟨hsm, h⟩, fun h => (h.resolve_left hne).2⟩, ⟨fun h => absurd h hp.2, fun h => absurd hsm (Nat.not_le.2 h)⟩⟩
  · replace h2 : treeApply st.heap st.group.tree (kps.map .add) (kps.map fun _ => st.group.myLeafIndex) = .hang := h2
    replace hsm : ¬ (Spec.withMembers s0 kps).1 ≤ 31 := hsm
    rw [h2]
    exact ⟨⟨fun h => (by cases h), fun h => absurd (h.resolve_left hne).1 hsm⟩, ⟨fun _ => Nat.not_le.1 hsm, fun _ => rfl⟩⟩

/-! ### Instances -/

/-- A key package of suite 1, and none of suite 0 or 8. -/
example : (generateKeyPairPackage toyPrims 1 (newBasicCredential [7]) exKeyRand).holds (fun kp =>
      decide (Spec.Rfc.keyPairPackage toyPrims 1 ⟨.sha256, .x25519, .sha256, .aes128gcm, .ed25519⟩ (.basic [7]) exKeyRand = some kp)) = true ∧
    generateKeyPairPackage toyPrims 0 (newBasicCredential [7]) exKeyRand = .panic ∧
    generateKeyPairPackage toyPrims 8 (newBasicCredential [7]) exKeyRand = .panic := by
  decide +kernel

/-- A group is made with a key package of suite 1, and not with one that claims suite 9. -/
example : (createGroup toyPrims [1] (toyMember 2) (fun _ => 0)).holds (fun _ => true) = true ∧
    (createGroup toyPrims [1] { toyMember 2 with pub := { (toyMember 2).pub with cipherSuite := 9 } } (fun _ => 0)).bind (fun _ => Res.ok ()) =
      .panic := by
  decide +kernel

/-- A key package of suite 9 makes CreateWelcome panic at the first place and at the second. -/
example : toyTwo.holds (fun (a, _) =>
    decide ((createWelcome toyPrims a [{ (toyMember 2).pub with cipherSuite := 9 }] default).1 = .panic) &&
    decide ((createWelcome toyPrims a [(toyMember 2).pub, { (toyMember 3).pub with cipherSuite := 9 }] default).1 = .panic) &&
    decide ((createWelcome toyPrims a [(toyMember 2).pub, (toyMember 3).pub] default).1 ≠ .panic)) = true := by
  decide +kernel

end Mls
