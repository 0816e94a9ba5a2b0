import Verif.Props.Exact
import Verif.Props.PathSecret
import Verif.Props.Admission
import Verif.Props.Library
/-
C106: exactly which welcomes a key package can join with.
-/
namespace Mls

open Spec (Ratchet nodeAt)

variable {pr : Prims}

/-! ### Specification -/

/-- RFC 9420 section 8: the welcome secret, with no pre-shared keys. -/
def Spec.welcomeSecret (pr : Prims) (sd : SuiteDesc) (joinerSecret : Bytes) : Bytes :=
  Spec.deriveSecret pr sd (pr.extract sd.kdf (List.replicate sd.kdf.size 0) joinerSecret) "welcome"

/-- The path secret `ps` that a member at leaf `i` sends to a joiner at leaf `r` of the tree `t` fits: from where the two leaves meet, up to
the root, no node is blank; the lowest has the public key of the path secret and the others that of the next path secret. Node `j` levels
above leaf `r` is `idx j (r / 2 ^ j)`. -/
def Spec.SecretFits (pr : Prims) (sd : SuiteDesc) (t : VTree) (d i r : Nat) (ps : Bytes) : Prop :=
  sd.kem.seedSize = sd.kdf.size ∧ ∃ m, m ≤ d ∧ i / 2 ^ m = r / 2 ^ m ∧ (∀ m' < m, i / 2 ^ m' ≠ r / 2 ^ m') ∧
    ∀ j, m ≤ j → j ≤ d → ∃ q, nodeAt t (idx j (r / 2 ^ j)) = some q ∧
      q.encryptionKey = (Spec.nodeKeys pr sd (Spec.pathSecret pr sd ps (if j = m then 0 else 1))).1

/-- What makes the holder of the key package `kp` join with the welcome `w` at the time `now`. The witnesses: `ref` is the reference of the key
package and `entry` the first entry of the welcome for it; `gs` the group secrets in the entry and `info` the group info; `t` is the tree in
the group info, of depth `d`; `signer` the leaf node of who signed it, `own` that of the joiner, at leaf `li`; `raw` the encoding of the group
context. -/
structure Spec.WelcomeOk (pr : Prims) (w : Welcome) (kp : KeyPairPackage) (now : GoTime) (sk sd : SuiteDesc) (ref : Bytes)
    (entry : EncryptedGroupSecrets) (gs : GroupSecrets) (info : GroupInfo) (t : VTree) (d : Nat) (s : Ratchet ParentNode d)
    (signer own : LeafNode) (li : Nat) (raw : Bytes) : Prop where
  packageSuite : (kp.pub.cipherSuite.toNat, sk) ∈ Spec.suites
  suite : (w.cipherSuite.toNat, sd) ∈ Spec.suites
  reference : Spec.Rfc.refHash pr sk "MLS 1.0 KeyPackage Reference" (Spec.Rfc.keyPackage kp.pub) = some ref
  addressed : w.secrets.find? (fun e => e.newMember == ref) = some entry
  size : w.encryptedGroupInfo.length < 2 ^ 30
  secrets : ∃ b, pr.hpkeOpen sd kp.priv.initKey (Spec.encryptContext "Welcome" w.encryptedGroupInfo)
    entry.encryptedGroupSecrets.kemOutput entry.encryptedGroupSecrets.ciphertext = some b ∧ unmarshal GroupSecrets.dec b = .ok gs
  psks : gs.psks = []
  opened : ∃ b, pr.aeadOpen sd.aead
    (Spec.expandWithLabel pr sd (Spec.welcomeSecret pr sd gs.joinerSecret) "key" [] sd.aead.keySize)
    (Spec.expandWithLabel pr sd (Spec.welcomeSecret pr sd gs.joinerSecret) "nonce" [] sd.aead.nonceSize)
    w.encryptedGroupInfo [] = some b ∧ unmarshal GroupInfo.dec b = .ok info
  tree : ∃ e, info.extensions.find? (fun e => e.ty == 2) = some e ∧ unmarshal decTree e.data = .ok t
  sender : t[2 * (info.signer.toNat % 2 ^ 31)]? = some (some (.leaf signer))
  signed : ∃ tbs, (Spec.Rfc.groupInfoTBS info).bytes = some tbs ∧
    Spec.ValidSig pr info.groupContext.cipherSuite signer.signatureKey "GroupInfoTBS" tbs info.signature
  sameSuite : info.groupContext.cipherSuite = w.cipherSuite
  context : (Spec.Rfc.groupContext info.groupContext).bytes = some raw
  contextSize : raw.length < 2 ^ 30
  confirmed : info.confirmationTag = Spec.confirmationTag pr sd
    (Spec.epochSecret pr sd gs.joinerSecret (List.replicate sd.kdf.size 0) raw) info.groupContext.confirmedTranscriptHash
  tagSize : info.confirmationTag.length < 2 ^ 30
  depth : d ≤ 30
  valid : Spec.TreeValid pr (pr.hash sd.hash) info.groupContext now t s
  inside : li < 2 ^ d
  member : nodeAt t (2 * li) = some (.leaf own)
  key : own.encryptionKey = kp.pub.leafNode.encryptionKey
  same : ∃ b, (Spec.Rfc.leafNode own).bytes = some b ∧ (Spec.Rfc.leafNode kp.pub.leafNode).bytes = some b
  pathSecret : ∀ ps, gs.pathSecret = some ps → Spec.SecretFits pr sd t d (info.signer.toNat % 2 ^ 31) li ps

/-! ### The steps -/

theorem info_verifySignature_iff {i : GroupInfo} {key : Bytes} : i.verifySignature pr key = .ok true ↔
    ∃ tbs, (Spec.Rfc.groupInfoTBS i).bytes = some tbs ∧ Spec.ValidSig pr i.groupContext.cipherSuite key "GroupInfoTBS" tbs i.signature := by
  unfold GroupInfo.verifySignature
  rw [orFalse_ok_true]
  simp only [verifyWithLabel_iff (name := "GroupInfoTBS") (label := lblGroupInfoTBS) (by decide) (by decide), infoTBS_some]

theorem welcomeKeyAndNonce_eq {cs : UInt16} {sd : SuiteDesc} (hsd : suite cs = .ok sd) (js : Bytes) :
    welcomeKeyAndNonce pr cs js (List.replicate sd.kdf.size 0) =
      .ok (Spec.expandWithLabel pr sd (Spec.welcomeSecret pr sd js) "key" [] sd.aead.keySize,
        Spec.expandWithLabel pr sd (Spec.welcomeSecret pr sd js) "nonce" [] sd.aead.nonceSize) := by
  have h32 : 32 ≤ sd.kdf.size := by cases sd.kdf <;> decide
  have hkey : (UInt16.ofNat sd.aead.keySize).toNat = sd.aead.keySize := by cases sd.aead <;> rfl
  have hnonce : (UInt16.ofNat sd.aead.nonceSize).toNat = sd.aead.nonceSize := by cases sd.aead <;> rfl
  have hkey' : sd.aead.keySize ≤ 32 := by cases sd.aead <;> decide
  have hnonce' : sd.aead.nonceSize ≤ 32 := by cases sd.aead <;> decide
  unfold welcomeKeyAndNonce extractWelcomeSecret
  simp only [hsd, Res.ok_bind, Option.getD_some, deriveSecret_eq hsd _ (label := lblWelcomeSecret) (name := "welcome") (by decide) (by decide)]
  rw [expandWithLabel_eq hsd _ [] (label := lblNonce) (name := "nonce") (by decide) (by decide) (by decide) _ (by rw [hnonce]; omega),
    expandWithLabel_eq hsd _ [] (label := lblKey) (name := "key") (by decide) (by decide) (by decide) _ (by rw [hkey]; omega),
    hkey, hnonce]
  rfl

theorem decryptGroupInfo_iff {w : Welcome} {sd : SuiteDesc} (hsd : suite w.cipherSuite = .ok sd) {js : Bytes} {info : GroupInfo} :
    w.decryptGroupInfo pr js (List.replicate sd.kdf.size 0) = .ok info ↔ ∃ b, pr.aeadOpen sd.aead
      (Spec.expandWithLabel pr sd (Spec.welcomeSecret pr sd js) "key" [] sd.aead.keySize)
      (Spec.expandWithLabel pr sd (Spec.welcomeSecret pr sd js) "nonce" [] sd.aead.nonceSize)
      w.encryptedGroupInfo [] = some b ∧ unmarshal GroupInfo.dec b = .ok info := by
  unfold Welcome.decryptGroupInfo
  simp only [welcomeKeyAndNonce_eq hsd, Res.ok_bind, Res.bind_ok_iff, aeadOpen_ok_iff hsd]

theorem encryptContext_iff {label : Bytes} {name : String} (hl : lblPrefix ++ label = Spec.ascii ("MLS 1.0 " ++ name))
    (hs : (lblPrefix ++ label).length < 2 ^ 30) {ctx b : Bytes} :
    encEncryptContext label ctx = .ok b ↔ ctx.length < 2 ^ 30 ∧ b = Spec.encryptContext name ctx := by
  unfold encEncryptContext Spec.encryptContext
  rw [Enc.append_ok_iff]
  constructor
  · rintro ⟨x, y, h1, h2, rfl⟩
    have b1 := writeOpaqueVec_bound h1
    have b2 := writeOpaqueVec_bound h2
    rw [writeOpaqueVec_vec b1] at h1
    rw [writeOpaqueVec_vec b2] at h2
    cases h1; cases h2
    exact ⟨b2, by rw [hl]⟩
  · rintro ⟨h1, rfl⟩
    exact ⟨_, _, writeOpaqueVec_vec hs, writeOpaqueVec_vec h1, by rw [hl]⟩

theorem decryptGroupSecrets_iff {w : Welcome} {sd : SuiteDesc} (hsd : suite w.cipherSuite = .ok sd) {ref k : Bytes} {gs : GroupSecrets} :
    w.decryptGroupSecrets pr ref k = .ok gs ↔ w.encryptedGroupInfo.length < 2 ^ 30 ∧
      ∃ entry, w.secrets.find? (fun e => e.newMember == ref) = some entry ∧
      ∃ b, pr.hpkeOpen sd k (Spec.encryptContext "Welcome" w.encryptedGroupInfo)
        entry.encryptedGroupSecrets.kemOutput entry.encryptedGroupSecrets.ciphertext = some b ∧ unmarshal GroupSecrets.dec b = .ok gs := by
  unfold Welcome.decryptGroupSecrets Welcome.findSecret decryptWithLabel
  simp only [hsd, Res.ok_bind, Res.bind_ok_iff, orErr_ok_iff,
    encryptContext_iff (label := lblWelcome) (name := "Welcome") (by decide) (by decide)]
  constructor
  · rintro ⟨entry, h1, b, ⟨c, ⟨h2, rfl⟩, h3⟩, h4⟩
    exact ⟨h2, entry, h1, b, h3, h4⟩
  · rintro ⟨h2, entry, h1, b, h3, h4⟩
    exact ⟨entry, h1, b, ⟨_, ⟨h2, rfl⟩, h3⟩, h4⟩

theorem epoch_iff {ctx : GroupContext} {sd : SuiteDesc} (hsd : suite ctx.cipherSuite = .ok sd) {j p x : Bytes} :
    ctx.extractEpochSecret pr j (some p) = .ok x ↔
      ∃ raw, (Spec.Rfc.groupContext ctx).bytes = some raw ∧ raw.length < 2 ^ 30 ∧ x = Spec.epochSecret pr sd j p raw := by
  constructor
  · intro h
    obtain ⟨raw, h1, h2⟩ := epoch_ok hsd h
    refine ⟨raw, context_some.2 h1, ?_, h2⟩
    unfold GroupContext.extractEpochSecret at h
    rw [hsd, h1] at h
    simp only [Res.ok_bind] at h
    unfold expandWithLabel at h
    simp only [Res.bind_ok_iff] at h
    obtain ⟨y, hy, _⟩ := h
    unfold encKdfLabel at hy
    simp only [Enc.append_ok_iff] at hy
    obtain ⟨_, _, _, h2, _⟩ := hy
    exact writeOpaqueVec_bound h2
  · rintro ⟨raw, h1, h2, rfl⟩
    obtain ⟨x, hx⟩ := epoch_of (pr := pr) hsd j p (context_some.1 h1) h2
    obtain ⟨raw', h3, h4⟩ := epoch_ok hsd hx
    rw [context_some.1 h1] at h3
    cases h3
    rw [hx, h4]

theorem confirmationTag_iff {i : GroupInfo} {sd : SuiteDesc} (hsd : suite i.groupContext.cipherSuite = .ok sd) {j p : Bytes} :
    i.verifyConfirmationTag pr j p = .ok true ↔ ∃ raw, (Spec.Rfc.groupContext i.groupContext).bytes = some raw ∧ raw.length < 2 ^ 30 ∧
      i.confirmationTag = Spec.confirmationTag pr sd (Spec.epochSecret pr sd j p raw) i.groupContext.confirmedTranscriptHash := by
  constructor
  · intro h
    obtain ⟨d, es, h1, h2, h3⟩ := verifyConfirmationTag_true h
    rw [hsd] at h1
    cases h1
    obtain ⟨raw, h4, h5, rfl⟩ := (epoch_iff hsd).1 h2
    exact ⟨raw, h4, h5, h3⟩
  · rintro ⟨raw, h1, h2, h3⟩
    have he := (epoch_iff (pr := pr) hsd (j := j) (p := p)).2 ⟨raw, h1, h2, rfl⟩
    unfold GroupInfo.verifyConfirmationTag
    simp only [orFalse_ok_true]
    refine ⟨_, he, _, deriveSecret_eq hsd _ lblConfirm_name (by decide), ?_⟩
    unfold verifyMAC signMAC
    rw [hsd]
    simp [Res.ok_bind, h3, Spec.confirmationTag]

/-- The search for the leaf of the joiner, where encryption keys are distinct. -/
theorem findLeaf_iff {t : VTree} {d : Nat} {s : Ratchet ParentNode d} (hd : d ≤ 31) (ht : t = s.flat .leaf .parent) {n : LeafNode}
    (hu : ∀ x y a b, x ≠ y → nodeAt t x = some a → nodeAt t y = some b → Spec.keyOf a ≠ Spec.keyOf b) {i : Nat} :
    ∀ (k li : Nat), li + k = 2 ^ d → (findLeafLoop t n k li = .ok (some i) ↔ li ≤ i ∧ i < 2 ^ d ∧
      ∃ own, nodeAt t (2 * i) = some (.leaf own) ∧ own.encryptionKey = n.encryptionKey ∧
        ∃ b, (Spec.Rfc.leafNode own).bytes = some b ∧ (Spec.Rfc.leafNode n).bytes = some b) := by
  intro k
  induction k with
  | zero =>
    intro li h
    simp only [findLeafLoop, Res.ok.injEq, reduceCtorEq, false_iff]
    rintro ⟨h1, h2, _⟩
    omega
  | succ k ih =>
    intro li h
    obtain ⟨o, g1, g2, _⟩ := getLeaf_at hd ht (i := li) (by omega)
    unfold findLeafLoop
    rw [g1, Res.ok_bind]
    have hnext : (nodeAt t (2 * li) = none ∨ ∃ l, nodeAt t (2 * li) = some (.leaf l) ∧ l.encryptionKey ≠ n.encryptionKey) →
        (findLeafLoop t n k (li + 1) = .ok (some i) ↔ li ≤ i ∧ i < 2 ^ d ∧
      ∃ own, nodeAt t (2 * i) = some (.leaf own) ∧ own.encryptionKey = n.encryptionKey ∧
        ∃ b, (Spec.Rfc.leafNode own).bytes = some b ∧ (Spec.Rfc.leafNode n).bytes = some b) := by
      intro hne
      rw [ih (li + 1) (by omega)]
      constructor
      · rintro ⟨h1, h2⟩
        exact ⟨by omega, h2⟩
      · rintro ⟨h1, h2, own, h3, h4, h5⟩
        refine ⟨?_, h2, own, h3, h4, h5⟩
        rcases Nat.eq_or_lt_of_le h1 with rfl | hlt
        · rcases hne with hne | ⟨l, hne, hk⟩
          · rw [hne] at h3; cases h3
          · rw [hne] at h3
            cases h3
            exact absurd h4 hk
        · exact hlt
    cases o with
    | none => exact hnext (.inl (by simpa using g2))
    | some l =>
      replace g2 : nodeAt t (2 * li) = some (.leaf l) := by simpa using g2
      dsimp only
      by_cases hk : l.encryptionKey = n.encryptionKey
      · rw [if_neg (by simpa using hk)]
        have hhere : ∀ own, nodeAt t (2 * i) = some (.leaf own) → own.encryptionKey = n.encryptionKey → i = li := by
          intro own h1 h2
          by_contra hne
          refine hu (2 * i) (2 * li) _ _ (by omega) h1 g2 ?_
          show own.encryptionKey = l.encryptionKey
          rw [h2, hk]
        have hv1 := leafNode_val n
        have hv2 := leafNode_val l
        constructor
        · intro h'
          have hb : ∃ b, n.enc = .ok b ∧ l.enc = .ok b ∧ i = li := by
            split at h' <;> try cases h'
            next b1 b2 e1 e2 =>
            by_cases he : b1 = b2
            · subst he
              rw [if_pos rfl] at h'
              cases h'
              exact ⟨b1, e1, e2, rfl⟩
            · rw [if_neg he] at h'
              cases h'
          obtain ⟨b, e1, e2, rfl⟩ := hb
          refine ⟨Nat.le_refl _, by omega, l, g2, hk, b, ?_, ?_⟩
          · rw [← hv2]; exact Enc.val_ok_iff.1 e2
          · rw [← hv1]; exact Enc.val_ok_iff.1 e1
        · rintro ⟨_, _, own, h1, h2, b, h3, h4⟩
          obtain rfl := hhere own h1 h2
          rw [g2] at h1
          cases h1
          rw [← hv2] at h3
          rw [← hv1] at h4
          rw [Enc.val_ok_iff.2 h3, Enc.val_ok_iff.2 h4]
          simp
      · rw [if_pos (by simpa using hk)]
        exact hnext (.inr ⟨l, g2, hk⟩)

/-- The keys of the joiner. -/
theorem joinerPrivTree_iff (hc : pr.Correct) {cs : UInt16} {sd : SuiteDesc} (hsd : suite cs = .ok sd) {v : VTree} {d i r : Nat}
    (hd : d ≤ 31) (hl : v.length = 2 ^ (d + 1) - 1) (hi : i < 2 ^ d) (hr : r < 2 ^ d) {signer : UInt32} (hsg : signer.toNat % 2 ^ 31 = i)
    (ek : Bytes) (o : Option Bytes) :
    (∃ keys, joinerPrivTree pr cs v r signer ek o = .ok keys) ↔ ∀ ps, o = some ps → Spec.SecretFits pr sd v d i r ps := by
  have h31 : 2 ^ d ≤ 2 ^ 31 := Nat.pow_le_pow_right (by decide) hd
  have hr31 : r < 2 ^ 31 := by omega
  have hi31 : i < 2 ^ 31 := by omega
  have hlt : idx 0 r < (List.replicate v.length (none : Option Bytes)).length := by
    rw [idx_zero, List.length_replicate, hl, Nat.pow_succ]; omega
  cases o with
  | none =>
    unfold joinerPrivTree
    simp only [nodeOfLeaf_idx hr31, Res.setIdx_of_lt _ hlt, Res.ok_bind]
    exact ⟨fun _ ps h => (by cases h), fun _ => ⟨_, rfl⟩⟩
  | some ps =>
    obtain ⟨m, hmeet, hmin, hca⟩ := commonAncestor_leaves hr31 hi31
    have hmd : m ≤ d := hmin d (by rw [Nat.div_eq_of_lt hi, Nat.div_eq_of_lt hr])
    have hnl : nodeOfLeaf signer.toNat = idx 0 i := by rw [nodeOfLeaf_mod31, hsg, idx_zero]
    have hlt2 : idx m (r / 2 ^ m) < v.length := by
      rw [hl]
      exact idx_lt_tree hmd hr
    have hjoin : ∀ keys, joinerPrivTree pr cs v r signer ek (some ps) = .ok keys ↔
        ∃ priv, nodeKey v (idx m (r / 2 ^ m)) >>= nodePrivFromPathSecret pr cs ps = .ok priv ∧
          processPathSecretLoop pr cs v ps 64 (idx m (r / 2 ^ m))
            (((List.replicate v.length none).set (idx 0 r) (some ek)).set (idx m (r / 2 ^ m)) (some priv)) = .ok keys := by
      intro keys
      unfold joinerPrivTree processPathSecret
      simp only [hnl, nodeOfLeaf_idx hr31, hca, Res.setIdx_of_lt _ hlt, Res.ok_bind, Res.bind_ok_iff]
      constructor
      · rintro ⟨pub, h1, priv, h2, pt, h3, h4⟩
        rw [Res.setIdx_ok_iff] at h3
        obtain ⟨_, rfl⟩ := h3
        exact ⟨priv, ⟨pub, h1, h2⟩, h4⟩
      · rintro ⟨priv, ⟨pub, h1, h2⟩, h4⟩
        exact ⟨pub, h1, priv, h2, _, Res.setIdx_of_lt _ (by simpa using hlt2), h4⟩
    constructor
    · rintro ⟨keys, hk⟩ ps' hps
      cases hps
      obtain ⟨priv, hp, hlp⟩ := (hjoin keys).1 hk
      rw [Res.bind_ok_iff] at hp
      obtain ⟨pub, h1, h2⟩ := hp
      obtain ⟨n, hn, rfl⟩ := nodeKey_ok h1
      rw [nodePriv_iff hc hsd] at h2
      refine ⟨h2.1, m, hmd, hmeet.symm, fun m' hm' he => absurd (hmin m' he.symm) (by omega), fun j hj hjd => ?_⟩
      rcases Nat.eq_or_lt_of_le hj with rfl | hlt'
      · rw [if_pos rfl]
        exact ⟨n, hn, (congrArg Prod.fst h2.2).symm⟩
      · rw [if_neg (by omega)]
        obtain ⟨q, g1, g2, _⟩ := (processPathSecretLoop_exact hc hsd hd hr (numLeaves_pow hd hl) _ _ _ _ hmd hlp).1 j hlt' hjd
        exact ⟨q, g1, g2⟩
    · intro h
      obtain ⟨hs, m', hmd', hmeet', hmin', hq⟩ := h ps rfl
      obtain rfl : m' = m := by
        have h1 := hmin m' hmeet'.symm
        rcases Nat.lt_or_ge m m' with hlt' | hge
        · exact absurd hmeet.symm (hmin' m hlt')
        · omega
      obtain ⟨q, h1, h2⟩ := hq m' (Nat.le_refl _) hmd
      rw [if_pos rfl] at h2
      obtain ⟨keys, hk⟩ := processPathSecretLoop_of hc hsd hs hd hr hl 64 m'
        (((List.replicate v.length none).set (idx 0 r) (some ek)).set (idx m' (r / 2 ^ m')) (some (Spec.nodeKeys pr sd ps).2)) hmd (by omega)
        (by simp) (ps := ps) fun j hj hjd => by
          have := hq j (by omega) hjd
          rwa [if_neg (by omega)] at this
      refine ⟨keys, (hjoin keys).2 ⟨_, ?_, hk⟩⟩
      rw [nodeKey_of h1]
      exact nodePriv_of hc hsd hs h2

/-! ### C106 -/

/-- The state of the joiner. -/
theorem joined_of (hc : pr.Correct) {w : Welcome} {kp : KeyPairPackage} {now : GoTime} {sk sd : SuiteDesc} {ref : Bytes}
    {entry : EncryptedGroupSecrets} {gs : GroupSecrets} {info : GroupInfo} {t : VTree} {d : Nat} {s : Ratchet ParentNode d}
    {signer own : LeafNode} {li : Nat} {raw : Bytes} (g : Spec.WelcomeOk pr w kp now sk sd ref entry gs info t d s signer own li raw) :
    ∃ pt, joinerPrivTree pr info.groupContext.cipherSuite t li info.signer kp.priv.encryptionKey gs.pathSecret = .ok pt ∧
      groupFromWelcome pr w kp now = .ok {
        heap := (allocTree [] t).1
        group := {
          tree := (allocTree [] t).2
          groupContext := info.groupContext
          interimTranscriptHash := Spec.interimHash pr sd info.groupContext.confirmedTranscriptHash info.confirmationTag
          pskSecret := List.replicate sd.kdf.size 0
          epochSecret := Spec.epochSecret pr sd gs.joinerSecret (List.replicate sd.kdf.size 0) raw
          initSecret := Spec.deriveSecret pr sd (Spec.epochSecret pr sd gs.joinerSecret (List.replicate sd.kdf.size 0) raw) "init"
          myLeafIndex := UInt32.ofNat li
          privTree := pt
          signaturePriv := kp.priv.signatureKey
          pendingProposals := [] } } := by
  have hsk := (suite_iff_spec _ _).2 g.packageSuite
  have hsd := (suite_iff_spec _ _).2 g.suite
  have hsd' : suite info.groupContext.cipherSuite = .ok sd := by rw [g.sameSuite]; exact hsd
  have hd : d ≤ 31 := by have := g.depth; omega
  have hlen : t.length = 2 ^ (d + 1) - 1 := by rw [g.valid.array, flat_length]
  have h1 := ((C102_references hsk ref).1 kp.pub rfl).2 g.reference
  have h2 := (decryptGroupSecrets_iff hsd).2 ⟨g.size, entry, g.addressed, g.secrets⟩
  have h3 : extractPSKSecret pr w.cipherSuite gs.psks [] = .ok (List.replicate sd.kdf.size 0) := by
    rw [g.psks]; exact C38_none pr _ sd hsd
  have h4 := (decryptGroupInfo_iff hsd).2 g.opened
  obtain ⟨e, he, hdec⟩ := g.tree
  have h5 : findExtensionData info.extensions 2 = some e.data := by
    unfold findExtensionData
    rw [he]; rfl
  have h6 : getLeaf t info.signer.toNat = .ok (some signer) := by
    rw [getLeaf_ok_some_iff, nodeOfLeaf_mod31]; exact g.sender
  have h7 := info_verifySignature_iff.2 g.signed
  have h8 := (confirmationTag_iff (pr := pr) hsd' (j := gs.joinerSecret) (p := List.replicate sd.kdf.size 0)).2
    ⟨raw, g.context, g.contextSize, g.confirmed⟩
  have h9 := (C29_integrity hc hd hlen info.groupContext now).2 ⟨sd, hsd', s, g.valid⟩
  have h10 := (epoch_iff (pr := pr) hsd' (j := gs.joinerSecret) (p := List.replicate sd.kdf.size 0)).2
    ⟨raw, g.context, g.contextSize, rfl⟩
  have h11 := deriveSecret_eq (pr := pr) hsd' (Spec.epochSecret pr sd gs.joinerSecret (List.replicate sd.kdf.size 0) raw)
    (label := lblInit) (name := "init") lblInit_name (by decide)
  have h12 := nextInterim_of (pr := pr) hsd' info.groupContext.confirmedTranscriptHash g.tagSize
  have h13 : findLeaf t kp.pub.leafNode = .ok (some li) := by
    unfold findLeaf
    rw [numLeaves_pow hd hlen]
    exact (findLeaf_iff hd g.valid.array g.valid.encryptionKeys (2 ^ d) 0 (by omega)).2
      ⟨Nat.zero_le _, g.inside, own, g.member, g.key, g.same⟩
  have hsg : info.signer.toNat % 2 ^ 31 < 2 ^ d := by
    have := (List.getElem?_eq_some_iff.1 g.sender).1
    have hpd : 2 ^ (d + 1) = 2 * 2 ^ d := by rw [Nat.pow_succ]; omega
    omega
  obtain ⟨pt, h14⟩ := (joinerPrivTree_iff hc hsd' hd hlen hsg g.inside rfl kp.priv.encryptionKey gs.pathSecret).2 g.pathSecret
  unfold groupFromWelcome groupFromSecrets
  have hz : gs.verifySingleReinitOrBranchPSK = true := by
    unfold GroupSecrets.verifySingleReinitOrBranchPSK
    rw [g.psks]; rfl
  have hp0 : (gs.psks.length == 0) = true := by rw [g.psks]; rfl
  simp only [h1, h2, hz, hp0, h3, h4, h5, hdec, h6, h7, h8, g.sameSuite, h9, orErr, Option.none_or, Res.ok_bind, Res.guardErr_true,
    beq_self_eq_true]
  rw [g.sameSuite] at h11 h12 h14
  simp only [h10, h11, h12, h13, h14, Res.ok_bind]
  exact ⟨_, rfl, rfl⟩

/-- **C106**: the holder of a key package joins with a welcome exactly when it satisfies Spec.WelcomeOk. -/
theorem C106_joins (hc : pr.Correct) (w : Welcome) (kp : KeyPairPackage) (now : GoTime) :
    (∃ st, groupFromWelcome pr w kp now = .ok st) ↔
      ∃ (sk sd : SuiteDesc) (ref : Bytes) (entry : EncryptedGroupSecrets) (gs : GroupSecrets) (info : GroupInfo) (t : VTree) (d : Nat)
        (s : Ratchet ParentNode d) (signer own : LeafNode) (li : Nat) (raw : Bytes),
        Spec.WelcomeOk pr w kp now sk sd ref entry gs info t d s signer own li raw := by
  constructor
  · rintro ⟨st, h⟩
    unfold groupFromWelcome at h
    simp only [Res.bind_ok_iff] at h
    obtain ⟨ref, href, gs, hgs, _, _, _, hpsks, h⟩ := h
    rw [Res.guardErr_ok_iff, beq_iff_eq, List.length_eq_zero_iff] at hpsks
    obtain ⟨psk, info, rawTree, t, leaf, li, pt, hpsk, hinfo, hext, hdec, hget, hsig, htag, hsame, hint, hfind, hjoin, _, _, _, _, hep, _,
      hitm, _⟩ := groupFromSecrets_ok h
    have hsd : ∃ sd, suite w.cipherSuite = .ok sd := by
      unfold Welcome.decryptGroupInfo welcomeKeyAndNonce at hinfo
      simp only [Res.bind_ok_iff] at hinfo
      obtain ⟨_, ⟨sd, hsd, _⟩, _⟩ := hinfo
      exact ⟨sd, hsd⟩
    obtain ⟨sd, hsd⟩ := hsd
    have hsk : ∃ sk, suite kp.pub.cipherSuite = .ok sk := by
      unfold KeyPackage.generateRef refHash at href
      simp only [Res.bind_ok_iff] at href
      obtain ⟨_, _, _, _, sk, hsk, _⟩ := href
      exact ⟨sk, hsk⟩
    obtain ⟨sk, hsk⟩ := hsk
    rw [hpsks, C38_none pr _ sd hsd] at hpsk
    cases hpsk
    rw [decryptGroupInfo_iff hsd] at hinfo
    obtain ⟨hsize, entry, hentry, hopen⟩ := (decryptGroupSecrets_iff hsd).1 hgs
    have hsd' : suite info.groupContext.cipherSuite = .ok sd := by rw [hsame]; exact hsd
    obtain ⟨raw, hraw, hrs, hconf⟩ := (confirmationTag_iff hsd').1 htag
    obtain ⟨k, hk, hlen⟩ := C26_decoded_length hdec
    cases k with
    | zero =>
      have : t = [] := List.eq_nil_of_length_eq_zero (by simpa using hlen)
      subst this
      simp [getLeaf, Res.idx] at hget
    | succ d =>
      have hd : d ≤ 31 := by omega
      rw [C29_integrity hc hd hlen] at hint
      obtain ⟨sd', hsd'', s, hs⟩ := hint
      rw [hsd'] at hsd''
      cases hsd''
      rw [getLeaf_ok_some_iff, nodeOfLeaf_mod31] at hget
      have hpd : 2 ^ (d + 1) = 2 * 2 ^ d := by rw [Nat.pow_succ]; omega
      have hsg : info.signer.toNat % 2 ^ 31 < 2 ^ d := by
        have := (List.getElem?_eq_some_iff.1 hget).1
        omega
      unfold findLeaf at hfind
      rw [numLeaves_pow hd hlen, findLeaf_iff hd hs.array hs.encryptionKeys (2 ^ d) 0 (by omega)] at hfind
      obtain ⟨_, hli, own, hown, hkey, hsm⟩ := hfind
      rw [Option.none_or] at hext
      unfold findExtensionData at hext
      rw [Option.map_eq_some_iff] at hext
      obtain ⟨e, he, rfl⟩ := hext
      obtain ⟨_, _, htl, _⟩ := nextInterim_ok hitm
      exact ⟨sk, sd, ref, entry, gs, info, t, d, s, leaf, own, li, raw, (suite_iff_spec _ _).1 hsk, (suite_iff_spec _ _).1 hsd,
        ((C102_references hsk ref).1 kp.pub rfl).1 href, hentry, hsize, hopen, hpsks, hinfo, ⟨e, he, hdec⟩, hget,
        info_verifySignature_iff.1 hsig, hsame, hraw, hrs, hconf, htl, by omega, hs, hli, hown, hkey, hsm,
        (joinerPrivTree_iff hc hsd' hd hlen hsg hli rfl _ _).1 ⟨pt, hjoin⟩⟩
  · rintro ⟨sk, sd, ref, entry, gs, info, t, d, s, signer, own, li, raw, g⟩
    obtain ⟨pt, _, h⟩ := joined_of hc g
    exact ⟨_, h⟩

/-- There are such welcomes: one of this library, without a path secret, and one with a path secret. -/
theorem toyWelcome_ok : ∃ (w : Welcome) (kp : KeyPairPackage) (now : GoTime) (sk sd : SuiteDesc) (ref : Bytes) (entry : EncryptedGroupSecrets)
    (gs : GroupSecrets) (info : GroupInfo) (t : VTree) (d : Nat) (s : Ratchet ParentNode d) (signer own : LeafNode) (li : Nat) (raw : Bytes),
    Spec.WelcomeOk toyPrims w kp now sk sd ref entry gs info t d s signer own li raw ∧ w.secrets.length = 2 := by
  have key : (do
      let a ← toyCreated
      let (_, w) ← a.invite [1, 2]
      let b ← groupFromWelcome toyPrims w (toyMember 1) toyLater
      return (w, b)).holds (fun (w, b) => decide (w.secrets.length = 2) &&
        (groupFromWelcome toyPrims w (toyMember 1) toyLater).holds fun _ => true) = true := by decide +kernel
  obtain ⟨⟨w, b⟩, _, key⟩ := Res.holds_ok key
  rw [Bool.and_eq_true, decide_eq_true_eq] at key
  obtain ⟨st, hst, _⟩ := Res.holds_ok key.2
  obtain ⟨sk, sd, ref, entry, gs, info, t, d, s, signer, own, li, raw, h⟩ :=
    (C106_joins toyPrims_correct w (toyMember 1) toyLater).1 ⟨st, hst⟩
  exact ⟨w, _, _, sk, sd, ref, entry, gs, info, t, d, s, signer, own, li, raw, h, key.1⟩

/-- And there is one with a path secret; the holder of another key package is refused. -/
example : (toyInvitation [1, 2] [.remove 1, .add (toyMember 5).pub] 2 (List.replicate 32 9) 5).holds (fun (_, _, w) =>
    (groupFromWelcome toyPrims w (toyMember 5) toyLater).holds (fun b => (b.group.privTree.getD 1 none).isSome) &&
    decide (groupFromWelcome toyPrims w (toyMember 6) toyLater = .err)) = true := by decide +kernel

end Mls
