import Verif.Props.Hiding
import Verif.Props.Invitation
import Verif.Props.Joinable
/-
C95: the Bytes methods of key packages and welcomes, which panic on what cannot be encoded.
-/
namespace Mls

variable {pr : Prims}

/-- HPKE of the usual size: the encapsulated key is no longer than the public key, and the ciphertext at most 16 bytes longer
than the plaintext. Proved of the real primitives: Conformance.realHpke_length. -/
def Spec.SlimHpke (pr : Prims) : Prop := ∀ d pk info pt r kem ct, pr.hpkeSeal d pk info pt r = some (kem, ct) →
  kem.length ≤ pk.length ∧ ct.length ≤ pt.length + 16

theorem keyPackage_bytes_enc {k : KeyPackage} {b : Bytes} (h : k.enc = .ok b) : ∃ raw, k.bytes = .ok raw := by
  have : MlsMessage.enc ⟨1, .keyPackage k⟩ = .ok ([0, 1] ++ [0, 5] ++ b) := by
    unfold MlsMessage.enc
    simp only [MessageBody.wireFormat, Enc.append_ok_iff]
    exact ⟨_, _, ⟨_, _, rfl, rfl, rfl⟩, h, rfl⟩
  exact ⟨_, keyPackage_bytes_iff.2 this⟩

/-- **C95**, for key packages that were read: Bytes returns. -/
theorem C95_keyPackage (raw : Bytes) (k : KeyPackage) (h : unmarshalKeyPackage raw = .ok k) : ∃ raw', k.bytes = .ok raw' := by
  rcases (C05_partial raw k h).2 with h | ⟨_, body, _, h, _⟩ <;> exact ⟨_, h⟩

/-- **C95**, for welcomes that were read: Bytes returns. -/
theorem C95_welcome (raw : Bytes) (w : Welcome) (h : unmarshalWelcome raw = .ok w) : ∃ raw', w.bytes = .ok raw' :=
  ⟨raw, C07_canonical raw w h⟩

/-- **C95**, for key packages that were made: Bytes returns, exactly when the signatures are shorter than 2^30 bytes,
as all are. -/
theorem C95_generated (cs : UInt16) (cred : Credential) (r : KeyPackageRand) (kp : KeyPairPackage)
    (h : generateKeyPairPackage pr cs cred r = .ok kp) :
    (∃ raw, kp.pub.bytes = .ok raw) ↔ kp.pub.signature.length < 2 ^ 30 := by
  obtain ⟨d, leaf, k, hd, h1, h2, rfl⟩ := generate_split h
  obtain ⟨tbs, sig, hk1, hk2, rfl⟩ := pkgSign_split h2
  constructor
  · rintro ⟨raw, hr⟩
    rw [keyPackage_bytes_iff] at hr
    unfold MlsMessage.enc KeyPackage.enc at hr
    simp only [Enc.append_ok_iff] at hr
    obtain ⟨_, _, _, ⟨_, _, _, hs, _⟩, _⟩ := hr
    exact writeOpaqueVec_bound hs
  · intro hl
    refine keyPackage_bytes_enc (b := tbs ++ Spec.vec sig) ?_
    unfold KeyPackage.enc
    exact Enc.append_ok_iff.2 ⟨_, _, hk1, writeOpaqueVec_vec hl, rfl⟩

theorem lengthSize_le {m n : Nat} (h : m ≤ n) : Spec.lengthSize m ≤ Spec.lengthSize n := by
  unfold Spec.lengthSize
  split <;> split <;> (try split) <;> (try split) <;> omega

theorem lengthSize_pos (n : Nat) : 1 ≤ Spec.lengthSize n := by
  unfold Spec.lengthSize
  split <;> (try split) <;> omega

theorem lengthSize_small {n : Nat} (h : n < 2 ^ 14) : Spec.lengthSize n ≤ 2 := by
  unfold Spec.lengthSize
  split <;> omega

theorem writeOpaqueVec_pos {b x : Bytes} (h : writeOpaqueVec b = .ok x) : b.length + 1 ≤ x.length := by
  have := (writeOpaqueVec_length h).1
  have := lengthSize_pos b.length
  omega

theorem writeVector_pos {α : Type} {f : α → Enc} {l : List α} {x : Bytes} (h : writeVector f l = .ok x) : 1 ≤ x.length := by
  unfold writeVector at h
  split at h
  · have := writeOpaqueVec_pos h; omega
  all_goals cases h

/-- The encoding of a key package has room for its keys and signatures. -/
theorem keyPackage_enc_length {k : KeyPackage} {b : Bytes} (h : k.enc = .ok b) :
    Spec.lengthSize k.initKey.length + k.initKey.length + (k.leafNode.encryptionKey.length + k.leafNode.signatureKey.length +
      k.leafNode.signature.length + k.signature.length) + 19 ≤ b.length := by
  unfold KeyPackage.enc KeyPackage.encTBS LeafNode.enc LeafNode.encBase Capabilities.enc encExtensions at h
  simp only [Enc.append_ok_iff] at h
  obtain ⟨_, _, ⟨_, _, ⟨_, _, ⟨_, _, ⟨a1, a2, h1, h2, rfl⟩, h3, rfl⟩, ⟨_, _, ⟨_, _, ⟨_, _, ⟨_, _, ⟨_, _, ⟨_, _, h4, h5, rfl⟩, h6, rfl⟩,
    ⟨_, _, ⟨_, _, ⟨_, _, ⟨_, _, h7, h8, rfl⟩, h9, rfl⟩, h10, rfl⟩, h11, rfl⟩, rfl⟩, h12, rfl⟩, h13, rfl⟩, h14, rfl⟩, rfl⟩, h15, rfl⟩, h16, rfl⟩ := h
  have e1 : a1.length = 2 := by cases h1; rfl
  have e2 : a2.length = 2 := by cases h2; rfl
  have e3 := (writeOpaqueVec_length h3).1
  have e4 := writeOpaqueVec_pos h4
  have e5 := writeOpaqueVec_pos h5
  have e7 := writeVector_pos h7
  have e8 := writeVector_pos h8
  have e9 := writeVector_pos h9
  have e10 := writeVector_pos h10
  have e11 := writeVector_pos h11
  have e13 := writeVector_pos h13
  have e14 := writeOpaqueVec_pos h14
  have e15 := writeVector_pos h15
  have e16 := writeOpaqueVec_pos h16
  have e6 : ∀ x, k.leafNode.credential.enc = .ok x → 3 ≤ x.length := by
    intro x hx
    unfold Credential.enc at hx
    split at hx
    · simp only [Enc.append_ok_iff] at hx
      obtain ⟨u, v, hu, hv, rfl⟩ := hx
      have := writeOpaqueVec_pos hv
      have : u.length = 2 := by cases hu; rfl
      simp only [List.length_append]; omega
    · simp only [Enc.append_ok_iff] at hx
      obtain ⟨u, v, hu, hv, rfl⟩ := hx
      have := writeVector_pos hv
      have : u.length = 2 := by cases hu; rfl
      simp only [List.length_append]; omega
    · cases hx
  have e6 := e6 _ h6
  have e12 : ∀ x, k.leafNode.source.enc = .ok x → 1 ≤ x.length := by
    intro x hx
    unfold LeafNodeSource.enc at hx
    split at hx
    · simp only [Enc.append_ok_iff] at hx
      obtain ⟨u, v, hu, hv, rfl⟩ := hx
      have : u.length = 1 := by cases hu; rfl
      simp only [List.length_append]; omega
    · cases hx; decide
    · simp only [Enc.append_ok_iff] at hx
      obtain ⟨u, v, hu, hv, rfl⟩ := hx
      have : u.length = 1 := by cases hu; rfl
      simp only [List.length_append]; omega
  have e12 := e12 _ h12
  simp only [List.length_append]
  omega

/-- The entry of a welcome is no longer than the proposal that adds the same key package. -/
theorem entry_fits (hc : pr.Correct) (hz : Spec.SlimHpke pr) {cs : UInt16} {k : KeyPackage} {ref js egi rand : Bytes} {ct : HpkeCiphertext}
    (hjs : js.length ≤ 64) (hk : 130 ≤ k.leafNode.encryptionKey.length + k.leafNode.signatureKey.length +
      k.leafNode.signature.length + k.signature.length) (hr : k.generateRef pr = .ok ref)
    (he : GroupSecrets.encrypt pr cs ⟨js, none, []⟩ k.initKey egi rand = .ok ct) {b : Bytes}
    (hb : (ProposalOrRef.proposal (.add k)).enc = .ok b) :
    ∃ c, (EncryptedGroupSecrets.mk ref ct).enc = .ok c ∧ c.length ≤ b.length := by
  unfold ProposalOrRef.enc Proposal.enc at hb
  simp only [Enc.append_ok_iff] at hb
  obtain ⟨b1, _, hb1, ⟨b2, b3, hb2, hb3, rfl⟩, rfl⟩ := hb
  have l1 : b1.length = 1 := by cases hb1; rfl
  have l2 : b2.length = 2 := by cases hb2; rfl
  have l3 := keyPackage_enc_length hb3
  have hi : k.initKey.length < 2 ^ 30 := by
    unfold KeyPackage.enc KeyPackage.encTBS at hb3
    simp only [Enc.append_ok_iff] at hb3
    obtain ⟨_, _, ⟨_, _, ⟨_, _, ⟨_, _, _, h, _⟩, _⟩, _⟩, _⟩ := hb3
    exact writeOpaqueVec_bound h
  have hrl : ref.length ≤ 64 := by
    unfold KeyPackage.generateRef refHash at hr
    simp only [Res.bind_ok_iff, Res.pure_eq, Res.ok.injEq] at hr
    obtain ⟨_, _, _, _, d, _, rfl⟩ := hr
    rw [hc.hash_length]; cases d.hash <;> decide
  unfold GroupSecrets.encrypt GroupSecrets.enc encryptWithLabel at he
  simp only [Res.bind_ok_iff, Enc.append_ok_iff, orErr_ok_iff] at he
  obtain ⟨pt, ⟨_, p2, ⟨p1, p3, hp1, hp3, rfl⟩, hp2, rfl⟩, ec, _, d, _, ⟨kem, c⟩, hs, he⟩ := he
  cases he
  obtain ⟨lk, lc⟩ := hz _ _ _ _ _ _ _ hs
  have q1 := (writeOpaqueVec_length hp1).1
  have q2 : p2.length = 1 := by cases hp2; rfl
  have q3 : p3.length = 1 := by cases hp3; rfl
  have z1 := lengthSize_small (n := js.length) (by omega)
  have hcl : c.length ≤ 84 := by
    simp only [List.length_append] at lc
    omega
  have hek : writeOpaqueVec kem = .ok (Spec.vec kem) := writeOpaqueVec_vec (by omega)
  have hec : writeOpaqueVec c = .ok (Spec.vec c) := writeOpaqueVec_vec (by omega)
  have her : writeOpaqueVec ref = .ok (Spec.vec ref) := writeOpaqueVec_vec (by omega)
  refine ⟨Spec.vec ref ++ (Spec.vec kem ++ Spec.vec c), ?_, ?_⟩
  · unfold EncryptedGroupSecrets.enc HpkeCiphertext.enc
    simp only [Enc.append_ok_iff]
    exact ⟨_, _, her, ⟨_, _, hek, hec, rfl⟩, rfl⟩
  · have := (writeOpaqueVec_length hek).1
    have := (writeOpaqueVec_length hec).1
    have := (writeOpaqueVec_length her).1
    have := lengthSize_small (n := ref.length) (by omega)
    have := lengthSize_small (n := c.length) (by omega)
    have := lengthSize_le lk
    simp only [List.length_append]
    omega

theorem entries_fit (hc : pr.Correct) (hz : Spec.SlimHpke pr) {cs : UInt16} {js egi : Bytes} {rand : Nat → Bytes} (hjs : js.length ≤ 64) :
    ∀ (ks : List KeyPackage) (i : Nat) (l : List EncryptedGroupSecrets) (b : Bytes),
      (∀ k ∈ ks, 130 ≤ k.leafNode.encryptionKey.length + k.leafNode.signatureKey.length + k.leafNode.signature.length +
        k.signature.length) →
      encryptSecretsLoop pr cs ⟨js, none, []⟩ egi rand i ks = .ok l →
      Enc.concat ((ks.map fun k => ProposalOrRef.proposal (.add k)).map ProposalOrRef.enc) = .ok b →
      ∃ c, Enc.concat (l.map EncryptedGroupSecrets.enc) = .ok c ∧ c.length ≤ b.length := by
  intro ks
  induction ks with
  | nil =>
    intro i l b _ h _
    cases h
    exact ⟨[], rfl, Nat.zero_le _⟩
  | cons k ks ih =>
    intro i l b hk h hb
    simp only [encryptSecretsLoop, Res.bind_ok_iff] at h
    obtain ⟨ref, h1, ct, h2, rest, h3, h4⟩ := h
    cases h4
    simp only [List.map_cons, Enc.concat, Enc.append_ok_iff] at hb ⊢
    obtain ⟨b1, b2, hb1, hb2, rfl⟩ := hb
    obtain ⟨c1, hc1, l1⟩ := entry_fits hc hz hjs (hk k List.mem_cons_self) h1 h2 hb1
    obtain ⟨c2, hc2, l2⟩ := ih _ _ _ (fun k' hk' => hk k' (List.mem_cons_of_mem _ hk')) h3 hb2
    refine ⟨_, ⟨c1, c2, hc1, hc2, rfl⟩, ?_⟩
    simp only [List.length_append]
    omega

theorem encryptSecretsLoop_context {cs : UInt16} {gs : GroupSecrets} {egi : Bytes} {rand : Nat → Bytes} {ks : List KeyPackage}
    {i : Nat} {l : List EncryptedGroupSecrets} (hne : ks ≠ []) (h : encryptSecretsLoop pr cs gs egi rand i ks = .ok l) :
    egi.length < 2 ^ 30 := by
  cases ks with
  | nil => exact absurd rfl hne
  | cons k ks =>
    simp only [encryptSecretsLoop, Res.bind_ok_iff] at h
    obtain ⟨_, _, ct, h2, _⟩ := h
    unfold GroupSecrets.encrypt encryptWithLabel encEncryptContext at h2
    simp only [Res.bind_ok_iff, Enc.append_ok_iff] at h2
    obtain ⟨_, _, _, ⟨_, _, _, h, _⟩, _⟩ := h2
    exact writeOpaqueVec_bound h

/-- **C95**, for welcomes that were made: Bytes returns, for every group, every number of invited and all their key packages,
if the keys and signatures of each come to 130 bytes or more. Those of every suite do, as two NIST public keys have at least
130 bytes, and two public keys of Curve25519 with two signatures have 192. (Of each key package a commit has more to say than the
welcome, so that the limit of 2^30 bytes hits the commit first, for which CreateWelcome returns an error. CreateWelcome
does not look at the lengths of keys and signatures.) -/
theorem C95_created (hc : pr.Correct) (hz : Spec.SlimHpke pr) {st st1 : GroupState} {ks : List KeyPackage} {r : WelcomeRand}
    {w : Welcome} {raw : Bytes} (h : createWelcome pr st ks r = (.ok (w, raw), st1))
    (hk : ∀ k ∈ ks, 130 ≤ k.leafNode.encryptionKey.length + k.leafNode.signatureKey.length + k.leafNode.signature.length +
        k.signature.length) : ∃ raw', w.bytes = .ok raw' := by
  have hne := createWelcome_nonempty h
  obtain ⟨hp, t, sd, th, psk, sig, cth, js, es, tag, rawTree, isig, ctx, hrun, _⟩ := createWelcome_run h
  have hjs : js.length ≤ 64 := by
    have hj := hrun.joiner
    unfold GroupContext.extractJoinerSecret expandWithLabel at hj
    simp only [Res.bind_ok_iff] at hj
    obtain ⟨d, hd, _, _, _, _, d', hd', hj⟩ := hj
    rw [hd] at hd'
    cases hd'
    split at hj
    · cases hj
    · next hle =>
      cases hj
      rw [hc.expand_length _ _ _ _ (by omega), (suite_sizes hd).1]
      cases d.kdf <;> decide
  have hb : ∃ b b', Enc.concat ((ks.map fun k => ProposalOrRef.proposal (.add k)).map ProposalOrRef.enc) = .ok b ∧
      writeOpaqueVec b = .ok b' := by
    have hs := hrun.signed
    unfold signPrivateMessageContent signAuthenticatedContent encFramedContentTBS Group.framedContent FramedContent.enc Content.enc Commit.enc at hs
    simp only [Res.bind_ok_iff, Enc.append_ok_iff] at hs
    obtain ⟨_, ⟨_, ⟨_, _, ⟨_, _, _, ⟨_, _, _, ⟨_, _, hv, _⟩, _⟩, _⟩, _⟩, _⟩, _⟩ := hs
    unfold writeVector at hv
    split at hv
    · next b hb => exact ⟨b, _, hb, hv⟩
    all_goals cases hv
  obtain ⟨b, b', hb, hv⟩ := hb
  have hbl := writeOpaqueVec_bound hv
  obtain ⟨c, hcc, hcl⟩ := entries_fit hc hz hjs ks 0 _ b hk hrun.secrets hb
  have hegi := encryptSecretsLoop_context hne hrun.secrets
  have : MlsMessage.enc ⟨1, .welcome w⟩ = .ok ([0, 1] ++ [0, 3] ++ (beBytes 2 w.cipherSuite.toNat ++ Spec.vec c ++ Spec.vec w.encryptedGroupInfo)) := by
    unfold MlsMessage.enc Welcome.enc writeVector
    simp only [MessageBody.wireFormat, Enc.append_ok_iff]
    refine ⟨_, _, ⟨_, _, rfl, rfl, rfl⟩, ⟨_, _, ⟨_, _, rfl, ?_, rfl⟩, writeOpaqueVec_vec hegi, rfl⟩, rfl⟩
    rw [hcc]
    exact writeOpaqueVec_vec (by omega)
  exact ⟨_, (welcome_bytes_iff).2 this⟩

/-! ### Concrete cases -/

example : ∃ raw k, unmarshalKeyPackage raw = .ok k ∧ k.signature = [] ∧ ∃ raw', k.bytes = .ok raw' := by
  refine ⟨[0, 1, 0, 5, 0, 1, 0, 1, 0, 0, 0, 0, 1, 0, 0, 0, 0, 0, 0, 2, 0, 0, 0],
    ⟨1, 1, [], ⟨[], [], .basic [], ⟨[], [], [], [], []⟩, .update, [], []⟩, [], []⟩, by decide, rfl, ?_⟩
  exact C95_keyPackage [0, 1, 0, 5, 0, 1, 0, 1, 0, 0, 0, 0, 1, 0, 0, 0, 0, 0, 0, 2, 0, 0, 0] _ (by decide)

/-- The toy primitives with an HPKE that adds nothing to the message. -/
def slimPrims : Prims := { toyPrims with
  hpkeSeal := fun _ pub _ p _ => some (pub, p)
  hpkeOpen := fun _ priv _ kemOut ct => if kemOut = priv then some ct else none }

theorem slimPrims_correct : slimPrims.Correct := { toyPrims_correct with
  hpke_open_gen := fun s r info p rand kemOut ct h => by
    simp only [slimPrims, Option.some.injEq, Prod.mk.injEq] at h ⊢
    obtain ⟨rfl, rfl⟩ := h
    simp [toyPrims]
  hpke_open_derive := fun s r info p rand kemOut ct h => by
    simp only [slimPrims, Option.some.injEq, Prod.mk.injEq] at h ⊢
    obtain ⟨rfl, rfl⟩ := h
    simp [toyPrims] }

theorem slimPrims_slim : Spec.SlimHpke slimPrims := by
  intro d pk info pt r kem ct h
  simp only [slimPrims, Option.some.injEq, Prod.mk.injEq] at h
  obtain ⟨rfl, rfl⟩ := h
  exact ⟨Nat.le_refl _, by omega⟩

/-- The hypotheses of C95_created and C95_generated are met: the creator of a group invites two at once. -/
example : (Res.bind (createGroup slimPrims [7] (toyMember 0) fun _ => 0) fun a =>
    (createWelcome slimPrims a [(toyMember 1).pub, (toyMember 2).pub] default).1).holds (fun (w, _) =>
      [(toyMember 1).pub, (toyMember 2).pub].all (fun k => decide (130 ≤ k.leafNode.encryptionKey.length +
        k.leafNode.signatureKey.length + k.leafNode.signature.length + k.signature.length)) &&
      w.bytes.holds (fun raw => decide (unmarshalWelcome raw = .ok w)) && (toyMember 1).pub.bytes.holds fun _ => true) = true := by
  decide +kernel

end Mls
