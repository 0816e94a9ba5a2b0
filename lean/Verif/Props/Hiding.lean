import Verif.Spec.Hiding
import Verif.Props.Nonces
/-
C82: what the messages of a group show to those outside.
-/
namespace Mls

variable {pr : Prims}

theorem writeOpaqueVec_length {b x : Bytes} (h : writeOpaqueVec b = .ok x) :
    x.length = Spec.lengthSize b.length + b.length ∧ b.length < 2 ^ 30 := by
  rw [writeOpaqueVec_spec] at h
  unfold Spec.opaqueVec Spec.varint at h
  unfold Spec.lengthSize
  split at h
  · next hl => simp at h; subst h; rw [if_pos (by omega)]; simp; omega
  · split at h
    · next hl1 hl => simp at h; subst h; rw [if_neg (by omega), if_pos (by omega)]; simp; omega
    · split at h
      · next hl1 hl2 hl => simp at h; subst h; rw [if_neg (by omega), if_neg (by omega)]; simp; omega
      · simp at h

theorem lengthSize_mono {m n : Nat} (h : Spec.lengthSize m + m = Spec.lengthSize n + n) : m = n := by
  unfold Spec.lengthSize at h
  split at h <;> split at h <;> (try split at h) <;> (try split at h) <;> omega

/-- Two private messages with the same header, sealed by ideal encryption, are equal when their encodings are equally long. -/
theorem sealed_eq (hi : Spec.Hiding pr) {cs : UInt16} {s s' : RatchetSecret} {sds sds' : Bytes} {f f' : FramedContent}
    {c c' : PrivateMessageContent} {sd sd' : SenderData} {m m' : PrivateMessage} {raw raw' : Bytes}
    (h : encryptPrivateMessage pr cs s sds f c sd = .ok m) (h' : encryptPrivateMessage pr cs s' sds' f' c' sd' = .ok m')
    (hg : f.groupID = f'.groupID) (he : f.epoch = f'.epoch) (ht : f.content.ty = f'.content.ty)
    (ha : f.authenticatedData = f'.authenticatedData)
    (hr : MlsMessage.enc ⟨1, .privateMessage m⟩ = .ok raw) (hr' : MlsMessage.enc ⟨1, .privateMessage m'⟩ = .ok raw')
    (hl : raw.length = raw'.length) : raw = raw' := by
  unfold encryptPrivateMessage encryptPrivateMessageContent encryptSenderData aeadSeal at h h'
  simp only [Res.bind_ok_iff] at h h'
  obtain ⟨ct, ⟨pt, hpt, kn, hkn, aad, haad, d, hd, hs⟩, es, ⟨k2, hk2, n2, hn2, aad2, haad2, sp, hsp, d2, hd2, hs2⟩, h⟩ := h
  obtain ⟨ct', ⟨pt', hpt', kn', hkn', aad', haad', d', hd', hs'⟩, es', ⟨k2', hk2', n2', hn2', aad2', haad2', sp', hsp', d2', hd2', hs2'⟩, h'⟩ := h'
  rw [hd] at hd2 hd' hd2'
  cases hd2; cases hd'; cases hd2'
  simp only [Res.pure_eq, Res.ok.injEq] at h h'
  rw [hg, he, ht, ha, haad'] at haad
  cases haad
  rw [hg, he, ht, haad2'] at haad2
  cases haad2
  rw [orErr_ok_iff] at hs
  rw [orErr_ok_iff] at hs'
  rw [orErr_ok_iff] at hs2
  rw [orErr_ok_iff] at hs2'
  have hsl : sp.length = sp'.length := by
    rw [senderData_enc] at hsp hsp'
    cases hsp; cases hsp'
    simp [Spec.senderData, Spec.be4, Bytes4.toBytes]
  have hes := hi.aead _ _ _ _ _ _ _ _ _ _ hs2 hs2' hsl
  subst hes
  subst h; subst h'
  unfold MlsMessage.enc PrivateMessage.enc at hr hr'
  simp only [Enc.append_assoc] at hr hr'
  rw [hg, he, ht, ha] at hr
  simp only [MessageBody.wireFormat, Enc.append_ok_iff] at hr hr'
  obtain ⟨x1, y1, a1, ⟨x2, y2, a2, ⟨x3, y3, a3, ⟨x4, y4, a4, ⟨x5, y5, a5, ⟨x6, y6, a6, ⟨x7, y7, a7, a8, rfl⟩, rfl⟩, rfl⟩, rfl⟩, rfl⟩, rfl⟩, rfl⟩ := hr
  obtain ⟨x1', y1', b1, ⟨x2', y2', b2, ⟨x3', y3', b3, ⟨x4', y4', b4, ⟨x5', y5', b5, ⟨x6', y6', b6, ⟨x7', y7', b7, b8, rfl⟩, rfl⟩, rfl⟩, rfl⟩, rfl⟩, rfl⟩, rfl⟩ := hr'
  rw [a1] at b1; cases b1
  rw [a2] at b2; cases b2
  rw [a3] at b3; cases b3
  rw [a4] at b4; cases b4
  rw [a5] at b5; cases b5
  rw [a6] at b6; cases b6
  rw [a7] at b7; cases b7
  simp only [List.length_append, Nat.add_left_cancel_iff] at hl
  rw [(writeOpaqueVec_length a8).1, (writeOpaqueVec_length b8).1] at hl
  have hcl := lengthSize_mono hl
  have e1 := hi.aead_length _ _ _ _ _ _ hs
  have e2 := hi.aead_length _ _ _ _ _ _ hs'
  have := hi.aead _ _ _ _ _ _ _ _ _ _ hs hs' (by omega)
  subst this
  rw [a8] at b8; cases b8
  rfl

theorem groupEncrypt_eq (hi : Spec.Hiding pr) {g g' : Group} {f f' : FramedContent} {c c' : PrivateMessageContent} {gd gd' : Bytes4}
    {raw raw' : Bytes} (h : g.encryptPrivateMessage pr f c gd = .ok raw) (h' : g'.encryptPrivateMessage pr f' c' gd' = .ok raw')
    (hs : g.groupContext.cipherSuite = g'.groupContext.cipherSuite) (hg : f.groupID = f'.groupID) (he : f.epoch = f'.epoch)
    (ht : f.content.ty = f'.content.ty) (ha : f.authenticatedData = f'.authenticatedData) (hl : raw.length = raw'.length) :
    raw = raw' := by
  unfold Group.encryptPrivateMessage at h h'
  simp only [Res.bind_ok_iff] at h h'
  obtain ⟨_, _, _, _, _, _, _, _, m, hm, hr⟩ := h
  obtain ⟨_, _, _, _, _, _, _, _, m', hm', hr'⟩ := h'
  rw [hs] at hm
  exact sealed_eq hi hm hm' hg he ht ha hr hr' hl

/-- C82: with ideal encryption, any two application messages, of any members with any keys and in any trees, on any data, are equal
byte for byte as soon as they are for the same group, suite and epoch and equally long: they show nothing else. -/
theorem C82_application (hi : Spec.Hiding pr) {st st' : GroupState} {data data' rand rand' raw raw' : Bytes} {guard guard' : Bytes4}
    (h : createApplicationMessage pr st data rand guard = .ok raw)
    (h' : createApplicationMessage pr st' data' rand' guard' = .ok raw')
    (hs : st.group.groupContext.cipherSuite = st'.group.groupContext.cipherSuite)
    (hg : st.group.groupContext.groupID = st'.group.groupContext.groupID)
    (he : st.group.groupContext.epoch = st'.group.groupContext.epoch) (hl : raw.length = raw'.length) : raw = raw' := by
  unfold createApplicationMessage at h h'
  simp only [Res.bind_ok_iff] at h h'
  obtain ⟨c, _, h⟩ := h
  obtain ⟨c', _, h'⟩ := h'
  exact groupEncrypt_eq hi h h' hs hg he rfl rfl hl

theorem expandWithLabel_length (hi : Spec.Hiding pr) {cs : UInt16} {s l c x : Bytes} {n : UInt16}
    (h : expandWithLabel pr cs s l c n = .ok x) : x.length = n.toNat := by
  unfold expandWithLabel at h
  simp only [Res.bind_ok_iff] at h
  obtain ⟨_, _, _, _, h⟩ := h
  split at h
  · cases h
  · cases h; exact hi.expand_length _ _ _ _ (by omega)

theorem groupSecrets_length {j j' x x' : Bytes} (hj : j.length = j'.length)
    (h : GroupSecrets.enc { joinerSecret := j, pathSecret := none, psks := [] } = .ok x)
    (h' : GroupSecrets.enc { joinerSecret := j', pathSecret := none, psks := [] } = .ok x') : x.length = x'.length := by
  unfold GroupSecrets.enc at h h'
  simp only [Enc.append_assoc, Enc.append_ok_iff] at h h'
  obtain ⟨a, b, h1, h2, rfl⟩ := h
  obtain ⟨a', b', h1', h2', rfl⟩ := h'
  rw [List.length_append, List.length_append, (writeOpaqueVec_length h1).1, (writeOpaqueVec_length h1').1, hj]
  have : b = b' := by
    obtain ⟨c, e, h3, h4, rfl⟩ := h2
    obtain ⟨c', e', h3', h4', rfl⟩ := h2'
    rw [h3] at h3'; cases h3'
    rw [h4] at h4'; cases h4'
    rfl
  rw [this]

theorem secretsLoop_eq (hi : Spec.Hiding pr) {cs : UInt16} {gs gs' : GroupSecrets} {e : Bytes} {rand : Nat → Bytes}
    (hgs : ∀ x x', gs.enc = .ok x → gs'.enc = .ok x' → x.length = x'.length) :
    ∀ (ks ks' : List KeyPackage) (i : Nat) {l l' : List EncryptedGroupSecrets},
    ks.map (fun k => (k.generateRef pr, k.initKey)) = ks'.map (fun k => (k.generateRef pr, k.initKey)) →
    encryptSecretsLoop pr cs gs e rand i ks = .ok l → encryptSecretsLoop pr cs gs' e rand i ks' = .ok l' → l = l' := by
  intro ks
  induction ks with
  | nil =>
    intro ks' i l l' hm h h'
    cases ks' with
    | nil => cases h; cases h'; rfl
    | cons k ks => cases hm
  | cons k ks ih =>
    intro ks' i l l' hm h h'
    cases ks' with
    | nil => cases hm
    | cons k' ks' =>
      simp only [List.map_cons, List.cons.injEq, Prod.mk.injEq] at hm
      obtain ⟨⟨hm1, hm2⟩, hm3⟩ := hm
      unfold encryptSecretsLoop GroupSecrets.encrypt encryptWithLabel at h h'
      simp only [Res.bind_ok_iff, orErr_ok_iff] at h h'
      obtain ⟨ref, hr, ct, ⟨raw, hraw, ctx, hctx, d, hd, out, hout, hct⟩, rest, hrest, hl⟩ := h
      obtain ⟨ref', hr', ct', ⟨raw', hraw', ctx', hctx', d', hd', out', hout', hct'⟩, rest', hrest', hl'⟩ := h'
      rw [hm1, hr'] at hr; cases hr
      rw [hctx] at hctx'; cases hctx'
      rw [hd] at hd'; cases hd'
      rw [hm2] at hout
      obtain rfl := hi.hpke _ _ _ _ _ _ _ _ hout hout' (hgs _ _ hraw hraw')
      obtain rfl := ih ks' (i + 1) hm3 hrest hrest'
      rw [Res.pure_eq, Res.ok.injEq] at hct hct'
      obtain rfl := hct.symm.trans hct'
      rw [Res.pure_eq, Res.ok.injEq] at hl hl'
      exact hl.symm.trans hl'

/-- C82: with ideal encryption, any two invitations, of any members into any trees, are equal byte for byte, welcome and commit, as soon as
they are for the same group, suite and epoch, the key packages have the same references and init keys, the same randomness is used
for HPKE, and the encrypted group infos and the messages are equally long. -/
theorem C82_invite (hi : Spec.Hiding pr) {st st' : GroupState} {kps kps' : List KeyPackage} {r r' : WelcomeRand} {w w' : Welcome}
    {raw raw' : Bytes} (h : (createWelcome pr st kps r).1 = .ok (w, raw)) (h' : (createWelcome pr st' kps' r').1 = .ok (w', raw'))
    (hs : st.group.groupContext.cipherSuite = st'.group.groupContext.cipherSuite)
    (hg : st.group.groupContext.groupID = st'.group.groupContext.groupID)
    (he : st.group.groupContext.epoch = st'.group.groupContext.epoch)
    (hk : kps.map (fun k => (k.generateRef pr, k.initKey)) = kps'.map (fun k => (k.generateRef pr, k.initKey)))
    (hr : r.hpke = r'.hpke) (hl : raw.length = raw'.length)
    (hl2 : w.encryptedGroupInfo.length = w'.encryptedGroupInfo.length) : w = w' ∧ raw = raw' := by
  unfold createWelcome at h h'
  split at h
  · cases h
  split at h' <;> try cases h'
  split at h <;> try cases h
  split at h' <;> try cases h'
  unfold finishWelcome at h h'
  simp only [Res.bind_ok_iff] at h h'
  obtain ⟨_, _, d, hd, psk, hpsk, c, hcon, _, _, js, hjs, _, _, tag, _, tree, _, info, hinfo, egi, hegi, secs, hsecs, msg, henc, h⟩ := h
  obtain ⟨_, _, d', hd', psk', hpsk', c', hcon', _, _, js', hjs', _, _, tag', _, tree', _, info', hinfo', egi', hegi', secs', hsecs', msg', henc', h'⟩ := h'
  simp only [Res.pure_eq, Res.ok.injEq, Prod.mk.injEq] at h h'
  obtain ⟨rfl, rfl⟩ := h
  obtain ⟨rfl, rfl⟩ := h'
  dsimp only at hl2
  have hmsg := groupEncrypt_eq hi henc henc' hs hg he rfl rfl hl
  refine ⟨?_, hmsg⟩
  have hegi_eq : egi = egi' := by
    unfold GroupInfo.sign at hinfo hinfo'
    simp only [Res.bind_ok_iff, Res.pure_eq, Res.ok.injEq] at hinfo hinfo'
    obtain ⟨_, _, _, _, rfl⟩ := hinfo
    obtain ⟨_, _, _, _, rfl⟩ := hinfo'
    unfold GroupInfo.encrypt aeadSeal at hegi hegi'
    simp only [Res.bind_ok_iff, orErr_ok_iff] at hegi hegi'
    obtain ⟨kn, _, ri, _, sd, hsd, hseal⟩ := hegi
    obtain ⟨kn', _, ri', _, sd', hsd', hseal'⟩ := hegi'
    rw [hs, hsd'] at hsd
    cases hsd
    have e1 := hi.aead_length _ _ _ _ _ _ hseal
    have e2 := hi.aead_length _ _ _ _ _ _ hseal'
    exact hi.aead _ _ _ _ _ _ _ _ _ _ hseal hseal' (by omega)
  subst hegi_eq
  rw [hs, hr] at hsecs
  have hsec : secs = secs' := by
    refine secretsLoop_eq hi ?_ kps kps' 0 hk hsecs hsecs'
    intro x x' hx hx'
    refine groupSecrets_length ?_ hx hx'
    unfold GroupContext.extractJoinerSecret at hjs hjs'
    simp only [Res.bind_ok_iff] at hjs hjs'
    obtain ⟨d1, hd1, _, _, e1⟩ := hjs
    obtain ⟨d2, hd2, _, _, e2⟩ := hjs'
    rw [hs, hd2] at hd1
    cases hd1
    rw [expandWithLabel_length hi e1, expandWithLabel_length hi e2]
  rw [hsec, hs]

/-! ### Example -/

/-- Toy primitives with ideal encryption. -/
def hidingPrims : Prims :=
  { toyPrims with
    aeadSeal := fun a k _ p _ => if k.length = a.keySize then some (List.replicate (p.length + 16) 0) else none
    aeadOpen := fun _ _ _ _ _ => none
    hpkeSeal := fun _ pub _ p _ => some (pub, List.replicate p.length 0)
    hpkeOpen := fun _ _ _ _ _ => none }

theorem hidingPrims_hiding : Spec.Hiding hidingPrims where
  aead_length a k n p aad c h := by
    simp only [hidingPrims] at h
    split at h
    · cases h; simp
    · cases h
  aead a k n p aad c k' n' p' c' h h' hl := by
    simp only [hidingPrims] at h h'
    split at h
    · split at h'
      · cases h; cases h'; rw [hl]
      · cases h'
    · cases h
  hpke s pub info p rand c p' c' h h' hl := by
    simp only [hidingPrims, Option.some.injEq] at h h'
    subst h; subst h'; rw [hl]
  expand_length a k i n _ := by simp [hidingPrims, toyPrims]

def hidingState (name key : UInt8) : Res GroupState := do
  let kp ← generateKeyPairPackage hidingPrims 1 (.basic [name])
    { init := [key], enc := [key], sig := [key], leafSign := [], pkgSign := [], now1 := toyNow, now2 := toyNow }
  createGroup hidingPrims [7] kp fun _ => key

/-- Two groups with the same identifier and different members and secrets: messages of the same length on different data, and
invitations of the same person, are the same. -/
example : ∃ (st st' : GroupState) (raw raw' : Bytes) (o o' : Welcome × Bytes), st.group.epochSecret ≠ st'.group.epochSecret ∧
    createApplicationMessage hidingPrims st [1] [] ⟨1, 2, 3, 4⟩ = .ok raw ∧
    createApplicationMessage hidingPrims st' [2] [] ⟨4, 3, 2, 1⟩ = .ok raw' ∧ raw.length = raw'.length ∧
    (createWelcome hidingPrims st [toyKeyPackage 2] default).1 = .ok o ∧
    (createWelcome hidingPrims st' [toyKeyPackage 2] default).1 = .ok o' ∧ o.2.length = o'.2.length ∧
    o.1.encryptedGroupInfo.length = o'.1.encryptedGroupInfo.length := by
  have key : Res.holds (hidingState 1 1) (fun st => Res.holds (hidingState 2 3) fun st' =>
      Res.holds (createApplicationMessage hidingPrims st [1] [] ⟨1, 2, 3, 4⟩) fun a =>
      Res.holds (createApplicationMessage hidingPrims st' [2] [] ⟨4, 3, 2, 1⟩) fun b =>
      Res.holds (createWelcome hidingPrims st [toyKeyPackage 2] default).1 fun o =>
      Res.holds (createWelcome hidingPrims st' [toyKeyPackage 2] default).1 fun o' =>
      decide (st.group.epochSecret ≠ st'.group.epochSecret) && decide (a.length = b.length) && decide (o.2.length = o'.2.length) &&
        decide (o.1.encryptedGroupInfo.length = o'.1.encryptedGroupInfo.length)) = true := by decide +kernel
  obtain ⟨st, _, key⟩ := Res.holds_ok key
  obtain ⟨st', _, key⟩ := Res.holds_ok key
  obtain ⟨a, ha, key⟩ := Res.holds_ok key
  obtain ⟨b, hb, key⟩ := Res.holds_ok key
  obtain ⟨o, ho, key⟩ := Res.holds_ok key
  obtain ⟨o', ho', key⟩ := Res.holds_ok key
  simp only [Bool.and_eq_true, decide_eq_true_eq] at key
  exact ⟨st, st', a, b, o, o', key.1.1.1, ha, hb, key.1.1.2, ho, ho', key.1.2, key.2⟩

end Mls
