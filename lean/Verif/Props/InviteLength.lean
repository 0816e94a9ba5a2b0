import Verif.Props.Length
import Verif.Props.Success
import Verif.Proofs.Effort
/-
How long invitations are.
-/
namespace Mls

variable {pr : Prims}

namespace Spec

/-- The number of bytes of an encoding, if there is one. -/
def encodedSize (e : Res Bytes) : Nat := match e with | .ok b => b.length | _ => 0

/-- What a commit with nothing but Add proposals takes (RFC 9420 sections 6.3, 12.1.1 and 12.4): each of the proposals has one byte that says that it is one and two for its type. -/
def addCommitSize (groupID signature tag : Nat) (packages : List KeyPackage) : Nat :=
  43 + vecSize groupID + vecSize (vecSize (packages.map fun k => encodedSize k.enc + 3).sum + 1 + vecSize signature + vecSize tag + 16)

/-- HPKE adds a key that is no longer than the public key, and 16 bytes at most. -/
def SealsWithin (pr : Prims) : Prop := ∀ d pk info p r kem ct, pr.hpkeSeal d pk info p r = some (kem, ct) → kem.length ≤ pk.length ∧ ct.length ≤ p.length + 16

end Spec

theorem vec_size {b x : Bytes} (h : writeOpaqueVec b = .ok x) : x.length = Spec.vecSize b.length := (writeOpaqueVec_length h).1

theorem vecSize_le (n : Nat) : Spec.vecSize n ≤ n + 4 := by
  unfold Spec.vecSize Spec.lengthSize
  split
  · omega
  · split <;> omega

theorem le_vecSize (n : Nat) : n ≤ Spec.vecSize n := Nat.le_add_left ..

theorem vecSize_mono {m n : Nat} (h : m ≤ n) : Spec.vecSize m ≤ Spec.vecSize n := by
  unfold Spec.vecSize Spec.lengthSize
  split <;> split <;> (try split) <;> (try split) <;> omega

theorem writeVector_raw {α : Type} {f : α → Enc} {l : List α} {bs : Bytes} (h : writeVector f l = .ok bs) :
    ∃ raw, Enc.concat (l.map f) = .ok raw ∧ bs.length = Spec.vecSize raw.length := by
  unfold writeVector at h
  split at h
  · next raw hr => exact ⟨raw, hr, vec_size h⟩
  all_goals cases h

theorem adds_size : ∀ (kps : List KeyPackage) (raw : Bytes), Enc.concat ((kps.map fun k => ProposalOrRef.proposal (.add k)).map ProposalOrRef.enc) = .ok raw →
    raw.length = (kps.map fun k => Spec.encodedSize k.enc + 3).sum := by
  intro kps
  induction kps with
  | nil => intro raw h; cases h; rfl
  | cons k kps ih =>
    intro raw h
    simp only [List.map_cons, Enc.concat, ProposalOrRef.enc, Proposal.enc, Enc.append_assoc, Enc.append_ok_iff] at h
    obtain ⟨x1, _, h1, ⟨x2, _, h2, ⟨x3, x4, h3, h4, rfl⟩, rfl⟩, rfl⟩ := h
    cases h1
    cases h2
    rw [List.map_cons, List.sum_cons, ← ih x4 h4, h3]
    simp only [List.length_append, beBytes_length, Spec.encodedSize]
    omega

theorem groupEncrypt_length (ht : Spec.Tagged pr) {g : Group} {f : FramedContent} {c : PrivateMessageContent} {guard : Bytes4} {raw : Bytes}
    (ha : f.authenticatedData = []) (h : g.encryptPrivateMessage pr f c guard = .ok raw) :
    ∃ pt, c.enc = .ok pt ∧ raw.length = 43 + Spec.vecSize f.groupID.length + Spec.vecSize (pt.length + 16) := by
  unfold Group.encryptPrivateMessage Mls.encryptPrivateMessage encryptPrivateMessageContent encryptSenderData aeadSeal at h
  simp only [Res.bind_ok_iff, Res.pure_eq, Res.ok.injEq, orErr_ok_iff] at h
  obtain ⟨es, _, tree, _, rs, _, sds, _, m, ⟨ct, ⟨pt, hpt, kn, _, aad, _, d1, _, hct⟩, esd, ⟨k2, _, n2, _, aad2, _, sp, hsp, d2, _, hes⟩, rfl⟩, h⟩ := h
  refine ⟨pt, hpt, ?_⟩
  have hsl : sp.length = 12 := by
    rw [senderData_enc] at hsp
    cases hsp
    simp [Spec.senderData, Spec.be4, Bytes4.toBytes]
  have h1 := ht _ _ _ _ _ _ hct
  have h2 := ht _ _ _ _ _ _ hes
  unfold MlsMessage.enc PrivateMessage.enc at h
  simp only [Enc.append_assoc, MessageBody.wireFormat, Enc.append_ok_iff] at h
  obtain ⟨y1, _, a1, ⟨y2, _, a2, ⟨y3, _, a3, ⟨y4, _, a4, ⟨y5, _, a5, ⟨y6, _, a6, ⟨y7, y8, a7, a8, rfl⟩, rfl⟩, rfl⟩, rfl⟩, rfl⟩, rfl⟩, rfl⟩ := h
  have l5 : y5.length = 1 := by
    unfold ContentType.enc at a5
    split at a5 <;> cases a5 <;> rfl
  cases a1; cases a2; cases a4
  have e28 : Spec.vecSize 28 = 29 := rfl
  have e0 : Spec.vecSize 0 = 1 := rfl
  simp only [List.length_append, beBytes_length, l5, vec_size a3, vec_size a6, vec_size a7, vec_size a8, ha, h1, h2, hsl, List.length_nil, e28, e0]
  omega

theorem signed_auth {cs : UInt16} {key rand : Bytes} {f : FramedContent} {ctx : GroupContext} {c : PrivateMessageContent}
    (h : signPrivateMessageContent pr cs key f ctx rand = .ok c) :
    c.content = f.content ∧ ∃ d m, suite cs = .ok d ∧ pr.sign d.sig key m rand = some c.auth.signature := by
  unfold signPrivateMessageContent signAuthenticatedContent signWithLabel at h
  simp only [Res.bind_ok_iff, Res.pure_eq, Res.ok.injEq, orErr_ok_iff] at h
  obtain ⟨a, ⟨tbs, _, sig, ⟨sc, _, d, hd, hsig⟩, rfl⟩, rfl⟩ := h
  exact ⟨rfl, d, sc, hd, hsig⟩

theorem confirmationTag_size (hc : pr.Correct) {ctx : GroupContext} {s tag : Bytes} {d : SuiteDesc} (hd : suite ctx.cipherSuite = .ok d)
    (h : ctx.signConfirmationTag pr s = .ok tag) : tag.length = d.hash.size := by
  unfold GroupContext.signConfirmationTag signMAC at h
  simp only [Res.bind_ok_iff, Res.pure_eq, Res.ok.injEq, hd] at h
  obtain ⟨k, _, d', h1, rfl⟩ := h
  cases h1
  exact hc.mac_length ..

/-- **C128.** The length of the commit that CreateWelcome returns, from those of the group ID, of the key packages and of the signature: the size of the group is not among them. -/
theorem C128_commit (hc : pr.Correct) (ht : Spec.Tagged pr) {st : GroupState} {kps : List KeyPackage} {r : WelcomeRand} {w : Welcome} {raw : Bytes}
    (h : (createWelcome pr st kps r).1 = .ok (w, raw)) :
    ∃ d sig m, suite st.group.groupContext.cipherSuite = .ok d ∧ pr.sign d.sig st.group.signaturePriv m r.commitSign = some sig ∧
      raw.length = Spec.addCommitSize st.group.groupContext.groupID.length sig.length d.hash.size kps := by
  unfold createWelcome at h
  split at h
  · cases h
  split at h <;> try cases h
  unfold finishWelcome at h
  simp only [Res.bind_ok_iff] at h
  obtain ⟨th, hth, d, hd, psk, hpsk, c, hcon, cth, hcth, js, hjs, es, hes, tag, htag, tree, htree, info, hinfo, egi, hegi, secs, hsecs, msg, henc, h⟩ := h
  simp only [Res.pure_eq, Res.ok.injEq, Prod.mk.injEq] at h
  obtain ⟨_, rfl⟩ := h
  obtain ⟨hcc, d', m, hd', hsig⟩ := signed_auth hcon
  rw [hd] at hd'
  cases hd'
  refine ⟨d, _, m, hd, hsig, ?_⟩
  obtain ⟨pt, hpt, hl⟩ := groupEncrypt_length ht rfl henc
  rw [hl]
  unfold Spec.addCommitSize
  have hl2 : pt.length = Spec.vecSize (kps.map fun k => Spec.encodedSize k.enc + 3).sum + 1 + Spec.vecSize c.auth.signature.length + Spec.vecSize d.hash.size := by
    unfold PrivateMessageContent.enc at hpt
    simp only [hcc, Group.framedContent, Content.ty, Content.enc, AuthData.enc, if_true, Commit.enc, Enc.append_assoc, Enc.append_ok_iff] at hpt
    obtain ⟨x1, _, b1, ⟨x2, _, b2, ⟨x3, x4, b3, b4, rfl⟩, rfl⟩, rfl⟩ := hpt
    cases b2
    have htl : tag.length = d.hash.size := by
      refine confirmationTag_size hc ?_ htag
      exact hd
    obtain ⟨raw, hraw, hx1⟩ := writeVector_raw b1
    rw [← htl, ← adds_size kps raw hraw]
    simp only [List.length_append, hx1, vec_size b3, vec_size b4, beBytes_length]
    omega
  rw [hl2]
  rfl

/-- **C128.** So with signatures of one length, inviting the same people takes a commit of the same length in any two groups with IDs of one length, however many members they have. -/
theorem C128_flat (hc : pr.Correct) (ht : Spec.Tagged pr) {st st' : GroupState} {kps : List KeyPackage} {r r' : WelcomeRand} {w w' : Welcome} {raw raw' : Bytes} {d : SuiteDesc} {n : Nat}
    (hd : suite st.group.groupContext.cipherSuite = .ok d) (hd' : suite st'.group.groupContext.cipherSuite = .ok d)
    (hn : ∀ k m r sig, pr.sign d.sig k m r = some sig → sig.length = n)
    (hg : st.group.groupContext.groupID.length = st'.group.groupContext.groupID.length)
    (h : (createWelcome pr st kps r).1 = .ok (w, raw)) (h' : (createWelcome pr st' kps r').1 = .ok (w', raw')) : raw.length = raw'.length := by
  obtain ⟨d1, sig, m, hd1, hs, hl⟩ := C128_commit hc ht h
  obtain ⟨d2, sig', m', hd2, hs', hl'⟩ := C128_commit hc ht h'
  rw [hd] at hd1
  rw [hd'] at hd2
  cases hd1
  cases hd2
  rw [hl, hl', hg, hn _ _ _ _ hs, hn _ _ _ _ hs']

theorem joiner_size (hc : pr.Correct) {ctx : GroupContext} {i c js : Bytes} (h : ctx.extractJoinerSecret pr i c = .ok js) : js.length ≤ 64 := by
  unfold GroupContext.extractJoinerSecret expandWithLabel at h
  simp only [Res.bind_ok_iff] at h
  obtain ⟨d, hd, x, _, y, hy, d', hd', h⟩ := h
  rw [hd] at hd'
  cases hd'
  have e : d.nh.toNat = d.kdf.size := by
    unfold SuiteDesc.nh
    cases d.kdf <;> rfl
  have := hash_size_le d.kdf
  split at h
  · cases h
  · cases h
    rw [hc.expand_length _ _ _ _ (by omega)]
    omega

theorem ref_size (hc : pr.Correct) {k : KeyPackage} {ref : Bytes} (h : k.generateRef pr = .ok ref) : ref.length ≤ 64 := by
  unfold KeyPackage.generateRef refHash at h
  simp only [Res.bind_ok_iff, Res.pure_eq, Res.ok.injEq] at h
  obtain ⟨_, _, _, _, d, _, rfl⟩ := h
  rw [hc.hash_length]
  exact hash_size_le _

theorem secrets_size (hc : pr.Correct) (hs : Spec.SealsWithin pr) {cs : UInt16} {js egi : Bytes} (hj : js.length ≤ 64) {rand : Nat → Bytes} :
    ∀ (kps : List KeyPackage) (i : Nat) (l : List EncryptedGroupSecrets) (raw : Bytes),
    encryptSecretsLoop pr cs { joinerSecret := js, pathSecret := none, psks := [] } egi rand i kps = .ok l →
    Enc.concat (l.map EncryptedGroupSecrets.enc) = .ok raw → raw.length ≤ (kps.map fun k => k.initKey.length + 156).sum := by
  intro kps
  induction kps with
  | nil => intro i l raw h hr; cases h; cases hr; exact Nat.le_refl _
  | cons k kps ih =>
    intro i l raw h hr
    unfold encryptSecretsLoop GroupSecrets.encrypt encryptWithLabel at h
    simp only [Res.bind_ok_iff, orErr_ok_iff, Res.pure_eq, Res.ok.injEq] at h
    obtain ⟨ref, href, ct, ⟨pt, hpt, ctx, _, d, _, ⟨kem, c⟩, hout, rfl⟩, rest, hrest, rfl⟩ := h
    simp only [List.map_cons, Enc.concat, EncryptedGroupSecrets.enc, HpkeCiphertext.enc, Enc.append_assoc, Enc.append_ok_iff] at hr
    obtain ⟨x1, _, h1, ⟨x2, _, h2, ⟨x3, x4, h3, h4, rfl⟩, rfl⟩, rfl⟩ := hr
    have hk := hs _ _ _ _ _ _ _ hout
    have hptl : pt.length ≤ 68 := by
      unfold GroupSecrets.enc at hpt
      simp only [Enc.append_assoc, Enc.append_ok_iff] at hpt
      obtain ⟨y1, _, g1, ⟨y2, y3, g2, g3, rfl⟩, rfl⟩ := hpt
      cases g2
      obtain ⟨rw', hrw, g4⟩ := writeVector_raw g3
      cases hrw
      have e : Spec.vecSize 64 = 66 := rfl
      have e0 : Spec.vecSize 0 = 1 := rfl
      have := vecSize_mono hj
      simp only [List.length_append, vec_size g1, g4, beBytes_length, List.length_nil, e0]
      omega
    have b1 := vecSize_mono (ref_size hc href)
    have b2 := Nat.le_trans (vecSize_le kem.length) (Nat.add_le_add_right hk.1 4)
    have b3 := vecSize_mono (Nat.le_trans hk.2 (Nat.add_le_add_right hptl 16))
    have b4 := ih (i + 1) rest x4 hrest h4
    have e1 : Spec.vecSize 64 = 66 := rfl
    have e2 : Spec.vecSize (68 + 16) = 86 := rfl
    rw [List.map_cons, List.sum_cons]
    simp only [List.length_append, vec_size h1, vec_size h2, vec_size h3]
    omega

/-- **C128.** A welcome is at most 262 bytes longer than the encoded tree, the group ID, the extensions of the group and the signature, with 156 bytes and an init key for each who is invited. It is longer than the encoded tree. -/
theorem C128_welcome (hc : pr.Correct) (ht : Spec.Tagged pr) (hs : Spec.SealsWithin pr) {st : GroupState} {kps : List KeyPackage} {r : WelcomeRand} {w : Welcome} {raw bs : Bytes}
    (h : (createWelcome pr st kps r).1 = .ok (w, raw)) (hb : w.bytes = .ok bs) :
    ∃ h t tree ext d sig m, treeApply st.heap st.group.tree (kps.map .add) [st.group.myLeafIndex] = .ok (h, t) ∧ encTree (derefTree h t) = .ok tree ∧
      encExtensions st.group.groupContext.extensions = .ok ext ∧
      suite st.group.groupContext.cipherSuite = .ok d ∧ pr.sign d.sig st.group.signaturePriv m r.infoSign = some sig ∧
      tree.length < bs.length ∧ bs.length ≤ tree.length + st.group.groupContext.groupID.length + ext.length + sig.length + (kps.map fun k => k.initKey.length + 156).sum + 262 := by
  unfold createWelcome at h
  split at h
  · cases h
  split at h <;> try cases h
  next hp t hap =>
  unfold finishWelcome at h
  simp only [Res.bind_ok_iff] at h
  obtain ⟨th, hth, d, hd, psk, hpsk, c, hcon, cth, hcth, js, hjs, es, hes, tag, htag, tree, htree, info, hinfo, egi, hegi, secs, hsecs, msg, henc, h⟩ := h
  simp only [Res.pure_eq, Res.ok.injEq, Prod.mk.injEq] at h
  obtain ⟨rfl, _⟩ := h
  have htl : tag.length = d.hash.size := by
    refine confirmationTag_size hc ?_ htag
    exact hd
  have hthl : th.length ≤ 64 := by
    unfold computeRootTreeHash computeTreeHash at hth
    exact treeHashE_length hc (pc := ⟨0, 0, 0, 0, 0, 0, 0, 0, 0⟩) (by rw [computeTreeHashLoopE_result]; exact hth)
  have hcl : cth.length ≤ 64 := by
    unfold confirmedTranscriptHash at hcth
    simp only [Res.bind_ok_iff, Res.pure_eq, Res.ok.injEq] at hcth
    obtain ⟨_, _, d', _, rfl⟩ := hcth
    rw [hc.hash_length]
    exact hash_size_le _
  unfold GroupInfo.sign signWithLabel at hinfo
  simp only [Res.bind_ok_iff, Res.pure_eq, Res.ok.injEq, orErr_ok_iff] at hinfo
  obtain ⟨tbs, htbs, sig, ⟨sc, _, d', hd', hsig⟩, rfl⟩ := hinfo
  have hdd : d' = d := by
    have := hd'.symm.trans hd
    cases this
    rfl
  subst hdd
  unfold GroupInfo.encrypt aeadSeal at hegi
  simp only [Res.bind_ok_iff, orErr_ok_iff] at hegi
  obtain ⟨kn, _, gi, hgi, d2, _, hseal⟩ := hegi
  have hgl := ht _ _ _ _ _ _ hseal
  unfold GroupInfo.enc at hgi
  simp only [GroupInfo.encTBS, GroupContext.enc, Enc.append_assoc, Enc.append_ok_iff] at hgi
  obtain ⟨z1, _, a1, ⟨z2, _, a2, ⟨z3, _, a3, ⟨z4, _, a4, ⟨z5, _, a5, ⟨z6, _, a6, ⟨z7, _, a7, ⟨z8, _, a8, ⟨z9, _, a9, ⟨z10, z11, a10, a11, rfl⟩, rfl⟩, rfl⟩, rfl⟩, rfl⟩, rfl⟩, rfl⟩, rfl⟩, rfl⟩, rfl⟩ := hgi
  refine ⟨hp, t, tree, z7, d', sig, sc, hap, htree, a7, hd, hsig, ?_⟩
  have e8 : tree.length ≤ z8.length ∧ z8.length ≤ tree.length + 10 := by
    obtain ⟨x, hx, hl⟩ := writeVector_raw a8
    simp only [List.map_cons, List.map_nil, Enc.concat, Extension.enc, Enc.append_assoc, Enc.append_ok_iff] at hx
    obtain ⟨u1, _, f1, ⟨u2, u3, f2, f3, rfl⟩, rfl⟩ := hx
    cases f1
    cases f3
    have := vecSize_le tree.length
    have k1 := le_vecSize tree.length
    have k2 := le_vecSize (beBytes 2 (UInt16.toNat 2) ++ (u2 ++ [])).length
    have k3 := vecSize_le (beBytes 2 (UInt16.toNat 2) ++ (u2 ++ [])).length
    rw [hl]
    simp only [List.length_append, vec_size f2, beBytes_length, List.length_nil] at k2 k3 ⊢
    omega
  have e64 : Spec.vecSize 64 = 66 := rfl
  have e3 := vecSize_le st.group.groupContext.groupID.length
  have e5 := vecSize_mono hthl
  have e6 := vecSize_mono hcl
  have e9 := vecSize_mono (Nat.le_trans (Nat.le_of_eq htl) (hash_size_le _))
  have e11 := vecSize_le sig.length
  cases a1; cases a2; cases a4; cases a10
  simp only [List.length_append, vec_size a3, vec_size a5, vec_size a6, vec_size a9, vec_size a11, beBytes_length] at hgl
  unfold Welcome.bytes at hb
  split at hb <;> try cases hb
  next hb' =>
  simp only [MlsMessage.enc, MessageBody.wireFormat, Welcome.enc, Enc.append_assoc, Enc.append_ok_iff] at hb'
  obtain ⟨q1, _, b1, ⟨q2, _, b2, ⟨q3, _, b3, ⟨q4, q5, b4, b5, rfl⟩, rfl⟩, rfl⟩, rfl⟩ := hb'
  obtain ⟨sr, hsr, hsl⟩ := writeVector_raw b4
  have hss := secrets_size hc hs (joiner_size hc hjs) kps 0 secs sr hsecs hsr
  have g1 := vecSize_le sr.length
  have g2 := vecSize_le egi.length
  have g3 := le_vecSize egi.length
  cases b1; cases b2; cases b3
  simp only [List.length_append, hsl, vec_size b5, beBytes_length]
  omega

/-- **C128.** HPKE with the suites of the table adds no more than that. -/
theorem C128_real : Spec.SealsWithin Conformance.realPrims := fun _ _ _ _ _ _ _ h => Conformance.realHpke_length h

/-! ### Example -/

theorem fixedPrims_tagged : Spec.Tagged fixedPrims := by
  intro a k n p d c h
  simp only [fixedPrims, shortPrims] at h
  split at h
  · cases h
    simp
  · cases h

theorem fixedPrims_seals : Spec.SealsWithin fixedPrims := by
  intro d pk info p r kem ct h
  simp only [fixedPrims, Option.some.injEq, Prod.mk.injEq] at h
  obtain ⟨rfl, rfl⟩ := h
  simp

/-- A group of one, the same group after Bob has been invited, and the key package of Carol. -/
def growingGroup : Res (GroupState × GroupState × KeyPackage) := do
  let alice ← generateKeyPairPackage fixedPrims 2 (.basic [65]) exKeyRand
  let bob ← generateKeyPairPackage fixedPrims 2 (.basic [66]) { exKeyRand with init := [4, 1], enc := [5, 2], sig := [6, 3] }
  let carol ← generateKeyPairPackage fixedPrims 2 (.basic [67]) { exKeyRand with init := [7, 1], enc := [8, 2], sig := [9, 3] }
  let st ← createGroup fixedPrims [7] alice fun _ => 9
  let (_, raw) ← (createWelcome fixedPrims st [bob.pub] default).1
  let (res, st2) := unmarshalAndProcessMessage fixedPrims st raw ⟨62135596800 + 1790000100, 5⟩
  let _ ← res
  return (st, st2, carol.pub)

/-- Inviting Carol takes a commit of the same length in a group of one and in a group of two, and a longer welcome in the second. -/
example : growingGroup.holds (fun (st, st2, carol) =>
    (createWelcome fixedPrims st [carol] default).1.holds fun (w, raw) =>
    (createWelcome fixedPrims st2 [carol] default).1.holds fun (w2, raw2) =>
    w.bytes.holds fun bs => w2.bytes.holds fun bs2 =>
    decide (st.group.tree.length = 1) && decide (st2.group.tree.length = 3) && decide (raw.length = raw2.length) &&
      decide (raw.length = Spec.addCommitSize 1 1 32 [carol]) && decide (bs.length < bs2.length)) = true := by decide +kernel

end Mls
