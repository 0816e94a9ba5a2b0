import Verif.Props.Hiding
import Verif.Props.Real
import Verif.Props.JoinEffort
/-
How long application messages are, exactly.
-/
namespace Mls

variable {pr : Prims}

namespace Spec

/-- The AEADs of RFC 9180 append 16 bytes. -/
def Tagged (pr : Prims) : Prop := ∀ a k n p d c, pr.aeadSeal a k n p d = some c → c.length = p.length + 16

/-- The number of bytes that a vector of `n` bytes takes (RFC 9420 section 2.1.2). -/
def vecSize (n : Nat) : Nat := lengthSize n + n

/-- The number of bytes of an application message without authenticated data and without padding (RFC 9420 sections 6 and 6.3): version and wire format, group ID, epoch, content type, no authenticated data,
12 bytes of sender data with their tag, and the data and the signature with their tag. -/
def messageSize (groupID data signature : Nat) : Nat :=
  2 + 2 + vecSize groupID + 8 + 1 + vecSize 0 + vecSize (12 + 16) + vecSize (vecSize data + vecSize signature + 16)

end Spec

/-- **C127.** The length of an application message, from those of the group ID, of the data and of the signature. -/
theorem C127_length (ht : Spec.Tagged pr) {st : GroupState} {data rand raw : Bytes} {guard : Bytes4}
    (h : createApplicationMessage pr st data rand guard = .ok raw) :
    ∃ d sig m, suite st.group.groupContext.cipherSuite = .ok d ∧ pr.sign d.sig st.group.signaturePriv m rand = some sig ∧
      raw.length = Spec.messageSize st.group.groupContext.groupID.length data.length sig.length := by
  unfold createApplicationMessage signPrivateMessageContent signAuthenticatedContent signWithLabel Group.encryptPrivateMessage Mls.encryptPrivateMessage
    encryptPrivateMessageContent encryptSenderData aeadSeal at h
  simp only [Res.bind_ok_iff, Res.pure_eq, Res.ok.injEq, orErr_ok_iff] at h
  obtain ⟨c, ⟨a, ⟨tbs, _, sig, ⟨sc, _, d, hd, hsig⟩, rfl⟩, rfl⟩, es, _, tree, _, rs, _, sds, _, m, ⟨ct, ⟨pt, hpt, kn, _, aad, _, d1, _, hct⟩, esd, ⟨k2, _, n2, _, aad2, _, sp, hsp, d2, _, hes⟩, rfl⟩, h⟩ := h
  refine ⟨d, sig, sc, hd, hsig, ?_⟩
  have hsl : sp.length = 12 := by
    rw [senderData_enc] at hsp
    cases hsp
    simp [Spec.senderData, Spec.be4, Bytes4.toBytes]
  have h1 := ht _ _ _ _ _ _ hct
  have h2 := ht _ _ _ _ _ _ hes
  simp only [PrivateMessageContent.enc, Content.enc, AuthData.enc, Group.framedContent, Content.ty, Enc.append_ok_iff, reduceCtorEq, if_false] at hpt
  obtain ⟨x1, x2, hx1, hx2, rfl⟩ := hpt
  unfold MlsMessage.enc PrivateMessage.enc at h
  simp only [Enc.append_assoc, MessageBody.wireFormat, Group.framedContent, Content.ty, Enc.append_ok_iff] at h
  obtain ⟨y1, _, a1, ⟨y2, _, a2, ⟨y3, _, a3, ⟨y4, _, a4, ⟨y5, _, a5, ⟨y6, _, a6, ⟨y7, y8, a7, a8, rfl⟩, rfl⟩, rfl⟩, rfl⟩, rfl⟩, rfl⟩, rfl⟩ := h
  cases a1; cases a2; cases a4; cases a5
  unfold Spec.messageSize Spec.vecSize
  rw [← hsl, ← h2, ← (writeOpaqueVec_length hx1).1, ← (writeOpaqueVec_length hx2).1, ← List.length_append, ← h1]
  simp only [List.length_append, beBytes_length]
  rw [(writeOpaqueVec_length a3).1, (writeOpaqueVec_length a6).1, (writeOpaqueVec_length a7).1, (writeOpaqueVec_length a8).1]
  simp only [List.length_nil]
  omega

/-- **C127.** Signatures of one length `n`, as Ed25519 and Ed448 have them: the length of a message depends on those of the group ID and of the data alone, not on the size of the group, the epoch or the sender. -/
theorem C127_fixed (ht : Spec.Tagged pr) {st : GroupState} {data rand raw : Bytes} {guard : Bytes4} {d : SuiteDesc} {n : Nat}
    (hd : suite st.group.groupContext.cipherSuite = .ok d) (hn : ∀ k m r sig, pr.sign d.sig k m r = some sig → sig.length = n)
    (h : createApplicationMessage pr st data rand guard = .ok raw) :
    raw.length = Spec.messageSize st.group.groupContext.groupID.length data.length n := by
  obtain ⟨d', sig, m, hd', hs, hl⟩ := C127_length ht h
  rw [hd] at hd'
  cases hd'
  rw [hl, hn _ _ _ _ hs]

/-- **C127.** So whoever sees a message knows how long the data is, to the byte: two messages of such groups with IDs of one length are equally long exactly if their data are. -/
theorem C127_shows (ht : Spec.Tagged pr) {st st' : GroupState} {data data' rand rand' raw raw' : Bytes} {guard guard' : Bytes4} {d : SuiteDesc} {n : Nat}
    (hd : suite st.group.groupContext.cipherSuite = .ok d) (hd' : suite st'.group.groupContext.cipherSuite = .ok d)
    (hn : ∀ k m r sig, pr.sign d.sig k m r = some sig → sig.length = n)
    (hg : st.group.groupContext.groupID.length = st'.group.groupContext.groupID.length)
    (h : createApplicationMessage pr st data rand guard = .ok raw) (h' : createApplicationMessage pr st' data' rand' guard' = .ok raw') :
    raw.length = raw'.length ↔ data.length = data'.length := by
  rw [C127_fixed ht hd hn h, C127_fixed ht hd' hn h', hg]
  constructor
  · intro e
    unfold Spec.messageSize Spec.vecSize at e
    have := lengthSize_mono (Nat.add_left_cancel e)
    exact lengthSize_mono (by omega)
  · intro e
    rw [e]

/-- **C127.** A message is at most 75 bytes longer than group ID, data and signature together. -/
theorem C127_overhead (g n s : Nat) : g + n + s < Spec.messageSize g n s ∧ Spec.messageSize g n s ≤ g + n + s + 75 := by
  have hl : ∀ k, 1 ≤ Spec.lengthSize k ∧ Spec.lengthSize k ≤ 4 := by
    intro k
    unfold Spec.lengthSize
    split
    · omega
    · split <;> omega
  have h28 : Spec.lengthSize (12 + 16) = 1 := rfl
  have h0 : Spec.lengthSize 0 = 1 := rfl
  unfold Spec.messageSize Spec.vecSize
  have h1 := hl g
  have h2 := hl n
  have h3 := hl s
  have h4 := hl (Spec.lengthSize n + n + (Spec.lengthSize s + s) + 16)
  omega

/-- **C127.** The AEADs of the cipher suites append 16 bytes, and signatures of suites 1 and 3 have 64. -/
theorem C127_real : Spec.Tagged Conformance.realPrims ∧
    ∀ k m r sig, Conformance.realPrims.sign .ed25519 k m r = some sig → sig.length = 64 := by
  refine ⟨fun a k n p d c h => Conformance.aeadReal_length h, fun k m r sig h => ?_⟩
  change Conformance.ed25519Sign k m = some sig at h
  unfold Conformance.ed25519Sign at h
  split at h
  · cases h
  · simp only [Option.some.injEq] at h
    rw [← h, List.length_append, Conformance.natToLE_length]
    unfold Conformance.Edwards.enc
    rw [Conformance.natToLE_length]
    rfl

/-- Where application data come from: a private message that could be made out. -/
theorem heard_message {st st' : GroupState} {raw data : Bytes} {now : GoTime} (h : unmarshalAndProcessMessage pr st raw now = (.ok (some data), st')) :
    ∃ v m a, unmarshal MlsMessage.dec raw = .ok ⟨v, .privateMessage m⟩ ∧ decryptPrivateMessage pr st m = .ok a ∧ a.content.content = .application data := by
  unfold unmarshalAndProcessMessage at h
  cases hu : unmarshal MlsMessage.dec raw with
  | ok msg =>
    obtain ⟨v, body⟩ := msg
    rw [hu] at h
    have hdis : ∀ a e, dispatch pr st a now e = (.ok (some data), st') → e = true ∧ a.content.content = .application data := by
      intro a e h
      unfold dispatch at h
      cases hk : a.content.content with
      | application d =>
        rw [hk] at h
        cases e
        · cases h
        · cases h
          exact ⟨rfl, rfl⟩
      | proposal p =>
        rw [hk] at h
        dsimp only at h
        rcases hx : processProposal pr st a with ⟨_ | _ | _ | _, _⟩ <;> rw [hx] at h <;> cases h
      | commit c =>
        rw [hk] at h
        dsimp only at h
        rcases hx : processCommit pr st a [] [] now with ⟨_ | _ | _ | _, _⟩ <;> rw [hx] at h <;> cases h
    cases body with
    | privateMessage m =>
      dsimp only at h
      unfold processPrivateMessage at h
      cases hp : decryptPrivateMessage pr st m with
      | ok a => rw [hp] at h; exact ⟨v, m, a, rfl, hp, (hdis a true h).2⟩
      | _ => rw [hp] at h; cases h
    | publicMessage m =>
      dsimp only at h
      unfold processPublicMessage at h
      cases hp : verifyPublicMessage pr st m with
      | ok a => rw [hp] at h; cases (hdis a false h).1
      | _ => rw [hp] at h; cases h
    | _ => cases h
  | _ => rw [hu] at h; cases h

/-- **C127.** The other way round, for any message, of whoever and however padded: what a member is given is shorter than what came in. -/
theorem C127_receive (ho : Spec.OpensWithin pr) {st st' : GroupState} {raw data : Bytes} {now : GoTime}
    (h : unmarshalAndProcessMessage pr st raw now = (.ok (some data), st')) : data.length + 17 < raw.length := by
  obtain ⟨v, m, a, hu, hp, hd⟩ := heard_message h
  have h1 : m.ciphertext.length + 17 ≤ raw.length := by
    obtain ⟨bs, he, e⟩ := (message_dec (unmarshal_ok_iff.1 hu)).2 trivial
    rw [List.append_nil] at e
    subst e
    unfold MlsMessage.enc PrivateMessage.enc at he
    simp only [Enc.append_assoc, MessageBody.wireFormat, Enc.append_ok_iff] at he
    obtain ⟨y1, _, a1, ⟨y2, _, a2, ⟨y3, _, a3, ⟨y4, _, a4, ⟨y5, _, a5, ⟨y6, _, a6, ⟨y7, y8, a7, a8, rfl⟩, rfl⟩, rfl⟩, rfl⟩, rfl⟩, rfl⟩, rfl⟩ := he
    have l5 : y5.length = 1 := by
      unfold ContentType.enc at a5
      split at a5 <;> cases a5 <;> rfl
    have l3 := (opaqueVec_le a3).1
    have l6 := (opaqueVec_le a6).1
    have l7 := (opaqueVec_le a7).1
    have l8 := (opaqueVec_le a8).1
    cases a1; cases a2; cases a4
    simp only [List.length_append, beBytes_length, l5]
    omega
  unfold decryptPrivateMessage at hp
  simp only [Res.bind_ok_iff, Res.pure_eq, Res.ok.injEq] at hp
  obtain ⟨_, _, _, _, s, _, sd, _, es, _, tree, _, rs, _, rs', _, c, hcon, _, _, _, _, _, _, _, _, rfl⟩ := hp
  have hd : c.content = .application data := hd
  unfold PrivateMessage.decryptContent aeadOpen at hcon
  simp only [Res.bind_ok_iff, orErr_ok_iff] at hcon
  obtain ⟨kn, _, aad, _, pt, ⟨d, _, hop⟩, hdec⟩ := hcon
  have h2 := ho _ _ _ _ _ _ hop
  obtain ⟨bs, k, hb, e, _⟩ := C61_accepted _ _ _ hdec (by rw [hd]; trivial)
  unfold PrivateMessageContent.enc at hb
  simp only [hd, Content.enc, Enc.append_ok_iff] at hb
  obtain ⟨x1, x2, g1, _, rfl⟩ := hb
  have h3 := (opaqueVec_le g1).1
  rw [e, List.length_append, List.length_append] at h2
  omega

/-- The toy primitives of C82 with signatures of 64 bytes. -/
def evenPrims : Prims := { hidingPrims with sign := fun _ _ _ _ => some (List.replicate 64 0) }

theorem evenPrims_tagged : Spec.Tagged evenPrims := fun a k n p d c h => hidingPrims_hiding.aead_length a k n p d c h

theorem evenPrims_sign (s : SigScheme) (k m r sig : Bytes) (h : evenPrims.sign s k m r = some sig) : sig.length = 64 := by
  cases h
  rfl

def evenState (name key : UInt8) : Res GroupState := do
  let kp ← generateKeyPairPackage evenPrims 1 (.basic [name])
    { init := [key], enc := [key], sig := [key], leafSign := [], pkgSign := [], now1 := toyNow, now2 := toyNow }
  createGroup evenPrims [7] kp fun _ => key

/-- Two groups with different members and secrets. Data of one byte make messages of 131 bytes in both, and data of two bytes one of 132. -/
example : ∃ (st st' : GroupState) (raw raw' raw2 : Bytes), st.group.epochSecret ≠ st'.group.epochSecret ∧
    createApplicationMessage evenPrims st [1] [] ⟨1, 2, 3, 4⟩ = .ok raw ∧
    createApplicationMessage evenPrims st' [2] [] ⟨4, 3, 2, 1⟩ = .ok raw' ∧
    createApplicationMessage evenPrims st' [2, 3] [] ⟨4, 3, 2, 1⟩ = .ok raw2 ∧
    suite st.group.groupContext.cipherSuite = suite 1 ∧ suite st'.group.groupContext.cipherSuite = suite 1 ∧
    (raw.length = Spec.messageSize 1 1 64 ∧ raw.length = 131) ∧ raw'.length = raw.length ∧ raw2.length = raw.length + 1 := by
  have key : Res.holds (evenState 1 1) (fun st => Res.holds (evenState 2 3) fun st' =>
      Res.holds (createApplicationMessage evenPrims st [1] [] ⟨1, 2, 3, 4⟩) fun a =>
      Res.holds (createApplicationMessage evenPrims st' [2] [] ⟨4, 3, 2, 1⟩) fun b =>
      Res.holds (createApplicationMessage evenPrims st' [2, 3] [] ⟨4, 3, 2, 1⟩) fun c =>
      decide (st.group.epochSecret ≠ st'.group.epochSecret) && decide (st.group.groupContext.cipherSuite = 1) && decide (st'.group.groupContext.cipherSuite = 1) &&
        decide (a.length = Spec.messageSize 1 1 64 ∧ a.length = 131) && decide (b.length = a.length) && decide (c.length = a.length + 1)) = true := by decide +kernel
  obtain ⟨st, _, key⟩ := Res.holds_ok key
  obtain ⟨st', _, key⟩ := Res.holds_ok key
  obtain ⟨a, ha, key⟩ := Res.holds_ok key
  obtain ⟨b, hb, key⟩ := Res.holds_ok key
  obtain ⟨c, hc, key⟩ := Res.holds_ok key
  simp only [Bool.and_eq_true, decide_eq_true_eq] at key
  exact ⟨st, st', a, b, c, key.1.1.1.1.1, ha, hb, hc, by rw [key.1.1.1.1.2], by rw [key.1.1.1.2], key.1.1.2, key.1.2, key.2⟩

/-- Data that are received, by a member for whom C127_receive applies. -/
example : Spec.OpensWithin toyPrims ∧
    (unmarshalAndProcessMessage toyPrims toyPair (toyPrivate toyPair 1 1 (.application [1, 2]) []) toyNow).1 = .ok (some [1, 2]) ∧
    [1, 2].length + 17 < (toyPrivate toyPair 1 1 (.application [1, 2]) []).length := by
  refine ⟨toyPrims_opens, ?_, ?_⟩ <;> decide +kernel

/-- The length of a message with 5 bytes of data in a group whose ID has 16, signed with Ed25519. -/
example : Spec.messageSize 16 5 64 = 150 := by decide

end Mls
