import Verif.Props.Process
import Verif.Props.Sending
import Verif.Props.Reserve
/-
C121: the messages of a member that does what RFC 9420 says, whatever software it uses: in the clear or encrypted, with any authenticated data, of any
generation of its ratchets, with any reuse guard and any padding.
-/
namespace Mls

open Spec (Ratchet nodeAt)

variable {pr : Prims}

/-! ### Specification -/

/-- What a member chooses when it encrypts a message: the generation of its ratchet, the reuse guard, and how many zero bytes follow the content. -/
structure Spec.Rfc.Envelope where
  generation : UInt32
  guard : Bytes4
  padding : Nat

/-- RFC 9420 section 6.1: what a member signs, and the signature. -/
def Spec.Rfc.compose (pr : Prims) (sd : SuiteDesc) (ctx : GroupContext) (signKey : Bytes) (leaf : UInt32) (wf : WireFormat) (authenticatedData : Bytes)
    (content : Content) (sigRand confirmationTag : Bytes) : Option AuthenticatedContent := do
  let framed : FramedContent := { Rfc.framed ctx leaf content with authenticatedData }
  let signature ← Rfc.sign pr sd signKey "FramedContentTBS" (Rfc.framedContentTBS wf framed ctx) sigRand
  return ⟨wf, framed, { signature, confirmationTag }⟩

/-- RFC 9420 sections 6.2 and 6.3: the MLSMessage with what a member has signed. A PublicMessage has a membership tag. A PrivateMessage is encrypted with the
key and the nonce that the generation of the ratchet of the leaf gives, in a tree of 2^depth leaves; the sender data are encrypted with the key and the
nonce that the beginning of the ciphertext gives. -/
def Spec.Rfc.enclose (pr : Prims) (sd : SuiteDesc) (ctx : GroupContext) (epochSecret : Bytes) (depth : Nat) (v : Rfc.Envelope)
    (a : AuthenticatedContent) : Option Bytes :=
  match a.wireFormat with
  | .publicMessage => do
    let tbm ← (Rfc.authenticatedContentTBM .publicMessage a.content a.auth ctx).bytes
    (Rfc.mlsMessage
      { version := 1,
        body := .publicMessage { content := a.content, auth := a.auth,
                                 membershipTag := pr.mac sd.hash (deriveSecret pr sd epochSecret "membership") tbm } }).bytes
  | .privateMessage => do
    let leaf := a.content.sender.leafIndex
    let ty := a.content.content.ty
    let guard := [v.guard.b0, v.guard.b1, v.guard.b2, v.guard.b3]
    let plaintext ← (Rfc.privateMessageContent ⟨a.content.content, a.auth⟩ (List.replicate v.padding 0)).bytes
    let aad ← (Rfc.privateContentAAD a.content.groupID a.content.epoch.toNat ty a.content.authenticatedData).bytes
    let ciphertext ← pr.aeadSeal sd.aead (messageKey pr sd epochSecret depth leaf.toNat ty v.generation.toNat)
      (messageNonce pr sd epochSecret depth leaf.toNat ty v.generation.toNat guard) plaintext aad
    let senderAAD ← (Rfc.senderDataAAD a.content.groupID a.content.epoch.toNat ty).bytes
    let sender ← (Rfc.senderData { leafIndex := leaf, generation := v.generation, reuseGuard := v.guard }).bytes
    let encryptedSenderData ← pr.aeadSeal sd.aead (senderDataKey pr sd epochSecret ciphertext)
      (senderDataNonce pr sd epochSecret ciphertext) sender senderAAD
    (Rfc.mlsMessage
      { version := 1,
        body := .privateMessage { groupID := a.content.groupID, epoch := a.content.epoch, contentType := ty,
                                  authenticatedData := a.content.authenticatedData, encryptedSenderData, ciphertext } }).bytes
  | _ => none

/-- The member at leaf `leaf` of the tree `t` has the signature key `key`. -/
def Spec.Rfc.Signer (pr : Prims) (sd : SuiteDesc) (t : VTree) (leaf : UInt32) (key : Bytes) : Prop :=
  ∃ old r, nodeAt t (2 * leaf.toNat) = some (.leaf old) ∧ old.signatureKey = (pr.sigKeyPair sd.sig r).1 ∧ key = (pr.sigKeyPair sd.sig r).2

/-- What is signed makes sense: key packages in it are of version 1, and only commits have a confirmation tag. -/
structure Spec.Rfc.Sound (content : Content) (confirmationTag : Bytes) : Prop where
  versions : (∀ k, content = .proposal (.add k) → k.version = 1) ∧ ∀ c, content = .commit c → ∀ k, .proposal (.add k) ∈ c.proposals → k.version = 1
  tag : content.ty ≠ .commit → confirmationTag = []

theorem Spec.Rfc.Sound.wf {content : Content} {tag : Bytes} (h : Spec.Rfc.Sound content tag) : content.WF := by
  cases content with
  | application _ => trivial
  | proposal p =>
    cases p with
    | add k => exact h.versions.1 k rfl
    | _ => trivial
  | commit c =>
    intro p hp
    cases p with
    | reference _ => trivial
    | proposal p =>
      cases p with
      | add k => exact h.versions.2 c rfl k hp
      | _ => trivial

/-! ### It is read and authentic -/

/-- **C121**: every message made like this for the epoch of a member is read by the member, and what it reads is what was signed. -/
theorem C121_read (hc : pr.Correct) {st : GroupState} (hr : Reachable pr st) {sd : SuiteDesc}
    (hsd : suite st.group.groupContext.cipherSuite = .ok sd) {d0 : Nat} {s0 : Ratchet ParentNode d0} (hv : st.vtree = s0.flat .leaf .parent)
    {signKey : Bytes} {leaf : UInt32} (hkey : Spec.Rfc.Signer pr sd st.vtree leaf signKey) {wf : WireFormat} {ad sigRand tag : Bytes} {content : Content}
    (hso : Spec.Rfc.Sound content tag) {a : AuthenticatedContent}
    (ha : Spec.Rfc.compose pr sd st.group.groupContext signKey leaf wf ad content sigRand tag = some a) {v : Spec.Rfc.Envelope} {raw : Bytes}
    (hraw : Spec.Rfc.enclose pr sd st.group.groupContext st.group.epochSecret d0 v a = some raw) :
    Carries pr st raw a (wf = .privateMessage) := by
  have hi := hr.inv hc
  obtain ⟨d0', hd0, s0', hs0⟩ := hi.tree.holds
  cases flat_any (hs0.flat.symm.trans hv)
  have hlen := hs0.length
  obtain ⟨old, r, ho, hpub, hpriv⟩ := hkey
  have hnode : st.vtree[2 * leaf.toNat]? = some (some (.leaf old)) := nodeAt_some.1 ho
  have hlt : 2 * leaf.toNat < 2 ^ (d0 + 1) - 1 := by
    have := nodeAt_lt ho
    rwa [show st.vtree.length = _ from derefTree_length _ _, hlen] at this
  have hpow : 2 ^ (d0 + 1) ≤ 2 ^ 32 := Nat.pow_le_pow_right (by decide) (by omega)
  have hin : leaf.toNat < 2 ^ d0 := by rw [Nat.pow_succ] at hlt; omega
  have hmod : leaf.toNat % 2 ^ 31 = leaf.toNat := Nat.mod_eq_of_lt (by omega)
  have hcw := hso.wf
  have hau : ∀ sig, AuthData.WF { signature := sig, confirmationTag := tag } content.ty := by
    intro sig
    by_cases h : content.ty = .commit
    · exact .inl h
    · exact .inr (hso.tag h)
  unfold Spec.Rfc.compose at ha
  simp only [Option.bind_eq_bind, Option.bind_eq_some_iff, Option.pure_def, Option.some.injEq] at ha
  obtain ⟨sig, hs, rfl⟩ := ha
  obtain ⟨tbs, ht, hsig⟩ := (sign_rfc hsd lblFramedContentTBS_name (framedContentTBS_val _ _ _) _ _ _).2 hs
  rw [hpriv] at hsig
  have hval := signWithLabel_valid hc hsd lblFramedContentTBS_name (by decide) hsig
  rw [← hpub] at hval
  unfold Spec.Rfc.enclose at hraw
  cases wf with
  | publicMessage =>
    simp only [Option.bind_eq_bind, Option.bind_eq_some_iff, ← C101_writes] at hraw
    obtain ⟨tbm, h2, h3⟩ := hraw
    have hp := C10_roundtrip _ (by exact ⟨rfl, hcw, hau _, .inl ⟨_, rfl⟩⟩) raw h3
    refine .pub hp ((verifyPublicMessage_iff hsd).2 ⟨rfl, ⟨rfl, rfl, _, old, tbs, rfl, ?_, contentTBS_some.2 ht, hval⟩, sd, tbm,
      (suite_iff_spec _ _).1 hsd, h2, rfl⟩)
    rw [Nat.mod_eq_of_lt (by omega)]
    exact hnode
  | privateMessage =>
    simp only [Option.bind_eq_bind, Option.bind_eq_some_iff, ← C101_writes, ← (C102_contexts _).1, ← (C102_contexts _).2.1, contentAAD_iff,
      senderDataAAD_iff] at hraw
    obtain ⟨pt, h1, _, ⟨hgl, hal, rfl⟩, ct, h3, _, ⟨_, rfl⟩, snd, h5, esd, h6, h7⟩ := hraw
    rw [← senderData_val, ← Enc.val_ok_iff, senderData_enc] at h5
    cases h5
    have hp := C10_roundtrip _ (by exact ⟨rfl, trivial⟩) raw h7
    refine .priv hp ?_
    rw [C62_received pr hc st sd hsd d0 hd0 hlen]
    obtain ⟨bs, e1, rfl⟩ : ∃ bs, PrivateMessageContent.enc ⟨content, ⟨sig, tag⟩⟩ = .ok bs ∧ pt = bs ++ List.replicate v.padding 0 := by
      rw [← privateMessageContent_val, ← Enc.val_ok_iff, Enc.append_ok_iff] at h1
      obtain ⟨x, y, e1, e2, rfl⟩ := h1
      cases e2
      exact ⟨x, e1, rfl⟩
    refine ⟨hgl, hal, leaf, v.generation, v.guard, _, ⟨content, ⟨sig, tag⟩⟩, v.padding, old, tbs, ⟨rfl, rfl, hc.aead_open _ _ _ _ _ _ h6, ?_, ?_⟩,
      privateContent_rt _ bs _ e1 hcw (hau _), rfl, ?_, contentTBS_some.2 ht, hval⟩
    · rw [hmod]; exact hin
    · rw [hmod]; exact hc.aead_open _ _ _ _ _ _ h3
    · rw [hmod]; exact hnode
  | _ => cases hraw

end Mls
