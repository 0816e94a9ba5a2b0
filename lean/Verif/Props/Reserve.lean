import Verif.Props.Sending
import Verif.Props.Exact
import Verif.Props.Replay
/-
C110: the parts of the protocol that the library has but that no call of the API reaches yet: messages in the clear, the exporter, and the check of
the confirmation tag of a commit.
-/
namespace Mls

variable {pr : Prims}

/-! ### Specification -/

/-- RFC 9420 section 6.2: the MLSMessage with the PublicMessage of the member at leaf `leaf`, signed and with the membership tag. -/
def Spec.Rfc.publicly (pr : Prims) (sd : SuiteDesc) (ctx : GroupContext) (epochSecret signKey : Bytes) (leaf : UInt32) (content : Content)
    (sigRand confirmationTag : Bytes) : Option Bytes := do
  let signature ← Rfc.sign pr sd signKey "FramedContentTBS" (Rfc.framedContentTBS .publicMessage (Rfc.framed ctx leaf content) ctx) sigRand
  let tbm ← (Rfc.authenticatedContentTBM .publicMessage (Rfc.framed ctx leaf content) { signature, confirmationTag } ctx).bytes
  (Rfc.mlsMessage
    { version := 1,
      body := .publicMessage { content := Rfc.framed ctx leaf content, auth := { signature, confirmationTag },
                               membershipTag := pr.mac sd.hash (deriveSecret pr sd epochSecret "membership") tbm } }).bytes

/-- RFC 9420 section 8: ExpandWithLabel with a label that is given as bytes; nothing if it cannot be encoded. -/
def Spec.Rfc.expand (pr : Prims) (sd : SuiteDesc) (secret label context : Bytes) (length : Nat) : Option Bytes := do
  let info ← (Rfc.kdfLabel length (ascii "MLS 1.0 " ++ label) context).bytes
  return pr.expand sd.kdf secret info length

/-- RFC 9420 section 8.5: MLS-Exporter. -/
def Spec.Rfc.exporter (pr : Prims) (sd : SuiteDesc) (exporterSecret label context : Bytes) (length : Nat) : Option Bytes := do
  let derived ← Rfc.expand pr sd exporterSecret label [] sd.kdf.size
  Rfc.expand pr sd derived (ascii "exported") (pr.hash sd.hash context) length

/-! ### Messages in the clear -/

/-- What CreateWelcome would do with its content if its constant `public` were true (group.go:659-665, 699, 741): sign the content, set the
confirmation tag, which is empty but for commits, and compute the membership tag. -/
def sendPublicly (pr : Prims) (g : Group) (content : Content) (sigRand confirmationTag : Bytes) : Res Bytes := do
  let m ← signPublicMessage pr g.groupContext.cipherSuite g.signaturePriv (g.framedContent content) g.groupContext sigRand
  g.signPublicMessageMembershipTag pr { m with auth := { m.auth with confirmationTag } }

/-- **C110**, messages in the clear: what is made is the message of RFC 9420, whenever there is one. -/
theorem C110_public {g : Group} {sd : SuiteDesc} (hsd : suite g.groupContext.cipherSuite = .ok sd) (content : Content)
    (sigRand confirmationTag raw : Bytes) :
    sendPublicly pr g content sigRand confirmationTag = .ok raw ↔
      Spec.Rfc.publicly pr sd g.groupContext g.epochSecret g.signaturePriv g.myLeafIndex content sigRand confirmationTag = some raw := by
  have hmk := deriveSecret_eq (pr := pr) hsd g.epochSecret (label := lblMembership) (name := "membership") lblMembership_name (by decide)
  have htbm : ∀ (m : PublicMessage) b, m.encTBM g.groupContext = .ok b ↔
      (Spec.Rfc.authenticatedContentTBM .publicMessage m.content m.auth g.groupContext).bytes = some b := fun m b => contentTBM_some.symm
  unfold sendPublicly signPublicMessage Group.signPublicMessageMembershipTag Spec.Rfc.publicly
  simp only [Res.bind_ok_iff, (C102_signed hsd _ _).1, Option.bind_eq_bind, Option.bind_eq_some_iff, Res.pure_eq, Res.ok.injEq, hmk,
    ← C101_writes]
  constructor
  · rintro ⟨_, ⟨⟨_, _, ⟨sig, tag⟩⟩, ⟨h1, h2, h3, h4⟩, rfl⟩, _, rfl, m, h5, h6⟩
    dsimp only at h1 h2 h3 h4 h5
    subst h1 h2 h3
    unfold PublicMessage.signMembershipTag Group.framedContent signMAC at h5
    simp only [Res.bind_ok_iff, htbm, hsd, Res.ok_bind, Res.pure_eq, Res.ok.injEq] at h5
    obtain ⟨tbm, h7, _, rfl, rfl⟩ := h5
    exact ⟨sig, h4, tbm, h7, h6⟩
  · rintro ⟨sig, h4, tbm, h7, h6⟩
    refine ⟨_, ⟨⟨.publicMessage, _, ⟨sig, []⟩⟩, ⟨rfl, rfl, rfl, h4⟩, rfl⟩, _, rfl, _, ?_, h6⟩
    unfold PublicMessage.signMembershipTag signMAC
    simp only [hsd, Res.ok_bind, Spec.Rfc.framed]
    have h8 := (htbm ⟨Spec.Rfc.framed g.groupContext g.myLeafIndex content, ⟨sig, confirmationTag⟩, []⟩ tbm).2 h7
    unfold Spec.Rfc.framed at h8
    rw [h8]
    rfl

/-- **C110**: such a message of a member is authentic to every member in the same epoch state, and a proposal in it is put on the list of those
that wait. -/
theorem C110_delivered (hc : pr.Correct) {st st' : GroupState} (hr : Reachable pr st') (hown : Spec.OwnLeaf pr st)
    (hsame : Spec.SameEpoch st st') {content : Content} {sigRand confirmationTag raw : Bytes}
    (htag : confirmationTag = [] ∨ content.ty = .commit) (hwf : content.WF)
    (h : sendPublicly pr st.group content sigRand confirmationTag = .ok raw) :
    ∃ m a, unmarshal MlsMessage.dec raw = .ok ⟨1, .publicMessage m⟩ ∧ Spec.PublicOk pr st' m a ∧
      a.content = Spec.Rfc.framed st.group.groupContext st.group.myLeafIndex content ∧ a.auth.confirmationTag = confirmationTag ∧
      ∀ p, content = .proposal p → ∀ now sd b, suite st.group.groupContext.cipherSuite = .ok sd →
        Spec.Rfc.refHash pr sd "MLS 1.0 Proposal Reference" (Spec.Rfc.authenticatedContent a) = some b →
        unmarshalAndProcessMessage pr st' raw now = (.ok none, { st' with group := { st'.group with
          pendingProposals := st'.group.pendingProposals ++ [⟨b, p, st.group.myLeafIndex⟩] } }) := by
  obtain ⟨d, r, leaf, hd, hleaf, hpub, hpriv⟩ := hown
  obtain ⟨_, dep, s, _, hdep, hs, hlen, _⟩ := reachable_shape hc hr
  have hd' : suite st'.group.groupContext.cipherSuite = .ok d := by rw [hsame.context]; exact hd
  have h0 := h
  rw [C110_public hd] at h
  unfold Spec.Rfc.publicly at h
  simp only [Option.bind_eq_bind, Option.bind_eq_some_iff, ← C101_writes] at h
  obtain ⟨sig, h1, tbm, h2, h3⟩ := h
  obtain ⟨tbs, ht, hsig⟩ := (sign_rfc hd lblFramedContentTBS_name (framedContentTBS_val _ _ _) _ _ _).2 h1
  rw [hpriv] at hsig
  have hmod : 2 * st.group.myLeafIndex.toNat % 2 ^ 32 = 2 * st.group.myLeafIndex.toNat := by
    have h4 := (List.getElem?_eq_some_iff.1 hleaf).1
    rw [← hsame.tree, show st'.vtree.length = _ from derefTree_length _ _, hlen] at h4
    have : 2 ^ (dep + 1) ≤ 2 ^ 32 := Nat.pow_le_pow_right (by decide) (by omega)
    exact Nat.mod_eq_of_lt (by omega)
  have hp := C10_roundtrip _ (by exact ⟨rfl, hwf, htag.symm, .inl ⟨_, rfl⟩⟩) raw h3
  have hok : Spec.PublicOk pr st' ⟨Spec.Rfc.framed st.group.groupContext st.group.myLeafIndex content, ⟨sig, confirmationTag⟩,
      pr.mac d.hash (Spec.deriveSecret pr d st.group.epochSecret "membership") tbm⟩
      ⟨.publicMessage, Spec.Rfc.framed st.group.groupContext st.group.myLeafIndex content, ⟨sig, confirmationTag⟩⟩ := by
    refine ⟨rfl, ⟨by rw [hsame.context]; rfl, by rw [hsame.context]; rfl, _, leaf, tbs, rfl, ?_, ?_, ?_⟩, d, tbm, (suite_iff_spec _ _).1 hd', ?_, ?_⟩
    · rw [hsame.tree, hmod]; exact hleaf
    · rw [hsame.context]; exact contentTBS_some.2 ht
    · rw [hsame.context, hpub]
      exact signWithLabel_valid hc hd lblFramedContentTBS_name (by decide) hsig
    · rw [hsame.context]; exact h2
    · rw [hsame.secret]
  refine ⟨_, _, hp, hok, rfl, rfl, ?_⟩
  rintro p rfl now sd b hsd href
  cases hd.symm.trans hsd
  have hv := (verifyPublicMessage_iff hd').2 hok
  unfold unmarshalAndProcessMessage
  rw [hp]
  simp only [processPublicMessage]
  rw [hv]
  simp only [dispatch, Spec.Rfc.framed]
  rw [processProposal_st rfl (by rw [hsame.context]; exact ((C102_references hd b).2 _ ⟨p, rfl⟩).2 href)]
  rfl

/-! ### The exporter -/

theorem expandWithLabel_exact {cs : UInt16} {sd : SuiteDesc} (hsd : suite cs = .ok sd) (secret label context : Bytes) (n : UInt16) :
    expandWithLabel pr cs secret label context n = match Spec.Rfc.expand pr sd secret label context n.toNat with
      | none => .err
      | some x => if n.toNat ≤ 255 * sd.kdf.size then .ok x else .panic := by
  have hv : (encKdfLabel label context n).val = (Spec.Rfc.kdfLabel n.toNat (Spec.ascii "MLS 1.0 " ++ label) context).bytes := by
    rw [← show lblPrefix = Spec.ascii "MLS 1.0 " by decide]
    rfc [encKdfLabel, Spec.Rfc.kdfLabel]
  have hf : Res.Fine (encKdfLabel label context n) :=
    enc_append_fine (enc_append_fine (addU16_fine _) (writeOpaqueVec_fine _)) (writeOpaqueVec_fine _)
  unfold Spec.Rfc.expand expandWithLabel
  rw [← hv]
  cases h : encKdfLabel label context n with
  | ok b =>
    rw [show Enc.val (Res.ok b) = some b from rfl, hsd]
    by_cases hn : n.toNat ≤ 255 * sd.kdf.size
    · simp [hn, Nat.not_lt.2 hn]
    · simp [hn, Nat.lt_of_not_le hn]
  | err =>
    rfl
  | panic => exact absurd h hf.1
  | hang => exact absurd h hf.2

/-- **C110**, the exporter: the value of RFC 9420, an error if the label is too long for it, and a panic if more is asked for than HKDF gives. -/
theorem C110_exporter {cs : UInt16} {sd : SuiteDesc} (hsd : suite cs = .ok sd) (exporterSecret label context : Bytes) (n : UInt16) :
    deriveExporter pr cs exporterSecret label context n = match Spec.Rfc.exporter pr sd exporterSecret label context n.toNat with
      | none => .err
      | some x => if n.toNat ≤ 255 * sd.kdf.size then .ok x else .panic := by
  have hsz := (suite_sizes hsd).1
  have hnh : sd.nh.toNat ≤ 255 * sd.kdf.size := by rw [hsz]; omega
  unfold deriveExporter deriveSecret Spec.Rfc.exporter
  rw [hsd]
  simp only [Res.ok_bind]
  rw [expandWithLabel_exact hsd, hsz]
  cases Spec.Rfc.expand pr sd exporterSecret label [] sd.kdf.size with
  | none => rfl
  | some d =>
    simp only [expandable_secret, if_true, Res.ok_bind, Option.bind_eq_bind, Option.bind_some]
    rw [expandWithLabel_exact hsd, show lblExported = Spec.ascii "exported" by decide]

/-- The value has the length asked for, and there is one for every label of less than 2^30 - 8 bytes. -/
theorem C110_exported (hc : pr.Correct) {cs : UInt16} {sd : SuiteDesc} (hsd : suite cs = .ok sd) (exporterSecret label context : Bytes)
    (n : UInt16) (hn : n.toNat ≤ 255 * sd.kdf.size) :
    (∃ x, deriveExporter pr cs exporterSecret label context n = .ok x ∧ x.length = n.toNat) ↔ label.length < 2 ^ 30 - 8 := by
  have hsz := (suite_sizes hsd).1
  have hpre : (lblPrefix ++ label).length = label.length + 8 := by rw [List.length_append]; show 8 + label.length = _; omega
  have hcl : (pr.hash sd.hash context).length < 2 ^ 30 := by rw [hc.hash_length]; cases sd.hash <;> decide
  unfold deriveExporter deriveSecret
  rw [hsd]
  simp only [Res.ok_bind]
  by_cases hl : label.length < 2 ^ 30 - 8
  · refine iff_of_true ?_ hl
    unfold expandWithLabel encKdfLabel
    simp only [writeOpaqueVec_vec (show (lblPrefix ++ label).length < 2 ^ 30 by omega), writeOpaqueVec_vec (show ([] : Bytes).length < 2 ^ 30 by decide),
      writeOpaqueVec_vec hcl, writeOpaqueVec_vec (show (lblPrefix ++ lblExported).length < 2 ^ 30 by decide), hsd, hsz, addU16, Enc.ok_append_ok,
      Res.ok_bind, if_neg (Nat.not_lt.2 (expandable_secret sd.kdf)), if_neg (Nat.not_lt.2 hn), Res.pure_eq]
    exact ⟨_, rfl, hc.expand_length _ _ _ _ hn⟩
  · refine iff_of_false ?_ hl
    rintro ⟨x, hx, _⟩
    unfold expandWithLabel encKdfLabel at hx
    simp only [Res.bind_ok_iff, Enc.append_ok_iff] at hx
    obtain ⟨_, ⟨_, ⟨_, _, ⟨_, _, _, h1, _⟩, _⟩, _⟩, _⟩ := hx
    have := writeOpaqueVec_bound h1
    omega

/-! ### The confirmation tag of a commit -/

/-- **C110**, the confirmation tag: the check that the library has for commits, and does not make (C48), passes exactly for the MAC of the
confirmed transcript hash. -/
theorem C110_confirmation (hc : pr.Correct) {cs : UInt16} {sd : SuiteDesc} (hsd : suite cs = .ok sd) (a : AuthData) (key hash : Bytes) :
    a.verifyConfirmationTag pr cs key hash = .ok (decide (a.confirmationTag = pr.mac sd.hash key hash)) := by
  have hl := hc.mac_length sd.hash key hash
  have hp : 0 < sd.hash.size := by cases sd.hash <;> decide
  unfold AuthData.verifyConfirmationTag
  split
  · rename_i h
    rw [decide_eq_false]
    intro e
    rw [e, hl] at h
    omega
  · unfold verifyMAC signMAC
    rw [hsd]
    simp only [Res.ok_bind, Res.pure_eq]
    rw [Bool.beq_eq_decide_eq]

/-! ### Instances -/

/-- In a group of two made with the library, the second member proposes in the clear to remove the first, who puts it on the list; the hypotheses of
`C110_delivered` are met. What is sent with another epoch secret is refused. -/
example : toyTwo.holds (fun (a, b) =>
    decide (a.group.groupContext = b.group.groupContext ∧ a.group.epochSecret = b.group.epochSecret ∧ a.vtree = b.vtree) &&
    decide (b.vtree[2 * b.group.myLeafIndex.toNat]?.join.map (fun n => match n with | .leaf l => l.signatureKey | _ => []) =
      some (toyPrims.sigKeyPair .ed25519 [11, 1]).1 ∧ b.group.signaturePriv = (toyPrims.sigKeyPair .ed25519 [11, 1]).2) &&
    (sendPublicly toyPrims b.group (.proposal (.remove 0)) [] []).holds (fun raw =>
      decide ((unmarshalAndProcessMessage toyPrims a raw toyLater).1 = .ok none) &&
      decide ((unmarshalAndProcessMessage toyPrims a raw toyLater).2.group.pendingProposals.map (fun p => (p.proposal, p.sender)) = [(.remove 0, 1)])) &&
    (sendPublicly toyPrims { b.group with epochSecret := [1] } (.proposal (.remove 0)) [] []).holds (fun raw =>
      decide ((unmarshalAndProcessMessage toyPrims a raw toyLater).1 = .err))) = true := by
  decide +kernel

/-- With SHA-256 the exporter gives at most 8160 bytes. -/
example : (deriveExporter toyPrims 1 [1] [2] [3] 8160).holds (fun x => x.length == 8160) = true ∧
    deriveExporter toyPrims 1 [1] [2] [3] 8161 = .panic := by
  refine ⟨?_, by decide +kernel⟩
  obtain ⟨x, h1, h2⟩ := (C110_exported toyPrims_correct (cs := 1) (sd := ⟨.sha256, .x25519, .sha256, .aes128gcm, .ed25519⟩) rfl [1] [2] [3] 8160
    (by decide)).2 (by decide)
  rw [h1]
  show (x.length == 8160) = true
  rw [h2]
  decide

/-- The confirmation tag, an empty one and another. -/
example : AuthData.verifyConfirmationTag toyPrims 1 ⟨[], toyPrims.mac .sha256 [1] [2]⟩ [1] [2] = .ok true ∧
    AuthData.verifyConfirmationTag toyPrims 1 ⟨[], []⟩ [1] [2] = .ok false ∧
    AuthData.verifyConfirmationTag toyPrims 1 ⟨[], toyPrims.mac .sha256 [1] [3]⟩ [1] [2] = .ok false := by
  decide +kernel

/-- A pre-shared key that comes from another group which this one replaces or branches off from, RFC 9420 sections 11.2 and 11.3. -/
def Spec.Succeeds (id : PreSharedKeyID) : Prop := ∃ group epoch, id.kind = .resumption .reinit group epoch ∨ id.kind = .resumption .branch group epoch

theorem isReinitOrBranch_iff (id : PreSharedKeyID) : id.isReinitOrBranch = true ↔ Spec.Succeeds id := by
  unfold PreSharedKeyID.isReinitOrBranch Spec.Succeeds
  split
  · exact ⟨fun _ => ⟨_, _, .inl (by assumption)⟩, fun _ => rfl⟩
  · exact ⟨fun _ => ⟨_, _, .inr (by assumption)⟩, fun _ => rfl⟩
  · rename_i h1 h2
    exact ⟨fun h => (nomatch h), fun ⟨g, e, h⟩ => (h.elim (h1 g e) (h2 g e)).elim⟩

/-- **C110.** `verifySingleReinitOrBranchPSK` passes exactly if no two places of the list have keys of groups that this one replaces or branches off from. -/
theorem C110_single (gs : GroupSecrets) : gs.verifySingleReinitOrBranchPSK = true ↔
    ∀ (i j : Nat) (a b : PreSharedKeyID), gs.psks[i]? = some a → gs.psks[j]? = some b → Spec.Succeeds a → Spec.Succeeds b → i = j := by
  unfold GroupSecrets.verifySingleReinitOrBranchPSK
  rw [decide_eq_true_eq]
  induction gs.psks with
  | nil => simp
  | cons x l ih =>
    by_cases hx : x.isReinitOrBranch = true
    · rw [List.filter_cons_of_pos hx, List.length_cons]
      constructor
      · intro h
        have hn : ∀ y ∈ l, ¬ Spec.Succeeds y := by
          intro y hy hs
          have := List.length_pos_of_mem (List.mem_filter.2 ⟨hy, (isReinitOrBranch_iff y).2 hs⟩)
          omega
        intro i j a b ha hb sa sb
        cases i with
        | zero =>
          cases j with
          | zero => rfl
          | succ j => exact (hn b (List.mem_of_getElem? hb) sb).elim
        | succ i => exact (hn a (List.mem_of_getElem? ha) sa).elim
      · intro h
        have : l.filter PreSharedKeyID.isReinitOrBranch = [] := by
          rw [List.filter_eq_nil_iff]
          intro y hy hs
          obtain ⟨k, hk⟩ := List.getElem?_of_mem hy
          cases h 0 (k + 1) x y rfl hk ((isReinitOrBranch_iff x).1 hx) ((isReinitOrBranch_iff y).1 hs)
        rw [this]
        exact Nat.le_refl 1
    · rw [List.filter_cons_of_neg hx, ih]
      constructor
      · intro h i j a b ha hb sa sb
        cases i with
        | zero => cases ha; exact (hx ((isReinitOrBranch_iff _).2 sa)).elim
        | succ i =>
          cases j with
          | zero => cases hb; exact (hx ((isReinitOrBranch_iff _).2 sb)).elim
          | succ j => exact congrArg (· + 1) (h i j a b ha hb sa sb)
      · intro h i j a b ha hb sa sb
        exact Nat.succ.inj (h (i + 1) (j + 1) a b ha hb sa sb)

/-- One key of each kind passes, one of a branch and one of a group that is replaced do not. -/
example : (GroupSecrets.mk [] none [⟨.resumption .branch [1] 2, []⟩, ⟨.resumption .application [1] 2, []⟩, ⟨.external [3], []⟩]).verifySingleReinitOrBranchPSK = true ∧
    (GroupSecrets.mk [] none [⟨.resumption .branch [1] 2, []⟩, ⟨.external [3], []⟩, ⟨.resumption .reinit [1] 2, []⟩]).verifySingleReinitOrBranchPSK = false := by
  decide

end Mls
