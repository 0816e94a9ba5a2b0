import Verif.Props.Welcomed
import Verif.Props.Calls
import Verif.Props.Invitation
/-
C107: what the calls that make something return, as functions of RFC 9420, and exactly when they return it.
-/
namespace Mls

open Spec (Ratchet nodeAt)

variable {pr : Prims}

/-! ### Specification -/

/-- RFC 9420 section 6.3: the MLSMessage with the PrivateMessage of the member at leaf `leaf` of a tree of 2^depth leaves. The content is
encrypted with the key and the nonce of generation 0 of the ratchet of the leaf, without padding; the sender data with the key and the
nonce that the beginning of the ciphertext gives. -/
def Spec.Rfc.protect (pr : Prims) (sd : SuiteDesc) (ctx : GroupContext) (epochSecret : Bytes) (depth : Nat) (leaf : UInt32)
    (guard : Bytes4) (ty : ContentType) (c : PrivateMessageContent) : Option Bytes := do
  let plaintext ← (Rfc.privateMessageContent c []).bytes
  let aad ← (Rfc.privateContentAAD ctx.groupID ctx.epoch.toNat ty []).bytes
  let ciphertext ← pr.aeadSeal sd.aead (messageKey pr sd epochSecret depth leaf.toNat ty 0)
    (messageNonce pr sd epochSecret depth leaf.toNat ty 0 [guard.b0, guard.b1, guard.b2, guard.b3]) plaintext aad
  let senderAAD ← (Rfc.senderDataAAD ctx.groupID ctx.epoch.toNat ty).bytes
  let sender ← (Rfc.senderData { leafIndex := leaf, generation := 0, reuseGuard := guard }).bytes
  let encryptedSenderData ← pr.aeadSeal sd.aead (senderDataKey pr sd epochSecret ciphertext)
    (senderDataNonce pr sd epochSecret ciphertext) sender senderAAD
  (Rfc.mlsMessage
    { version := 1,
      body := .privateMessage { groupID := ctx.groupID, epoch := ctx.epoch, contentType := ty, authenticatedData := [],
                                encryptedSenderData, ciphertext } }).bytes

/-- RFC 9420 section 6.1: the FramedContent of a member, without authenticated data. -/
def Spec.Rfc.framed (ctx : GroupContext) (leaf : UInt32) (c : Content) : FramedContent :=
  { groupID := ctx.groupID, epoch := ctx.epoch, sender := .member leaf, authenticatedData := [], content := c }

/-- RFC 9420 section 6: the message with application data. -/
def Spec.Rfc.applicationMessage (pr : Prims) (sd : SuiteDesc) (ctx : GroupContext) (epochSecret signKey : Bytes) (depth : Nat) (leaf : UInt32)
    (data sigRand : Bytes) (guard : Bytes4) : Option Bytes := do
  let signature ← Rfc.sign pr sd signKey "FramedContentTBS"
    (Rfc.framedContentTBS .privateMessage (Rfc.framed ctx leaf (.application data)) ctx) sigRand
  Rfc.protect pr sd ctx epochSecret depth leaf guard .application ⟨.application data, { signature, confirmationTag := [] }⟩

/-- RFC 9420 section 12.4.3.3: the nodes of a tree up to the last one that is not blank. -/
def Spec.trimmed : List (Option Node) → List (Option Node)
  | [] => []
  | n :: l => match n, trimmed l with
    | none, [] => []
    | n, l => n :: l

/-- RFC 9420 section 12.4.3.1: the EncryptedGroupSecrets of the new members from position `i` on: the reference of the key package and the
group secrets encrypted to its init key. -/
def Spec.Rfc.secretsFor (pr : Prims) (sd : SuiteDesc) (context groupSecrets : Bytes) (rand : Nat → Bytes) :
    Nat → List KeyPackage → Option (List EncryptedGroupSecrets)
  | _, [] => some []
  | i, k :: ks => do
    let sk ← Spec.suites.lookup k.cipherSuite.toNat
    let newMember ← Rfc.refHash pr sk "MLS 1.0 KeyPackage Reference" (Rfc.keyPackage k)
    let (kemOutput, ciphertext) ← pr.hpkeSeal sd k.initKey context groupSecrets (rand i)
    let rest ← secretsFor pr sd context groupSecrets rand (i + 1) ks
    return { newMember, encryptedGroupSecrets := { kemOutput, ciphertext } } :: rest

/-- What goes into the commit and the welcome of an invitation. -/
structure Spec.Rfc.Prepared where
  signature : Bytes
  confirmationTag : Bytes
  joinerSecret : Bytes
  encryptedGroupInfo : Bytes

/-- RFC 9420 sections 12.4.1 and 12.4.3.1: the signature and the confirmation tag of the commit that adds `kps` to a group whose tree is `s` with
them in it, and the joiner secret and the encrypted group info of the welcome. There is no path and no pre-shared key: the commit secret and the PSK
secret are zero. -/
def Spec.Rfc.prepared (pr : Prims) (sd : SuiteDesc) (ctx : GroupContext) (initSecret interim signKey : Bytes) (leaf : UInt32)
    (kps : List KeyPackage) (r : WelcomeRand) {d : Nat} (s : Ratchet ParentNode d) : Option Prepared := do
  let content : Content := .commit { proposals := kps.map fun k => .proposal (.add k), path := none }
  let zero := List.replicate sd.kdf.size 0
  let treeHash ← Rfc.treeHash (pr.hash sd.hash) 0 s
  let signature ← Rfc.sign pr sd signKey "FramedContentTBS"
    (Rfc.framedContentTBS .privateMessage (Rfc.framed ctx leaf content) ctx) r.commitSign
  let input ← (Rfc.confirmedTranscriptHashInput .privateMessage (Rfc.framed ctx leaf content) signature).bytes
  let next : GroupContext :=
    { ctx with epoch := ctx.epoch + 1, treeHash, confirmedTranscriptHash := pr.hash sd.hash (interim ++ input) }
  let context ← (Rfc.groupContext next).bytes
  let joiner ← Rfc.expandWithLabel pr sd (pr.extract sd.kdf zero initSecret) "joiner" context sd.kdf.size
  let nextSecret ← Rfc.expandWithLabel pr sd (pr.extract sd.kdf zero joiner) "epoch" context sd.kdf.size
  let confirmationTag := Spec.confirmationTag pr sd nextSecret next.confirmedTranscriptHash
  let tree ← (Rfc.ratchetTree (Spec.trimmed (s.flat .leaf .parent))).bytes
  let info : GroupInfo :=
    { groupContext := next, extensions := [{ ty := 2, data := tree }], confirmationTag, signer := leaf, signature := [] }
  let infoSignature ← Rfc.sign pr sd signKey "GroupInfoTBS" (Rfc.groupInfoTBS info) r.infoSign
  let infoBytes ← (Rfc.groupInfo { info with signature := infoSignature }).bytes
  let encryptedGroupInfo ← pr.aeadSeal sd.aead
    (Spec.expandWithLabel pr sd (Spec.welcomeSecret pr sd joiner) "key" [] sd.aead.keySize)
    (Spec.expandWithLabel pr sd (Spec.welcomeSecret pr sd joiner) "nonce" [] sd.aead.nonceSize) infoBytes []
  return { signature, confirmationTag, joinerSecret := joiner, encryptedGroupInfo }

/-- RFC 9420 section 12.4.3.1: what is encrypted to the new members, and the EncryptContext it is encrypted with. -/
def Spec.Rfc.sealedSecrets (p : Prepared) : Option (Bytes × Bytes) := do
  let groupSecrets ← (Rfc.groupSecrets { joinerSecret := p.joinerSecret, pathSecret := none, psks := [] }).bytes
  let context ← (Rfc.encryptContext (Spec.ascii "MLS 1.0 Welcome") p.encryptedGroupInfo).bytes
  return (groupSecrets, context)

/-- RFC 9420 sections 12.4.1 and 12.4.3.1: the welcome and the commit that add `kps` to a group whose tree is `s` with them in it. -/
def Spec.Rfc.invitation (pr : Prims) (sd : SuiteDesc) (ctx : GroupContext) (epochSecret initSecret interim signKey : Bytes) (depth : Nat)
    (leaf : UInt32) (kps : List KeyPackage) (r : WelcomeRand) {d : Nat} (s : Ratchet ParentNode d) : Option (Welcome × Bytes) := do
  let p ← Rfc.prepared pr sd ctx initSecret interim signKey leaf kps r s
  let x ← Rfc.sealedSecrets p
  let secrets ← Rfc.secretsFor pr sd x.2 x.1 r.hpke 0 kps
  let message ← Rfc.protect pr sd ctx epochSecret depth leaf r.guard .commit
    ⟨.commit { proposals := kps.map fun k => .proposal (.add k), path := none },
     { signature := p.signature, confirmationTag := p.confirmationTag }⟩
  return ({ cipherSuite := ctx.cipherSuite, secrets, encryptedGroupInfo := p.encryptedGroupInfo }, message)

/-! ### Private messages -/

theorem encryptPrivateMessage_iff (hc : pr.Correct) {g : Group} {sd : SuiteDesc} (hsd : suite g.groupContext.cipherSuite = .ok sd)
    {depth : Nat} (hdep : depth ≤ 31) (hlen : g.tree.length = 2 ^ (depth + 1) - 1) (hin : g.myLeafIndex.toNat < 2 ^ depth)
    {c : PrivateMessageContent} {guard : Bytes4} {raw : Bytes} :
    g.encryptPrivateMessage pr (g.framedContent c.content) c guard = .ok raw ↔
      Spec.Rfc.protect pr sd g.groupContext g.epochSecret depth g.myLeafIndex guard c.content.ty c = some raw := by
  have hpow : 2 ^ depth ≤ 2 ^ 31 := Nat.pow_le_pow_right (by decide) hdep
  have hmod : g.myLeafIndex.toNat % 2 ^ 31 = g.myLeafIndex.toNat := Nat.mod_eq_of_lt (by omega)
  obtain ⟨tree, ht, hr⟩ := ratchetRoot_eq (pr := pr) hsd hdep (li := g.myLeafIndex.toNat) (by omega) g.epochSecret c.content.ty
  have hn := numLeaves_pow hdep hlen
  have hpad : ∀ b, c.enc = .ok b ↔ (Spec.Rfc.privateMessageContent c []).bytes = some b := by
    intro b
    rw [← privateMessageContent_val, Enc.val_append, show (addBytes []).val = some [] from rfl, optCat_nil, Enc.val_ok_iff]
  have hsend : ∀ (d : SenderData) b, d.enc = .ok b ↔ (Spec.Rfc.senderData d).bytes = some b := by
    intro d b
    rw [← senderData_val, Enc.val_ok_iff]
  unfold Group.encryptPrivateMessage
  simp only [hn, deriveSecret_eq hsd _ lblSenderData_name (by decide),
    deriveSecret_eq hsd _ lblEncryption_name (by decide), Res.ok_bind, ht, Group.framedContent, hr]
  rw [hmod]
  unfold encryptPrivateMessage encryptPrivateMessageContent encryptSenderData Spec.Rfc.protect
  simp only [keyAndNonce_eq hc hsd, senderDataKey_eq hsd, senderDataNonce_eq hsd, Res.ok_bind, Res.bind_ok_iff,
    (C102_contexts _).1, (C102_contexts _).2.1, aeadSeal_ok_iff hsd, hpad, hsend, Option.bind_eq_bind, Option.bind_eq_some_iff,
    ← C101_writes, Res.pure_eq, Res.ok.injEq]
  constructor
  · rintro ⟨_, ⟨ct, ⟨pt, h1, aad, h2, h3⟩, esd, ⟨_, h4, _, h5, h6⟩, rfl⟩, h7⟩
    exact ⟨pt, h1, aad, h2, ct, h3, _, h4, _, h5, esd, h6, h7⟩
  · rintro ⟨pt, h1, aad, h2, ct, h3, _, h4, _, h5, esd, h6, h7⟩
    exact ⟨_, ⟨ct, ⟨pt, h1, aad, h2, h3⟩, esd, ⟨_, h4, _, h5, h6⟩, rfl⟩, h7⟩

theorem createApplicationMessage_iff (hc : pr.Correct) {st : GroupState} {sd : SuiteDesc}
    (hsd : suite st.group.groupContext.cipherSuite = .ok sd)
    {depth : Nat} (hdep : depth ≤ 31) (hlen : st.group.tree.length = 2 ^ (depth + 1) - 1) (hin : st.group.myLeafIndex.toNat < 2 ^ depth)
    {data rand : Bytes} {guard : Bytes4} {raw : Bytes} :
    createApplicationMessage pr st data rand guard = .ok raw ↔
      Spec.Rfc.applicationMessage pr sd st.group.groupContext st.group.epochSecret st.group.signaturePriv depth st.group.myLeafIndex
        data rand guard = some raw := by
  unfold createApplicationMessage Spec.Rfc.applicationMessage signPrivateMessageContent
  simp only [Res.bind_ok_iff, (C102_signed hsd _ _).1, Option.bind_eq_bind, Option.bind_eq_some_iff, Res.pure_eq, Res.ok.injEq]
  constructor
  · rintro ⟨_, ⟨a, ⟨h1, h2, h3, h4⟩, rfl⟩, h5⟩
    obtain ⟨_, _, ⟨sig, tag⟩⟩ := a
    cases h3
    exact ⟨sig, h4, (encryptPrivateMessage_iff hc hsd hdep hlen hin (c := ⟨.application data, ⟨sig, []⟩⟩)).1 h5⟩
  · rintro ⟨sig, h1, h2⟩
    refine ⟨_, ⟨⟨.privateMessage, _, ⟨sig, []⟩⟩, ⟨rfl, rfl, rfl, h1⟩, rfl⟩, ?_⟩
    exact (encryptPrivateMessage_iff hc hsd hdep hlen hin (c := ⟨.application data, ⟨sig, []⟩⟩)).2 h2

/-! ### Invitations -/

theorem trimmed_blanks (n : Nat) : Spec.trimmed (List.replicate n none) = [] := by
  induction n with
  | zero => rfl
  | succ n ih => simp [List.replicate_succ, Spec.trimmed, ih]

theorem trimmed_eq (n : Nat) : ∀ l : List (Option Node), (l = [] ∨ ∃ a, l.getLast? = some (some a)) →
    Spec.trimmed (l ++ List.replicate n none) = l := by
  intro l
  induction l with
  | nil => intro _; exact trimmed_blanks n
  | cons x l ih =>
    rintro (h | ⟨a, ha⟩)
    · cases h
    · cases l with
      | nil =>
        rw [List.getLast?_singleton, Option.some.injEq] at ha
        subst ha
        simp [Spec.trimmed, trimmed_blanks]
      | cons y l =>
        have := ih (.inr ⟨a, by rw [List.getLast?_cons_cons] at ha; exact ha⟩)
        rw [List.cons_append, Spec.trimmed.eq_def]
        simp only [this]

theorem encTree_iff {t : VTree} {b : Bytes} : encTree t = .ok b ↔ (Spec.Rfc.ratchetTree (Spec.trimmed t)).bytes = some b := by
  obtain ⟨n, hn, hl⟩ := stripBlanks_spec t
  rw [C101_tree]
  constructor
  · rintro ⟨l, n, rfl, h1, h2⟩
    rwa [trimmed_eq n l h1]
  · intro h
    have := trimmed_eq n _ hl
    rw [← hn] at this
    rw [this] at h
    exact ⟨_, n, hn, hl, h⟩

theorem suite_lookup {cs : UInt16} {d : SuiteDesc} : suite cs = .ok d ↔ Spec.suites.lookup cs.toNat = some d := by
  rw [suite_iff_spec]
  constructor
  · intro h
    simp only [Spec.suites, List.mem_cons, Prod.mk.injEq, List.not_mem_nil, or_false] at h
    rcases h with ⟨h, rfl⟩ | ⟨h, rfl⟩ | ⟨h, rfl⟩ | ⟨h, rfl⟩ | ⟨h, rfl⟩ | ⟨h, rfl⟩ | ⟨h, rfl⟩ <;> rw [h] <;> rfl
  · intro h
    obtain ⟨l1, l2, h1, _⟩ := List.lookup_eq_some_iff.1 h
    rw [h1]
    simp

theorem secretsFor_iff {cs : UInt16} {sd : SuiteDesc} (hsd : suite cs = .ok sd) {gs : GroupSecrets} {gb egi cb : Bytes}
    (hgs : gs.enc = .ok gb) (hcb : encEncryptContext lblWelcome egi = .ok cb) {rand : Nat → Bytes} :
    ∀ (kps : List KeyPackage) (i : Nat) (l : List EncryptedGroupSecrets),
      encryptSecretsLoop pr cs gs egi rand i kps = .ok l ↔ Spec.Rfc.secretsFor pr sd cb gb rand i kps = some l := by
  intro kps
  induction kps with
  | nil => intro i l; simp [encryptSecretsLoop, Spec.Rfc.secretsFor]
  | cons k kps ih =>
    intro i l
    unfold encryptSecretsLoop Spec.Rfc.secretsFor GroupSecrets.encrypt encryptWithLabel
    simp only [hgs, hcb, hsd, Res.ok_bind, Res.bind_ok_iff, orErr_ok_iff, ih, Option.bind_eq_bind, Option.bind_eq_some_iff, Res.pure_eq,
      Option.pure_def, Option.some.injEq, Res.ok.injEq]
    constructor
    · rintro ⟨ref, h1, _, ⟨⟨ko, ct⟩, h2, rfl⟩, rest, h3, h4⟩
      obtain ⟨sk, hsk⟩ : ∃ sk, suite k.cipherSuite = .ok sk := by
        unfold KeyPackage.generateRef refHash at h1
        simp only [Res.bind_ok_iff] at h1
        obtain ⟨_, _, _, _, sk, h, _⟩ := h1
        exact ⟨sk, h⟩
      exact ⟨sk, suite_lookup.1 hsk, ref, ((C102_references hsk _).1 k rfl).1 h1, ⟨ko, ct⟩, h2, rest, h3, h4⟩
    · rintro ⟨sk, h0, ref, h1, ⟨ko, ct⟩, h2, rest, h3, h4⟩
      exact ⟨ref, ((C102_references (suite_lookup.2 h0) _).1 k rfl).2 h1, _, ⟨⟨ko, ct⟩, h2, rfl⟩, rest, h3, h4⟩

theorem encryptSecretsLoop_encodes {cs : UInt16} {gs : GroupSecrets} {egi : Bytes} {rand : Nat → Bytes} {kps : List KeyPackage}
    (hne : kps ≠ []) {i : Nat} {l : List EncryptedGroupSecrets} (h : encryptSecretsLoop pr cs gs egi rand i kps = .ok l) :
    ∃ gb cb, gs.enc = .ok gb ∧ encEncryptContext lblWelcome egi = .ok cb := by
  cases kps with
  | nil => exact absurd rfl hne
  | cons k kps =>
    unfold encryptSecretsLoop GroupSecrets.encrypt encryptWithLabel at h
    simp only [Res.bind_ok_iff] at h
    obtain ⟨_, _, _, ⟨gb, h1, cb, h2, _⟩, _⟩ := h
    exact ⟨gb, cb, h1, h2⟩

/-- The first part of finishWelcome, up to the encrypted group info (group.go:621-717). -/
def prepareWelcome (pr : Prims) (g : Group) (h : Heap) (t : RTree) (keyPkgs : List KeyPackage) (r : WelcomeRand) : Res Spec.Rfc.Prepared := do
  let cs := g.groupContext.cipherSuite
  let treeHash ← computeRootTreeHash pr cs (derefTree h t)
  let d ← suite cs
  let commitSecret : Bytes := List.replicate d.kdf.size 0
  let pskSecret ← extractPSKSecret pr cs [] []
  let content := g.framedContent
    (.commit { proposals := keyPkgs.map fun k => .proposal (.add k), path := none })
  let c ← signPrivateMessageContent pr cs g.signaturePriv content g.groupContext r.commitSign
  let cth ← confirmedTranscriptHash pr cs .privateMessage content c.auth.signature g.interimTranscriptHash
  let newCtx := { g.groupContext with
    epoch := g.groupContext.epoch + 1, treeHash, confirmedTranscriptHash := cth }
  let joinerSecret ← newCtx.extractJoinerSecret pr g.initSecret commitSecret
  let epochSecret ← newCtx.extractEpochSecret pr joinerSecret (some pskSecret)
  let confirmationTag ← newCtx.signConfirmationTag pr epochSecret
  let rawTree ← (encTree (derefTree h t) : Res Bytes)
  let info : GroupInfo := { groupContext := newCtx, extensions := [{ ty := 2, data := rawTree }],
                            confirmationTag, signer := g.myLeafIndex, signature := [] }
  let info ← info.sign pr g.signaturePriv r.infoSign
  let encryptedGroupInfo ← info.encrypt pr joinerSecret pskSecret
  return { signature := c.auth.signature, confirmationTag, joinerSecret, encryptedGroupInfo }

theorem signPrivateMessageContent_content {cs : UInt16} {k : Bytes} {content : FramedContent} {ctx : GroupContext} {r : Bytes}
    {c : PrivateMessageContent} (h : signPrivateMessageContent pr cs k content ctx r = .ok c) : c.content = content.content := by
  unfold signPrivateMessageContent at h
  rw [Res.bind_ok_iff] at h
  obtain ⟨_, _, h⟩ := h
  cases h
  rfl

theorem Res.bind_congr {α β : Type} {x : Res α} {f g : α → Res β} (h : ∀ a, x = .ok a → f a = g a) : (x >>= f) = (x >>= g) := by
  cases x with
  | ok a => exact h a rfl
  | _ => rfl

theorem finishWelcome_prepare (g : Group) (h : Heap) (t : RTree) (kps : List KeyPackage) (r : WelcomeRand) :
    finishWelcome pr g h t kps r = do
      let p ← prepareWelcome pr g h t kps r
      let secrets ← encryptSecretsLoop pr g.groupContext.cipherSuite { joinerSecret := p.joinerSecret, pathSecret := none, psks := [] }
        p.encryptedGroupInfo r.hpke 0 kps
      let rawMsg ← g.encryptPrivateMessage pr (g.framedContent (.commit { proposals := kps.map fun k => .proposal (.add k), path := none }))
        ⟨.commit { proposals := kps.map fun k => .proposal (.add k), path := none }, ⟨p.signature, p.confirmationTag⟩⟩ r.guard
      return ({ cipherSuite := g.groupContext.cipherSuite, secrets, encryptedGroupInfo := p.encryptedGroupInfo }, rawMsg) := by
  unfold finishWelcome prepareWelcome
  simp only [Res.bind_assoc']
  refine Res.bind_congr fun th _ => Res.bind_congr fun d _ => Res.bind_congr fun psk _ => Res.bind_congr fun c hcc => ?_
  have := signPrivateMessageContent_content hcc
  obtain ⟨cc, sig, tag⟩ := c
  cases this
  rfl

theorem prepareWelcome_iff (hc : pr.Correct) {g : Group} {sd : SuiteDesc} (hsd : suite g.groupContext.cipherSuite = .ok sd)
    {h : Heap} {t : RTree} {d : Nat} (hd : d ≤ 31) {s : Ratchet ParentNode d} (hs : Holds h t s) {kps : List KeyPackage}
    {r : WelcomeRand} {p : Spec.Rfc.Prepared} :
    prepareWelcome pr g h t kps r = .ok p ↔
      Spec.Rfc.prepared pr sd g.groupContext g.initSecret g.interimTranscriptHash g.signaturePriv g.myLeafIndex kps r s = some p := by
  have hinfo : ∀ (x : GroupInfo) b, x.enc = .ok b ↔ (Spec.Rfc.groupInfo x).bytes = some b := by
    intro x b; rw [← groupInfo_val, Enc.val_ok_iff]
  have hconf : ∀ th cth es tag, GroupContext.signConfirmationTag pr { g.groupContext with
      epoch := g.groupContext.epoch + 1, treeHash := th, confirmedTranscriptHash := cth } es = .ok tag ↔
      tag = Spec.confirmationTag pr sd es cth := by
    intro th cth es tag
    unfold GroupContext.signConfirmationTag signMAC
    rw [deriveSecret_eq hsd _ lblConfirm_name (by decide), hsd]
    simp only [Res.ok_bind, Res.pure_eq, Res.ok.injEq]
    exact eq_comm
  have hjoin : ∀ th cth x, GroupContext.extractJoinerSecret pr { g.groupContext with
      epoch := g.groupContext.epoch + 1, treeHash := th, confirmedTranscriptHash := cth } g.initSecret (List.replicate sd.kdf.size 0) = .ok x ↔ _ :=
    fun th cth x => (C102_schedule (ctx := { g.groupContext with
      epoch := g.groupContext.epoch + 1, treeHash := th, confirmedTranscriptHash := cth }) hsd x).1 _ _
  have hepoch : ∀ th cth j x, GroupContext.extractEpochSecret pr { g.groupContext with
      epoch := g.groupContext.epoch + 1, treeHash := th, confirmedTranscriptHash := cth } j (some (List.replicate sd.kdf.size 0)) = .ok x ↔ _ :=
    fun th cth j x => (C102_schedule (ctx := { g.groupContext with
      epoch := g.groupContext.epoch + 1, treeHash := th, confirmedTranscriptHash := cth }) hsd x).2 _ _
  have henc : ∀ (i : GroupInfo) js egi, i.groupContext.cipherSuite = g.groupContext.cipherSuite →
      (i.encrypt pr js (List.replicate sd.kdf.size 0) = .ok egi ↔ ∃ b, (Spec.Rfc.groupInfo i).bytes = some b ∧ pr.aeadSeal sd.aead
        (Spec.expandWithLabel pr sd (Spec.welcomeSecret pr sd js) "key" [] sd.aead.keySize)
        (Spec.expandWithLabel pr sd (Spec.welcomeSecret pr sd js) "nonce" [] sd.aead.nonceSize) b [] = some egi) := by
    intro i js egi he
    unfold GroupInfo.encrypt
    rw [he]
    simp only [welcomeKeyAndNonce_eq hsd, Res.ok_bind, Res.bind_ok_iff, hinfo, aeadSeal_ok_iff hsd]
  constructor
  · intro hf
    unfold prepareWelcome at hf
    simp only [Res.bind_ok_iff] at hf
    obtain ⟨th, h1, sd', h2, psk, h3, c, h4, cth, h5, js, h6, es, h7, tag, h8, rt, h9, info, h10, egi, h11, hf⟩ := hf
    cases hf
    rw [hsd] at h2
    cases h2
    rw [C38_none pr _ sd hsd] at h3
    cases h3
    unfold signPrivateMessageContent at h4
    rw [Res.bind_ok_iff] at h4
    obtain ⟨a, h4, hcc⟩ := h4
    cases hcc
    rw [(C102_signed hsd _ _).1] at h4
    obtain ⟨_, _, htag, h4⟩ := h4
    obtain ⟨_, _, ⟨sig, tag0⟩⟩ := a
    dsimp only at htag h4 h5
    subst htag
    obtain ⟨input, k5, rfl⟩ := ((C102_transcript hsd _).1 _ _ _ _).1 h5
    obtain ⟨raw1, hraw, k6⟩ := (hjoin _ _ _).1 h6
    obtain ⟨raw2, hraw2, k7⟩ := (hepoch _ _ _ _).1 h7
    rw [hraw] at hraw2
    cases hraw2
    have h8 := (hconf _ _ _ _).1 h8
    subst h8
    rw [hs.flat, encTree_iff] at h9
    rw [hs.flat, C102_tree_hash hc hsd hd] at h1
    obtain ⟨he, h10⟩ := ((C102_signed hsd _ _).2.2.2 _ info rfl).1 h10
    obtain ⟨ib, h11, h14⟩ := (henc info _ _ (by rw [he])).1 h11
    rw [he] at h11
    unfold Spec.Rfc.prepared
    exact Option.bind_eq_some_iff.2 ⟨_, h1, Option.bind_eq_some_iff.2 ⟨_, h4, Option.bind_eq_some_iff.2 ⟨_, k5,
      Option.bind_eq_some_iff.2 ⟨_, hraw, Option.bind_eq_some_iff.2 ⟨_, k6, Option.bind_eq_some_iff.2 ⟨_, k7,
      Option.bind_eq_some_iff.2 ⟨_, h9, Option.bind_eq_some_iff.2 ⟨_, h10, Option.bind_eq_some_iff.2 ⟨_, h11,
      Option.bind_eq_some_iff.2 ⟨_, h14, rfl⟩⟩⟩⟩⟩⟩⟩⟩⟩⟩
  · intro hf
    unfold Spec.Rfc.prepared at hf
    simp only [Option.bind_eq_bind, Option.bind_eq_some_iff] at hf
    obtain ⟨th, h1, sig, h4, input, h5, raw1, hraw, js, h6, es, h7, rt, h9, isig, h10, ib, h11, egi, h14, hf⟩ := hf
    cases hf
    unfold prepareWelcome
    exact Res.bind_ok_iff.2 ⟨th, by rw [hs.flat]; exact (C102_tree_hash hc hsd hd s th).2 h1, Res.bind_ok_iff.2 ⟨sd, hsd,
      Res.bind_ok_iff.2 ⟨_, C38_none pr _ sd hsd, Res.bind_ok_iff.2 ⟨⟨.commit { proposals := kps.map fun k => .proposal (.add k), path := none }, ⟨sig, []⟩⟩,
      Res.bind_ok_iff.2 ⟨⟨.privateMessage, _, ⟨sig, []⟩⟩, ((C102_signed hsd _ _).1 _ _ _ _).2 ⟨rfl, rfl, rfl, h4⟩, rfl⟩,
      Res.bind_ok_iff.2 ⟨_, ((C102_transcript hsd _).1 _ _ _ _).2 ⟨input, h5, rfl⟩,
      Res.bind_ok_iff.2 ⟨js, (hjoin _ _ _).2 ⟨_, hraw, h6⟩, Res.bind_ok_iff.2 ⟨es, (hepoch _ _ _ _).2 ⟨_, hraw, h7⟩,
      Res.bind_ok_iff.2 ⟨_, (hconf _ _ _ _).2 rfl, Res.bind_ok_iff.2 ⟨rt, by rw [hs.flat]; exact encTree_iff.2 h9,
      Res.bind_ok_iff.2 ⟨_, ((C102_signed hsd _ _).2.2.2 _ (inviteInfo _ rt _ g.myLeafIndex isig) rfl).2 ⟨rfl, h10⟩,
      Res.bind_ok_iff.2 ⟨egi, (henc _ _ _ rfl).2 ⟨ib, h11, h14⟩, rfl⟩⟩⟩⟩⟩⟩⟩⟩⟩⟩⟩

theorem sealedSecrets_iff {p : Spec.Rfc.Prepared} {gb cb : Bytes} : Spec.Rfc.sealedSecrets p = some (gb, cb) ↔
    GroupSecrets.enc { joinerSecret := p.joinerSecret, pathSecret := none, psks := [] } = .ok gb ∧
      encEncryptContext lblWelcome p.encryptedGroupInfo = .ok cb := by
  have hgs : ∀ (x : GroupSecrets) b, x.enc = .ok b ↔ (Spec.Rfc.groupSecrets x).bytes = some b := by
    intro x b; rw [← groupSecrets_val, Enc.val_ok_iff]
  have hctx : ∀ egi b, encEncryptContext lblWelcome egi = .ok b ↔
      (Spec.Rfc.encryptContext (Spec.ascii "MLS 1.0 Welcome") egi).bytes = some b :=
    fun egi b => (C102_contexts b).2.2.2 lblWelcome "Welcome" egi (by decide)
  unfold Spec.Rfc.sealedSecrets
  simp only [hgs, hctx, Option.bind_eq_bind, Option.bind_eq_some_iff, Option.pure_def, Option.some.injEq, Prod.mk.injEq]
  constructor
  · rintro ⟨_, h1, _, h2, rfl, rfl⟩
    exact ⟨h1, h2⟩
  · rintro ⟨h1, h2⟩
    exact ⟨_, h1, _, h2, rfl, rfl⟩

theorem finishWelcome_iff (hc : pr.Correct) {g : Group} {sd : SuiteDesc} (hsd : suite g.groupContext.cipherSuite = .ok sd)
    {depth : Nat} (hdep : depth ≤ 31) (hlen : g.tree.length = 2 ^ (depth + 1) - 1) (hin : g.myLeafIndex.toNat < 2 ^ depth)
    {h : Heap} {t : RTree} {d : Nat} (hd : d ≤ 31) {s : Ratchet ParentNode d} (hs : Holds h t s) {kps : List KeyPackage} (hne : kps ≠ [])
    {r : WelcomeRand} {w : Welcome} {raw : Bytes} :
    finishWelcome pr g h t kps r = .ok (w, raw) ↔
      Spec.Rfc.invitation pr sd g.groupContext g.epochSecret g.initSecret g.interimTranscriptHash g.signaturePriv depth g.myLeafIndex
        kps r s = some (w, raw) := by
  rw [finishWelcome_prepare]
  unfold Spec.Rfc.invitation
  simp only [Res.bind_ok_iff, Option.bind_eq_bind, Option.bind_eq_some_iff, prepareWelcome_iff hc hsd hd hs]
  constructor
  · rintro ⟨p, h1, secrets, h2, m, h3, hf⟩
    cases hf
    obtain ⟨gb, cb, h4, h5⟩ := encryptSecretsLoop_encodes hne h2
    exact ⟨p, h1, (gb, cb), sealedSecrets_iff.2 ⟨h4, h5⟩, secrets, (secretsFor_iff hsd h4 h5 _ _ _).1 h2, _,
      (encryptPrivateMessage_iff hc hsd hdep hlen hin
        (c := ⟨.commit { proposals := kps.map fun k => .proposal (.add k), path := none }, ⟨p.signature, p.confirmationTag⟩⟩)).1 h3, rfl⟩
  · rintro ⟨p, h1, ⟨gb, cb⟩, hx, secrets, h2, m, h3, hf⟩
    cases hf
    obtain ⟨h4, h5⟩ := sealedSecrets_iff.1 hx
    exact ⟨p, h1, secrets, (secretsFor_iff hsd h4 h5 _ _ _).2 h2, _,
      (encryptPrivateMessage_iff hc hsd hdep hlen hin
        (c := ⟨.commit { proposals := kps.map fun k => .proposal (.add k), path := none }, ⟨p.signature, p.confirmationTag⟩⟩)).2 h3, rfl⟩

/-! ### C107 -/

/-- What the theorems below take from a group in use: the suite, and the tree as the complete binary tree it is, with the member in it. -/
theorem reachable_shape (hc : pr.Correct) {st : GroupState} (hr : Reachable pr st) :
    ∃ (sd : SuiteDesc) (d : Nat) (s : Ratchet ParentNode d), suite st.group.groupContext.cipherSuite = .ok sd ∧ d ≤ 31 ∧
      Holds st.heap st.group.tree s ∧ st.group.tree.length = 2 ^ (d + 1) - 1 ∧ st.group.myLeafIndex.toNat < 2 ^ d := by
  have hi := hr.inv hc
  obtain ⟨sd, hsd⟩ := hi.suite
  obtain ⟨d, hd, s, hs⟩ := hi.tree.holds
  have hlen : st.group.tree.length = 2 ^ (d + 1) - 1 := hs.length
  have hown := hi.own
  have h2d : 2 ^ (d + 1) = 2 * 2 ^ d := by rw [Nat.pow_succ]; omega
  exact ⟨sd, d, s, hsd, hd, hs, hlen, by omega⟩

/-- **C107**, application data: in every group in use, CreateApplicationMessage returns the message of RFC 9420 with the data, if there is
one, and an error if there is none. -/
theorem C107_application (hc : pr.Correct) {st : GroupState} (hr : Reachable pr st) :
    ∃ (sd : SuiteDesc) (d : Nat) (s : Ratchet ParentNode d), (st.group.groupContext.cipherSuite.toNat, sd) ∈ Spec.suites ∧
      st.vtree = s.flat .leaf .parent ∧ ∀ (data rand : Bytes) (guard : Bytes4),
      createApplicationMessage pr st data rand guard =
        match Spec.Rfc.applicationMessage pr sd st.group.groupContext st.group.epochSecret st.group.signaturePriv d st.group.myLeafIndex
          data rand guard with
        | some raw => .ok raw
        | none => .err := by
  obtain ⟨sd, d, s, hsd, hd, hs, hlen, hin⟩ := reachable_shape hc hr
  refine ⟨sd, d, s, (suite_iff_spec _ _).1 hsd, hs.flat, fun data rand guard => ?_⟩
  have key := fun raw => createApplicationMessage_iff hc hsd hd hlen hin (data := data) (rand := rand) (guard := guard) (raw := raw)
  split
  · next raw h => exact (key raw).2 h
  · next h =>
    have hf := C73_application hc hr data rand guard
    cases ho : createApplicationMessage pr st data rand guard with
    | ok raw => rw [(key raw).1 ho] at h; cases h
    | err => rfl
    | panic => rw [ho] at hf; exact absurd hf (by simp [Res.Fine])
    | hang => rw [ho] at hf; exact absurd hf (by simp [Res.Fine])

/-- RFC 9420 section 7.7: the tree with the leaves of the key packages added, one after the other. -/
def Spec.withMembers {d : Nat} (s : Ratchet ParentNode d) (kps : List KeyPackage) : Ratchet.Any ParentNode :=
  kps.foldl (fun t k => t.2.add k.leafNode) ⟨d, s⟩

theorem applyProposals_adds {d : Nat} (s : Ratchet ParentNode d) (kps : List KeyPackage) (i : UInt32) :
    Spec.applyProposals (some ⟨d, s⟩) (kps.map fun k => (.add k, i)) = some (some (Spec.withMembers s kps)) := by
  have h1 : Spec.Ratchet.updatesOf ((kps.map fun k => (Proposal.add k, i)).map fun p => (p.1.low, lowIndex p.2)) = [] := by
    induction kps with
    | nil => rfl
    | cons k kps ih => exact ih
  have h2 : Spec.Ratchet.removesOf ((kps.map fun k => (Proposal.add k, i)).map fun p => p.1.low) = [] := by
    clear h1
    induction kps with
    | nil => rfl
    | cons k kps ih => exact ih
  have h3 : Spec.Ratchet.addsOf ((kps.map fun k => (Proposal.add k, i)).map fun p => p.1.low) = kps.map KeyPackage.leafNode := by
    clear h1 h2
    induction kps with
    | nil => rfl
    | cons k kps ih => exact congrArg (k.leafNode :: ·) ih
  have h4 : ∀ (kps : List KeyPackage) (t : Ratchet.Any ParentNode),
      (kps.map KeyPackage.leafNode).foldl (fun t n => some (Spec.Ratchet.addOpt t n)) (some t) =
        some (kps.foldl (fun t k => t.2.add k.leafNode) t) := by
    intro kps
    induction kps with
    | nil => intro t; rfl
    | cons k kps ih => intro t; exact ih _
  unfold Spec.applyProposals Spec.Ratchet.applyAll
  rw [h1, h2, h3]
  exact congrArg some (h4 kps _)

/-- **C107**, invitations: in every group in use and for at least one key package, CreateWelcome returns the welcome and the message of
RFC 9420 that add them, exactly if the tree with them has at most 2^31 leaves and there are such. Nothing else is asked of the key packages. -/
theorem C107_invitation (hc : pr.Correct) {st : GroupState} (hr : Reachable pr st) :
    ∃ (sd : SuiteDesc) (d : Nat) (s : Ratchet ParentNode d), (st.group.groupContext.cipherSuite.toNat, sd) ∈ Spec.suites ∧
      st.vtree = s.flat .leaf .parent ∧ ∀ (kps : List KeyPackage) (r : WelcomeRand) (w : Welcome) (raw : Bytes), kps ≠ [] →
      ((createWelcome pr st kps r).1 = .ok (w, raw) ↔ (Spec.withMembers s kps).1 ≤ 31 ∧
        Spec.Rfc.invitation pr sd st.group.groupContext st.group.epochSecret st.group.initSecret st.group.interimTranscriptHash
          st.group.signaturePriv d st.group.myLeafIndex kps r (Spec.withMembers s kps).2 = some (w, raw)) := by
  obtain ⟨sd, d0, s0, hsd, hd0, hs0, hlen, hin⟩ := reachable_shape hc hr
  refine ⟨sd, d0, s0, (suite_iff_spec _ _).1 hsd, hs0.flat, fun kps r w raw hne => ?_⟩
  have hout := treeApply_outcome (s := some ⟨d0, s0⟩) hd0 hs0 (kps.map fun k => (Proposal.add k, st.group.myLeafIndex))
  simp only [applyProposals_adds, List.map_map, Function.comp_def] at hout
  unfold createWelcome
  rw [if_neg (by simpa using hne), treeApply_adds _ _ _ _ (kps.map fun _ => st.group.myLeafIndex)]
  rcases hout with ⟨hsm, h', t', h2, h3⟩ | ⟨hsm, h2⟩
  · replace h2 : treeApply st.heap st.group.tree (kps.map .add) (kps.map fun _ => st.group.myLeafIndex) = .ok (h', t') := h2
    rw [h2]
    have := finishWelcome_iff hc hsd hd0 hlen hin hsm h3 hne (r := r) (w := w) (raw := raw)
    exact ⟨fun h => ⟨hsm, this.1 h⟩, fun h => this.2 h.2⟩
  · replace h2 : treeApply st.heap st.group.tree (kps.map .add) (kps.map fun _ => st.group.myLeafIndex) = .hang := h2
    rw [h2]
    exact ⟨fun h => (by cases h), fun h => absurd h.1 hsm⟩

/-- **C107**, creation: CreateGroup succeeds exactly if the suite of the key package is known and its leaf node has an encoding. Neither the
size of the group ID nor anything else of the key package is looked at. -/
theorem C107_creation (hc : pr.Correct) (id : Bytes) (kp : KeyPairPackage) (rand : Nat → UInt8) :
    (∃ st, createGroup pr id kp rand = .ok st) ↔
      (∃ sd, (kp.pub.cipherSuite.toNat, sd) ∈ Spec.suites) ∧ ∃ b, (Spec.Rfc.leafNode kp.pub.leafNode).bytes = some b := by
  constructor
  · rintro ⟨st, h⟩
    obtain ⟨sd, hsd, _⟩ := C52_secrets pr id kp rand st h
    refine ⟨⟨sd, hsd⟩, ?_⟩
    unfold createGroup at h
    rw [treeAdd_single] at h
    simp only [Res.ok_bind, Res.bind_ok_iff] at h
    obtain ⟨_, _, th, hth, _⟩ := h
    have hf : derefTree [] [some (TNode.leaf kp.pub.leafNode)] = (Ratchet.leaf (P := ParentNode) (some kp.pub.leafNode)).flat .leaf .parent := rfl
    rw [hf, C102_tree_hash hc ((suite_iff_spec _ _).2 hsd) (by decide)] at hth
    unfold Spec.Rfc.treeHash at hth
    rw [Option.map_eq_some_iff] at hth
    obtain ⟨b, hb, _⟩ := hth
    rw [← leafHashInput_val 0 (by decide), ← Enc.val_ok_iff] at hb
    unfold encLeafNodeHashInput at hb
    simp only [Enc.append_ok_iff] at hb
    obtain ⟨_, c, _, ⟨_, y, _, hy, _⟩, _⟩ := hb
    exact ⟨y, by rw [← leafNode_val]; exact Enc.val_ok_iff.1 hy⟩
  · rintro ⟨⟨sd, hsd⟩, b, hb⟩
    refine C52_total pr hc id kp rand ?_ b (Enc.val_ok_iff.2 (by rw [leafNode_val]; exact hb))
    simp only [Spec.suites, List.mem_cons, Prod.mk.injEq, List.not_mem_nil, or_false] at hsd
    omega

/-! ### Sizes -/

/-- The value has an encoding of at most `n` bytes. -/
def Spec.Rfc.Sized (i : Spec.Rfc.Item) (n : Nat) : Prop := ∃ b, i.bytes = some b ∧ b.length ≤ n

open Spec.Rfc (Sized Item)

theorem sized_num {k v : Nat} (h : v < 256 ^ k) : Sized (.num k v) k :=
  ⟨_, item_num k v h, by rw [beBytes_length]⟩

theorem sized_opaque {b : Bytes} (h : b.length < 2 ^ 30) : Sized (.opaque b) (b.length + 4) := by
  have : ∃ x, Spec.opaqueVec b = some x ∧ x.length ≤ b.length + 4 := by
    unfold Spec.opaqueVec Spec.varint
    split
    · exact ⟨_, rfl, by simp⟩
    · split
      · exact ⟨_, rfl, by simp⟩
      · rw [if_pos (by omega)]
        exact ⟨_, rfl, by simp⟩
  obtain ⟨x, h1, h2⟩ := this
  exact ⟨x, by rw [opaque_bytes, h1], h2⟩

theorem sized_nil : Sized (.struct []) 0 := ⟨[], by rw [struct_bytes, concat_nil], Nat.le_refl _⟩

theorem sized_cons {i : Item} {l : List Item} {n m : Nat} (h : Sized i n) (h' : Sized (.struct l) m) : Sized (.struct (i :: l)) (n + m) := by
  obtain ⟨b, h1, h2⟩ := h
  obtain ⟨c, h3, h4⟩ := h'
  rw [struct_bytes] at h3
  refine ⟨b ++ c, by rw [struct_bytes, concat_cons, h1, h3]; rfl, ?_⟩
  rw [List.length_append]
  omega

theorem struct_cons_bytes {i : Item} {l : List Item} {b : Bytes} (h : (Item.struct (i :: l)).bytes = some b) :
    ∃ x y, i.bytes = some x ∧ (Item.struct l).bytes = some y ∧ b = x ++ y := by
  rw [struct_bytes, concat_cons] at h
  unfold optCat at h
  simp only [Option.bind_eq_some_iff, Option.map_eq_some_iff] at h
  obtain ⟨x, h1, y, h2, rfl⟩ := h
  exact ⟨x, y, h1, by rw [struct_bytes, h2], rfl⟩

theorem opaque_longer {b x : Bytes} (h : (Item.opaque b).bytes = some x) : b.length < x.length := by
  rw [opaque_bytes] at h
  unfold Spec.opaqueVec Spec.varint at h
  split at h
  · cases h; simp
  · split at h
    · cases h; simp; omega
    · split at h
      · cases h; simp; omega
      · cases h

/-- What encryption adds to the data: the signature is at most `sig` bytes long, and a ciphertext is at most `tag` bytes longer than the
plaintext. For the suites of RFC 9420 `tag` is 16. -/
structure Spec.Overhead (pr : Prims) (sd : SuiteDesc) (signKey : Bytes) (sig tag : Nat) : Prop where
  signs : ∀ m r, ∃ x, pr.sign sd.sig signKey m r = some x ∧ x.length ≤ sig
  seals : ∀ k n p a c, pr.aeadSeal sd.aead k n p a = some c → c.length ≤ p.length + tag

/-- **C107**, how much can be sent: in every group in use whose group context takes `size` bytes, all data that leaves room for the group
context, the signature and the tag can be sent; the limit is the 2^30 bytes of a vector of RFC 9420. -/
theorem C107_room (hc : pr.Correct) {st : GroupState} (hr : Reachable pr st) {sd : SuiteDesc}
    (hsd : (st.group.groupContext.cipherSuite.toNat, sd) ∈ Spec.suites) {sig tag : Nat}
    (ho : Spec.Overhead pr sd st.group.signaturePriv sig tag) {context : Bytes}
    (hctx : (Spec.Rfc.groupContext st.group.groupContext).bytes = some context) (data rand : Bytes) (guard : Bytes4)
    (h1 : data.length + 2 * context.length + 32 < 2 ^ 30) (h2 : data.length + sig + tag + 20 < 2 ^ 30) :
    ∃ raw, createApplicationMessage pr st data rand guard = .ok raw := by
  obtain ⟨sd', d, s, hsd', hd, hs, hlen, hin⟩ := reachable_shape hc hr
  have hsd'' := (suite_iff_spec _ _).2 hsd
  rw [hsd'] at hsd''
  cases hsd''
  simp only [createApplicationMessage_iff hc hsd' hd hlen hin]
  have hg : st.group.groupContext.groupID.length < context.length := by
    obtain ⟨_, _, _, k1, rfl⟩ := struct_cons_bytes hctx
    obtain ⟨_, _, _, k2, rfl⟩ := struct_cons_bytes k1
    obtain ⟨x, _, k3, _, rfl⟩ := struct_cons_bytes k2
    have := opaque_longer k3
    simp only [List.length_append]
    omega
  have n8 : st.group.groupContext.epoch.toNat < 256 ^ 8 := st.group.groupContext.epoch.toNat_lt
  have n4 : st.group.myLeafIndex.toNat < 256 ^ 4 := st.group.myLeafIndex.toNat_lt
  have hcon : Sized (Spec.Rfc.groupContext st.group.groupContext) context.length := ⟨context, hctx, Nat.le_refl _⟩
  have htbs : Sized (Spec.Rfc.framedContentTBS .privateMessage (Spec.Rfc.framed st.group.groupContext st.group.myLeafIndex (.application data))
      st.group.groupContext) (data.length + 2 * context.length + 32) := by
    obtain ⟨b, hb, hl⟩ := sized_cons (sized_num (k := 2) (v := 1) (by decide)) <| sized_cons (sized_num (k := 2) (v := 2) (by decide)) <| sized_cons
      (sized_cons (sized_opaque (b := st.group.groupContext.groupID) (by omega)) <| sized_cons (sized_num n8) <| sized_cons
        (sized_cons (sized_num (k := 1) (v := 1) (by decide)) <| sized_cons (sized_num n4) sized_nil) <|
        sized_cons (sized_opaque (b := []) (by decide)) <| sized_cons (sized_num (k := 1) (v := 1) (by decide)) <|
        sized_cons (sized_opaque (b := data) (by omega)) sized_nil) <|
      sized_cons hcon sized_nil
    refine ⟨b, hb, ?_⟩
    rw [List.length_nil] at hl
    omega
  obtain ⟨t, ht, htl⟩ := htbs
  obtain ⟨m, hm, _⟩ := sized_cons (sized_opaque (b := Spec.ascii ("MLS 1.0 " ++ "FramedContentTBS")) (by decide)) <|
    sized_cons (sized_opaque (b := t) (by omega)) sized_nil
  obtain ⟨x, hx, hxl⟩ := ho.signs m rand
  obtain ⟨pt, hpt, hptl⟩ := sized_cons (sized_opaque (b := data) (by omega)) <| sized_cons
    (sized_cons (sized_opaque (b := x) (by omega)) <| sized_cons sized_nil sized_nil) <|
    sized_cons (i := .fixed []) ⟨[], fixed_bytes [], Nat.le_refl 0⟩ sized_nil
  obtain ⟨aad, haad, _⟩ := sized_cons (sized_opaque (b := st.group.groupContext.groupID) (by omega)) <| sized_cons (sized_num n8) <| sized_cons
    (sized_num (k := 1) (v := 1) (by decide)) <| sized_cons (sized_opaque (b := []) (by decide)) sized_nil
  obtain ⟨saad, hsaad, _⟩ := sized_cons (sized_opaque (b := st.group.groupContext.groupID) (by omega)) <| sized_cons (sized_num n8) <|
    sized_cons (sized_num (k := 1) (v := 1) (by decide)) sized_nil
  obtain ⟨sb, hsb, hsbl⟩ := sized_cons (sized_num n4) <| sized_cons (sized_num (k := 4) (v := 0) (by decide)) <|
    sized_cons (i := .fixed [guard.b0, guard.b1, guard.b2, guard.b3]) ⟨_, fixed_bytes _, Nat.le_refl 4⟩ sized_nil
  obtain ⟨ct, hct⟩ := hc.aead_seal sd.aead (Spec.messageKey pr sd st.group.epochSecret d st.group.myLeafIndex.toNat .application 0)
    (Spec.messageNonce pr sd st.group.epochSecret d st.group.myLeafIndex.toNat .application 0 [guard.b0, guard.b1, guard.b2, guard.b3]) pt aad
    (hc.expand_length _ _ _ _ (expandable_key _ _)) (by
      unfold Spec.messageNonce Spec.mask
      have : ∀ a b, (Spec.deriveTreeSecret pr sd a "nonce" b sd.aead.nonceSize).length = 12 :=
        fun a b => (hc.expand_length _ _ _ _ (expandable_nonce _ _)).trans (nonceSize_eq _)
      simp [this]) (by omega)
  have hctl := ho.seals _ _ _ _ _ hct
  obtain ⟨esd, hesd⟩ := hc.aead_seal sd.aead (Spec.senderDataKey pr sd st.group.epochSecret ct) (Spec.senderDataNonce pr sd st.group.epochSecret ct)
    sb saad (hc.expand_length _ _ _ _ (expandable_key _ _)) ((hc.expand_length _ _ _ _ (expandable_nonce _ _)).trans (nonceSize_eq _)) (by omega)
  have hesdl := ho.seals _ _ _ _ _ hesd
  obtain ⟨raw, hraw, _⟩ := sized_cons (sized_num (k := 2) (v := 1) (by decide)) <| sized_cons (sized_num (k := 2) (v := 2) (by decide)) <| sized_cons
    (sized_cons (sized_opaque (b := st.group.groupContext.groupID) (by omega)) <| sized_cons (sized_num n8) <|
      sized_cons (sized_num (k := 1) (v := 1) (by decide)) <| sized_cons (sized_opaque (b := []) (by decide)) <|
      sized_cons (sized_opaque (b := esd) (by omega)) <| sized_cons (sized_opaque (b := ct) (by omega)) sized_nil) sized_nil
  refine ⟨raw, ?_⟩
  unfold Spec.Rfc.applicationMessage
  refine Option.bind_eq_some_iff.2 ⟨x, Option.bind_eq_some_iff.2 ⟨t, ht, Option.bind_eq_some_iff.2 ⟨m, hm, hx⟩⟩, ?_⟩
  unfold Spec.Rfc.protect
  exact Option.bind_eq_some_iff.2 ⟨pt, hpt, Option.bind_eq_some_iff.2 ⟨aad, haad, Option.bind_eq_some_iff.2 ⟨ct, hct,
    Option.bind_eq_some_iff.2 ⟨saad, hsaad, Option.bind_eq_some_iff.2 ⟨sb, hsb, Option.bind_eq_some_iff.2 ⟨esd, hesd, hraw⟩⟩⟩⟩⟩⟩

/-! ### Concrete cases -/

/-- The hypotheses of C107_application and C107_invitation are met: of three members the last sends a message, and the first invites two
more, which makes a tree of eight leaves; with a key package whose credential cannot be encoded CreateWelcome panics. -/
example : ∃ a c : GroupState, Reachable toyPrims a ∧ Reachable toyPrims c ∧
    (∃ raw, createApplicationMessage toyPrims c [104, 105] [] ⟨1, 2, 3, 4⟩ = .ok raw) ∧
    (∃ w raw, (createWelcome toyPrims a [(toyMember 3).pub, (toyMember 4).pub] default).1 = .ok (w, raw)) ∧
    (createWelcome toyPrims a [{ (toyMember 3).pub with version := 1, leafNode := { (toyMember 3).pub.leafNode with credential := .other 9 } }]
      default).1 = .panic := by
  have key : toyThree.holds (fun (a, _, c) => (createApplicationMessage toyPrims c [104, 105] [] ⟨1, 2, 3, 4⟩).holds (fun _ => true) &&
      (createWelcome toyPrims a [(toyMember 3).pub, (toyMember 4).pub] default).1.holds (fun _ => true) &&
      decide ((createWelcome toyPrims a [{ (toyMember 3).pub with
        version := 1, leafNode := { (toyMember 3).pub.leafNode with credential := .other 9 } }] default).1 = .panic)) = true := by
    decide +kernel
  obtain ⟨⟨a, b, c⟩, h, key⟩ := Res.holds_ok key
  simp only [Bool.and_eq_true] at key
  obtain ⟨⟨k1, k2⟩, k3⟩ := key
  obtain ⟨raw, k1, _⟩ := Res.holds_ok k1
  obtain ⟨⟨w, raw'⟩, k2, _⟩ := Res.holds_ok k2
  exact ⟨a, c, (toyThree_reachable h).1, (toyThree_reachable h).2.2, ⟨raw, k1⟩, ⟨w, raw', k2⟩, of_decide_eq_true k3⟩

/-- Both sides of C107_creation occur. -/
example : (∃ st, createGroup toyPrims [7] (toyMember 0) (fun _ => 0) = .ok st) ∧
    ¬∃ st, createGroup toyPrims [7] { toyMember 0 with pub := { (toyMember 0).pub with cipherSuite := 8 } } (fun _ => 0) = .ok st := by
  constructor
  · have key : (createGroup toyPrims [7] (toyMember 0) fun _ => 0).holds (fun _ => true) = true := by decide +kernel
    obtain ⟨st, h, _⟩ := Res.holds_ok key
    exact ⟨st, h⟩
  · rw [C107_creation toyPrims_correct]
    rintro ⟨⟨sd, h⟩, _⟩
    simp [Spec.suites] at h

/-- The toy primitives with signatures of one byte and tags of sixteen. -/
def shortPrims : Prims :=
  { toyPrims with
    sign := fun _ k m _ => some [toySum (k ++ m)]
    verify := fun s k m sig => if s.ecdsa && k.isEmpty then none else some (sig == [toySum (k ++ m)])
    aeadSeal := fun a k n p d => if k.length = a.keySize then some (p ++ List.replicate 16 (toySum (k ++ n ++ d))) else none
    aeadOpen := fun a k n c d =>
      if k.length = a.keySize then (stripPrefix (List.replicate 16 (toySum (k ++ n ++ d))) c.reverse).map List.reverse else none }

theorem shortPrims_correct : shortPrims.Correct :=
  { toyPrims_correct with
    aead_seal := fun a k n p aad h _ _ => by simp [shortPrims, h]
    aead_open := fun a k n p aad c h => by
      simp only [shortPrims] at h ⊢
      split at h
      · next hk =>
        cases h
        rw [if_pos hk, List.reverse_append (as := p), List.reverse_replicate, stripPrefix_append, Option.map_some, List.reverse_reverse]
      · cases h
    sign_verify := fun s r m rand sig h => by
      simp only [shortPrims, toyPrims, Option.some.injEq] at h ⊢
      subst h
      cases he : s.ecdsa <;> cases r <;> simp
    verify_readable := fun s k m sig h m' sig' => by
      simp only [shortPrims] at h ⊢
      split at h
      · cases h
      · next hk => rw [if_neg hk]; simp }

theorem shortPrims_overhead (sd : SuiteDesc) (signKey : Bytes) : Spec.Overhead shortPrims sd signKey 1 16 := by
  refine ⟨fun m r => ⟨_, rfl, Nat.le_refl _⟩, fun k n p a c h => ?_⟩
  simp only [shortPrims] at h
  split at h
  · cases h; simp
  · cases h

/-- The hypotheses of C107_room are met: in this group a million zeros can be sent. -/
example : ∃ (st : GroupState) (raw : Bytes), Reachable shortPrims st ∧
    createApplicationMessage shortPrims st (List.replicate 1000000 0) [] ⟨1, 2, 3, 4⟩ = .ok raw := by
  have key : (createGroup shortPrims [7] (toyMember 0) fun _ => 0).holds (fun st => decide (st.group.groupContext.cipherSuite = 1) &&
      st.group.groupContext.enc.holds fun b => decide (b.length < 100)) = true := by decide +kernel
  obtain ⟨st, h, key⟩ := Res.holds_ok key
  simp only [Bool.and_eq_true] at key
  obtain ⟨k1, k2⟩ := key
  have k1 := of_decide_eq_true k1
  obtain ⟨b, hb, k2⟩ := Res.holds_ok k2
  have k2 := of_decide_eq_true k2
  obtain ⟨sd, hsd⟩ : ∃ sd, (st.group.groupContext.cipherSuite.toNat, sd) ∈ Spec.suites := by rw [k1]; exact ⟨_, List.mem_cons_self⟩
  obtain ⟨raw, hraw⟩ := C107_room shortPrims_correct (.create h) hsd (shortPrims_overhead sd _)
    (by rw [← groupContext_val]; exact Enc.val_ok_iff.1 hb) (List.replicate 1000000 0) [] ⟨1, 2, 3, 4⟩
    (by rw [List.length_replicate]; omega) (by rw [List.length_replicate]; omega)
  exact ⟨st, raw, .create h, hraw⟩

end Mls
