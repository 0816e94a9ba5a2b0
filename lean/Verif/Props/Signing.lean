import Verif.Proofs.Unamb
import Verif.Proofs.Sign
import Verif.Model.Framing
import Verif.Model.Group
import Verif.Spec.Toy
/-
C12 - C14: what is signed, hashed or authenticated determines what it was made from.
-/
namespace Mls

/-! ### C12: framed contents -/

theorem tbs_split {wf : WireFormat} {c : FramedContent} {ctx : GroupContext} {x : Bytes}
    (h : encFramedContentTBS wf c ctx = .ok x) :
    ∃ v w y z, addU16 1 = .ok v ∧ wf.enc = .ok w ∧ c.enc = .ok y ∧ x = v ++ (w ++ (y ++ z)) ∧
      (match c.sender with
        | .member _ | .newMemberCommit => ctx.enc = .ok z
        | _ => z = []) := by
  unfold encFramedContentTBS at h
  split at h <;> simp only [Enc.append_assoc, Enc.append_ok_iff] at h
  · obtain ⟨v, _, hv, ⟨w, _, hw, ⟨y, z, hy, hz, rfl⟩, rfl⟩, rfl⟩ := h
    exact ⟨v, w, y, z, hv, hw, hy, rfl, by simp_all⟩
  · obtain ⟨v, _, hv, ⟨w, _, hw, ⟨y, z, hy, hz, rfl⟩, rfl⟩, rfl⟩ := h
    exact ⟨v, w, y, z, hv, hw, hy, rfl, by simp_all⟩
  · obtain ⟨v, _, hv, ⟨w, y, hw, hy, rfl⟩, rfl⟩ := h
    refine ⟨v, w, y, [], hv, hw, hy, by simp, ?_⟩
    split <;> simp_all

/-- To-be-signed bytes with continuations. -/
theorem tbs_unamb {wf wf' : WireFormat} {c c' : FramedContent} {ctx ctx' : GroupContext}
    {x y r s : Bytes} (h : encFramedContentTBS wf c ctx = .ok x)
    (h' : encFramedContentTBS wf' c' ctx' = .ok y) (he : x ++ r = y ++ s) :
    wf = wf' ∧ c = c' ∧
      ((∃ i, c.sender = .member i) ∨ c.sender = .newMemberCommit → ctx = ctx') ∧ r = s := by
  obtain ⟨v, w, a, z, hv, hw, ha, rfl, hz⟩ := tbs_split h
  obtain ⟨v', w', a', z', hv', hw', ha', rfl, hz'⟩ := tbs_split h'
  simp only [List.append_assoc] at he
  obtain ⟨_, he⟩ := uU16 _ _ _ _ _ _ hv hv' he
  obtain ⟨hwf, he⟩ := uWireFormat _ _ _ _ _ _ hw hw' he
  obtain ⟨rfl, he⟩ := uFramedContent _ _ _ _ _ _ ha ha' he
  refine ⟨hwf, rfl, ?_⟩
  cases hs : c.sender <;> rw [hs] at hz hz' <;> simp only at hz hz'
  · obtain ⟨rfl, he⟩ := uGroupContext _ _ _ _ _ _ hz hz' he
    exact ⟨fun _ => rfl, he⟩
  · subst hz hz'
    exact ⟨by simp, by simpa using he⟩
  · subst hz hz'
    exact ⟨by simp, by simpa using he⟩
  · obtain ⟨rfl, he⟩ := uGroupContext _ _ _ _ _ _ hz hz' he
    exact ⟨fun _ => rfl, he⟩

/-- C12: the bytes signed for a message determine the wire format and every field of the framed
content; for members (and new members committing) also the whole group context. -/
theorem C12_tbs (wf wf' : WireFormat) (c c' : FramedContent) (ctx ctx' : GroupContext) (x : Bytes)
    (h : encFramedContentTBS wf c ctx = .ok x) (h' : encFramedContentTBS wf' c' ctx' = .ok x) :
    wf = wf' ∧ c.groupID = c'.groupID ∧ c.epoch = c'.epoch ∧ c.sender = c'.sender ∧
      c.authenticatedData = c'.authenticatedData ∧ c.content = c'.content ∧
      ((∃ i, c.sender = .member i) → ctx = ctx') := by
  obtain ⟨h1, rfl, h3, _⟩ := tbs_unamb (r := []) (s := []) h h' rfl
  exact ⟨h1, rfl, rfl, rfl, rfl, rfl, fun h => h3 (.inl h)⟩

/-- What it means for a signature scheme that a signature value speaks for one message only. -/
def Prims.SigBinding (pr : Prims) : Prop :=
  ∀ s k m m' sig, pr.verify s k m sig = some true → pr.verify s k m' sig = some true → m = m'

/-- The hypothesis can be met. -/
example : toyPrims.SigBinding := by
  intro s k m m' sig h h'
  simp only [toyPrims] at h h'
  split at h
  · cases h
  next hk =>
  rw [if_neg hk] at h'
  simp only [Option.some.injEq, beq_iff_eq] at h h'
  rw [h] at h'
  exact List.append_cancel_left h'

theorem orFalse_true {α : Type} {x : Res α} {f : α → Res Bool} :
    orFalse x f = .ok true ↔ ∃ a, x = .ok a ∧ f a = .ok true := by
  cases x <;> simp [orFalse]

theorem verifyWithLabel_true {pr : Prims} {cs : UInt16} {k l c sig : Bytes} :
    verifyWithLabel pr cs k l c sig = .ok true ↔
      ∃ m d, encSignContent l c = .ok m ∧ suite cs = .ok d ∧ pr.verify d.sig k m sig = some true := by
  unfold verifyWithLabel
  cases h : encSignContent l c <;> simp
  rcases hd : suite cs with d | _ | _ | _ <;> simp [Bind.bind, Res.bind, sigVerify_iff]

/-- C13: the bytes signed determine the label and the content. -/
theorem C13_sign (l l' c c' : Bytes) (x : Bytes) (h : encSignContent l c = .ok x)
    (h' : encSignContent l' c' = .ok x) : l = l' ∧ c = c' := by
  simp only [encSignContent, Enc.append_ok_iff] at h h'
  obtain ⟨a, b, ha, hb, rfl⟩ := h
  obtain ⟨a', b', ha', hb', he⟩ := h'
  obtain ⟨h1, he⟩ := uOpaque _ _ _ _ _ _ ha ha' he
  obtain ⟨h2, _⟩ := uOpaque _ _ _ _ [] [] hb hb' (by simpa using he)
  exact ⟨List.append_cancel_left h1, h2⟩

/-- C12: with a binding signature scheme, one signature value under one key is accepted for at
most one message: whenever the library accepts it twice (in the same cipher suite), the two
messages are the same in wire format, content and, for members, group context. -/
theorem C12_accepted_once (pr : Prims) (hb : pr.SigBinding) (a a' : AuthenticatedContent)
    (key : Bytes) (ctx ctx' : GroupContext) (hcs : ctx.cipherSuite = ctx'.cipherSuite)
    (hsig : a.auth.signature = a'.auth.signature)
    (h : a.verifySignature pr key ctx = .ok true) (h' : a'.verifySignature pr key ctx' = .ok true) :
    a.wireFormat = a'.wireFormat ∧ a.content = a'.content ∧
      ((∃ i, a.content.sender = .member i) → ctx = ctx') := by
  unfold AuthenticatedContent.verifySignature at h h'
  obtain ⟨x, hx, hv⟩ := orFalse_true.1 h
  obtain ⟨y, hy, hv'⟩ := orFalse_true.1 h'
  obtain ⟨m, d, hm, hd, hv⟩ := verifyWithLabel_true.1 hv
  obtain ⟨m', d', hm', hd', hv'⟩ := verifyWithLabel_true.1 hv'
  rw [hcs, hd'] at hd
  cases hd
  rw [hsig] at hv
  obtain rfl := hb _ _ _ _ _ hv hv'
  obtain ⟨_, rfl⟩ := C13_sign _ _ _ _ _ hm hm'
  obtain ⟨h1, h2, h3, _⟩ := tbs_unamb (r := []) (s := []) hx hy rfl
  exact ⟨h1, h2, fun h => h3 (.inl h)⟩

/-- C12: the bytes under the membership tag determine content, signature, confirmation tag and,
for the members that carry one, the group context. -/
theorem C12_membership (m m' : PublicMessage) (ctx ctx' : GroupContext) (x : Bytes)
    (h : m.encTBM ctx = .ok x) (h' : m'.encTBM ctx' = .ok x) :
    m.content = m'.content ∧ m.auth.signature = m'.auth.signature ∧
      (m.content.content.ty = .commit → m.auth.confirmationTag = m'.auth.confirmationTag) ∧
      ((∃ i, m.content.sender = .member i) → ctx = ctx') := by
  simp only [PublicMessage.encTBM, Enc.append_ok_iff] at h h'
  obtain ⟨a, b, ha, hb, rfl⟩ := h
  obtain ⟨a', b', ha', hb', he⟩ := h'
  obtain ⟨_, hc, h3, he⟩ := tbs_unamb ha ha' he
  subst he
  rw [← hc] at hb'
  refine ⟨hc, ?_, ?_, fun h => h3 (.inl h)⟩
  · unfold AuthData.enc at hb hb'
    cases hty : m.content.content.ty <;>
      simp only [hty, if_true, if_false, reduceCtorEq] at hb hb'
    · exact uOpaque.inj hb hb'
    · exact uOpaque.inj hb hb'
    · rw [Enc.append_ok_iff] at hb hb'
      obtain ⟨u, v, hu, hv, rfl⟩ := hb
      obtain ⟨u', v', hu', hv', he⟩ := hb'
      exact (uOpaque _ _ _ _ _ _ hu hu' he).1
  · intro hty
    unfold AuthData.enc at hb hb'
    simp only [hty, if_true] at hb hb'
    rw [Enc.append_ok_iff] at hb hb'
    obtain ⟨u, v, hu, hv, rfl⟩ := hb
    obtain ⟨u', v', hu', hv', he⟩ := hb'
    obtain ⟨_, he⟩ := uOpaque _ _ _ _ _ _ hu hu' he
    subst he
    exact uOpaque.inj hv hv'

/-- A member's application message, and its context. -/
def exCtx : GroupContext :=
  { version := 1, cipherSuite := 1, groupID := [7], epoch := 3, treeHash := [1, 2],
    confirmedTranscriptHash := [4], extensions := [] }

/-- A member's application message. -/
def exContent : FramedContent :=
  { groupID := [7], epoch := 3, sender := .member 1, authenticatedData := [],
    content := .application [104, 105] }

/-- The hypotheses of C12 are met: the message and its context have to-be-signed bytes. -/
example : encFramedContentTBS .privateMessage exContent exCtx = .ok
    [0, 1, 0, 2, 1, 7, 0, 0, 0, 0, 0, 0, 0, 3, 1, 0, 0, 0, 1, 0, 1, 2, 104, 105,
     0, 1, 0, 1, 1, 7, 0, 0, 0, 0, 0, 0, 0, 3, 2, 1, 2, 1, 4, 0] := by decide +kernel

/-- An accepted signature of a member. -/
example : ∃ tbs m, encFramedContentTBS .privateMessage exContent exCtx = .ok tbs ∧ encSignContent lblFramedContentTBS tbs = .ok m ∧
    AuthenticatedContent.verifySignature toyPrims ⟨.privateMessage, exContent, ⟨[11, 1] ++ m, []⟩⟩ [11, 1] exCtx = .ok true :=
  ⟨_, _, rfl, rfl, by decide +kernel⟩

example : (∃ x, PublicMessage.encTBM ⟨exContent, ⟨[5], []⟩, []⟩ exCtx = .ok x) ∧
    ∃ x, PublicMessage.encTBM ⟨{ exContent with content := .commit ⟨[], none⟩ }, ⟨[5], [6]⟩, []⟩ exCtx = .ok x :=
  ⟨⟨_, rfl⟩, _, rfl⟩

/-! ### C13: labels -/

/-- C13: the HPKE context string determines the label and the context. -/
theorem C13_encrypt (l l' c c' : Bytes) (x : Bytes) (h : encEncryptContext l c = .ok x)
    (h' : encEncryptContext l' c' = .ok x) : l = l' ∧ c = c' := C13_sign l l' c c' x h h'

/-- C13: the input of a reference hash determines the label and the value. -/
theorem C13_refHash (l l' c c' : Bytes) (x : Bytes) (h : encRefHashInput l c = .ok x)
    (h' : encRefHashInput l' c' = .ok x) : l = l' ∧ c = c' := by
  simp only [encRefHashInput, Enc.append_ok_iff] at h h'
  obtain ⟨a, b, ha, hb, rfl⟩ := h
  obtain ⟨a', b', ha', hb', he⟩ := h'
  obtain ⟨h1, he⟩ := uOpaque _ _ _ _ _ _ ha ha' he
  obtain ⟨h2, _⟩ := uOpaque _ _ _ _ [] [] hb hb' (by simpa using he)
  exact ⟨h1, h2⟩

/-- C13: the info string of the key derivation determines label, context and output length. -/
theorem C13_kdf (l l' c c' : Bytes) (n n' : UInt16) (x : Bytes) (h : encKdfLabel l c n = .ok x)
    (h' : encKdfLabel l' c' n' = .ok x) : l = l' ∧ c = c' ∧ n = n' := by
  simp only [encKdfLabel, Enc.append_assoc, Enc.append_ok_iff] at h h'
  obtain ⟨a, _, ha, ⟨b, d, hb, hd, rfl⟩, rfl⟩ := h
  obtain ⟨a', _, ha', ⟨b', d', hb', hd', rfl⟩, he⟩ := h'
  obtain ⟨h1, he⟩ := uU16 _ _ _ _ _ _ ha ha' he
  obtain ⟨h2, he⟩ := uOpaque _ _ _ _ _ _ hb hb' he
  obtain ⟨h3, _⟩ := uOpaque _ _ _ _ [] [] hd hd' (by simpa using he)
  exact ⟨List.append_cancel_left h2, h3, h1⟩

example : (∃ x, encSignContent lblLeafNodeTBS [1, 2] = .ok x) ∧ (∃ x, encEncryptContext lblWelcome [1, 2] = .ok x) ∧
    (∃ x, encRefHashInput lblKeyPackageRef [1, 2] = .ok x) := ⟨⟨_, rfl⟩, ⟨_, rfl⟩, _, rfl⟩

/-- The labels passed to signWithLabel and verifyWithLabel. -/
def signLabels : List Bytes := [lblLeafNodeTBS, lblKeyPackageTBS, lblGroupInfoTBS, lblFramedContentTBS]
/-- The labels passed to encryptWithLabel and decryptWithLabel. -/
def encryptLabels : List Bytes := [lblUpdatePathNode, lblWelcome]
/-- The labels passed to refHash. -/
def refLabels : List Bytes := [lblKeyPackageRef, lblProposalRef]
/-- The labels passed to expandWithLabel and deriveSecret. -/
def kdfLabels : List Bytes := [lblInit, lblSenderData, lblEncryption, lblExporter, lblExternal,
  lblConfirm, lblMembership, lblResumption, lblAuthentication, lblJoiner, lblEpoch, lblWelcomeSecret,
  lblExported, lblDerivedPsk, lblTree, lblHandshake, lblApplication, lblNonce, lblKey, lblSecret,
  lblNode, lblPath]

/-- C13: the labels used for different purposes are different strings. -/
theorem C13_labels_distinct : signLabels.Nodup ∧ encryptLabels.Nodup ∧ refLabels.Nodup ∧
    kdfLabels.Nodup := by decide +kernel

/-- C13: with a binding signature scheme, no signature made for one purpose is accepted for
another: a value accepted under two labels was accepted under the same label. -/
theorem C13_purpose (pr : Prims) (hb : pr.SigBinding) (cs : UInt16) (key l l' c c' sig : Bytes)
    (h : verifyWithLabel pr cs key l c sig = .ok true)
    (h' : verifyWithLabel pr cs key l' c' sig = .ok true) : l = l' ∧ c = c' := by
  obtain ⟨m, d, hm, hd, hv⟩ := verifyWithLabel_true.1 h
  obtain ⟨m', d', hm', hd', hv'⟩ := verifyWithLabel_true.1 h'
  rw [hd'] at hd
  cases hd
  obtain rfl := hb _ _ _ _ _ hv hv'
  exact C13_sign _ _ _ _ _ hm hm'

/-- A signature of the toy scheme that is accepted. -/
example : ∃ sig, signWithLabel toyPrims 1 [11, 1] lblFramedContentTBS [1, 2, 3] [] = .ok sig ∧
    verifyWithLabel toyPrims 1 [11, 1] lblFramedContentTBS [1, 2, 3] sig = .ok true := ⟨_, rfl, by decide +kernel⟩

example : encKdfLabel lblKey [5] 16 =
    .ok [0, 16, 11, 77, 76, 83, 32, 49, 46, 48, 32, 107, 101, 121, 1, 5] := by decide +kernel

/-! ### C14: leaf nodes, key packages, group infos -/

theorem leafBase_unamb {a b : LeafNode} {x y r s : Bytes} (ha : a.encBase = .ok x)
    (hb : b.encBase = .ok y) (he : x ++ r = y ++ s) :
    { a with signature := [] } = { b with signature := [] } ∧ r = s := by
  obtain ⟨a0, a1, a2, a3, a4, a5, a6⟩ := a
  obtain ⟨b0, b1, b2, b3, b4, b5, b6⟩ := b
  simp only [LeafNode.encBase, Enc.append_assoc, Enc.append_ok_iff] at ha hb
  obtain ⟨x0, _, e0, ⟨x1, _, e1, ⟨x2, _, e2, ⟨x3, _, e3, ⟨x4, x5, e4, e5, rfl⟩, rfl⟩, rfl⟩, rfl⟩, rfl⟩ := ha
  obtain ⟨y0, _, f0, ⟨y1, _, f1, ⟨y2, _, f2, ⟨y3, _, f3, ⟨y4, y5, f4, f5, rfl⟩, rfl⟩, rfl⟩, rfl⟩, rfl⟩ := hb
  simp only [List.append_assoc] at he
  obtain ⟨rfl, he⟩ := uOpaque _ _ _ _ _ _ e0 f0 he
  obtain ⟨rfl, he⟩ := uOpaque _ _ _ _ _ _ e1 f1 he
  obtain ⟨rfl, he⟩ := Unamb.ofRT credential_rt _ _ _ _ _ _ e2 f2 he
  obtain ⟨rfl, he⟩ := Unamb.ofRT capabilities_rt _ _ _ _ _ _ e3 f3 he
  obtain ⟨rfl, he⟩ := Unamb.ofRT source_rt _ _ _ _ _ _ e4 f4 he
  obtain ⟨rfl, he⟩ := uExts _ _ _ _ _ _ e5 f5 he
  exact ⟨rfl, he⟩

/-- C14: the bytes signed for a leaf node determine every field but the signature, and for update
and commit leaves also the group and the position. -/
theorem C14_leaf (a b : LeafNode) (g g' : Bytes) (i i' : UInt32) (x : Bytes)
    (ha : a.encTBS g i = .ok x) (hb : b.encTBS g' i' = .ok x) :
    { a with signature := [] } = { b with signature := [] } ∧
      ((∀ lt, a.source ≠ .keyPackage lt) → g = g' ∧ i = i') := by
  unfold LeafNode.encTBS at ha hb
  have key : ∀ {a b : LeafNode} {x y r s : Bytes}, a.encBase = .ok x → b.encBase = .ok y →
      x ++ r = y ++ s → a.source = b.source := by
    intro a b x y r s ha hb he
    have := (leafBase_unamb ha hb he).1
    simpa using congrArg LeafNode.source this
  split at ha <;> split at hb
  · next _ l h1 _ l' h2 =>
    exact ⟨(leafBase_unamb (r := []) (s := []) ha hb rfl).1, fun h => absurd h1 (h _)⟩
  · next _ l h1 _ h2 =>
    simp only [Enc.append_assoc, Enc.append_ok_iff] at hb
    obtain ⟨y0, r, f0, _, rfl⟩ := hb
    exact absurd ((key (r := []) (s := r) ha f0 (by simp)).symm.trans h1) (h2 _)
  · next _ h1 _ l h2 =>
    simp only [Enc.append_assoc, Enc.append_ok_iff] at ha
    obtain ⟨y0, r, f0, _, rfl⟩ := ha
    exact absurd ((key (s := []) (r := r) f0 hb (by simp)).trans h2) (h1 _)
  · simp only [Enc.append_assoc, Enc.append_ok_iff] at ha hb
    obtain ⟨x0, _, e0, ⟨x1, x2, e1, e2, rfl⟩, rfl⟩ := ha
    obtain ⟨y0, _, f0, ⟨y1, y2, f1, f2, rfl⟩, he⟩ := hb
    obtain ⟨h0, he⟩ := leafBase_unamb e0 f0 he
    obtain ⟨h1, he⟩ := uOpaque _ _ _ _ _ _ e1 f1 he
    obtain ⟨h2, he⟩ := uU32 _ _ _ _ [] [] e2 f2 (by simpa using he)
    exact ⟨h0, fun _ => ⟨h1, h2⟩⟩

/-- C14: the bytes signed for a key package determine every field but the signature. -/
theorem C14_keyPackage (a b : KeyPackage) (x : Bytes) (ha : a.encTBS = .ok x) (hb : b.encTBS = .ok x) :
    { a with signature := [] } = { b with signature := [] } := by
  have h0 : writeOpaqueVec [] = .ok [0] := by decide +kernel
  apply uKeyPackage.inj (x := x ++ [0])
  · show a.encTBS ++ writeOpaqueVec [] = _
    rw [ha, h0]; rfl
  · show b.encTBS ++ writeOpaqueVec [] = _
    rw [hb, h0]; rfl

/-- C14: the bytes signed for a group info determine every field but the signature. -/
theorem C14_groupInfo (a b : GroupInfo) (x : Bytes) (ha : a.encTBS = .ok x) (hb : b.encTBS = .ok x) :
    { a with signature := [] } = { b with signature := [] } := by
  obtain ⟨a0, a1, a2, a3, a4⟩ := a
  obtain ⟨b0, b1, b2, b3, b4⟩ := b
  simp only [GroupInfo.encTBS, Enc.append_assoc, Enc.append_ok_iff] at ha hb
  obtain ⟨x0, _, e0, ⟨x1, _, e1, ⟨x2, x3, e2, e3, rfl⟩, rfl⟩, rfl⟩ := ha
  obtain ⟨y0, _, f0, ⟨y1, _, f1, ⟨y2, y3, f2, f3, rfl⟩, rfl⟩, he⟩ := hb
  obtain ⟨rfl, he⟩ := uGroupContext _ _ _ _ _ _ e0 f0 he
  obtain ⟨rfl, he⟩ := uExts _ _ _ _ _ _ e1 f1 he
  obtain ⟨rfl, he⟩ := uOpaque _ _ _ _ _ _ e2 f2 he
  obtain ⟨rfl, he⟩ := uU32 _ _ _ _ [] [] e3 f3 (by simpa using he)
  rfl

/-- C14: with a binding signature scheme, the signature of a leaf node in an update or a commit is
accepted for one leaf content, one group and one position only. -/
theorem C14_leaf_accepted_once (pr : Prims) (hb : pr.SigBinding) (cs : UInt16) (a b : LeafNode)
    (g g' : Bytes) (i i' : UInt32) (hk : a.signatureKey = b.signatureKey)
    (hs : a.signature = b.signature) (hn : ∀ lt, a.source ≠ .keyPackage lt)
    (ha : a.verifySignature pr cs g i = .ok true) (hb' : b.verifySignature pr cs g' i' = .ok true) :
    a = b ∧ g = g' ∧ i = i' := by
  unfold LeafNode.verifySignature at ha hb'
  obtain ⟨x, hx, hv⟩ := orFalse_true.1 ha
  obtain ⟨y, hy, hv'⟩ := orFalse_true.1 hb'
  rw [hk, hs] at hv
  obtain ⟨_, rfl⟩ := C13_purpose pr hb cs _ _ _ _ _ _ hv hv'
  obtain ⟨h1, h2⟩ := C14_leaf a b g g' i i' x hx hy
  obtain ⟨h2, h3⟩ := h2 hn
  refine ⟨?_, h2, h3⟩
  cases a; cases b; simp_all

/-- A leaf node of a commit. -/
def exCommitLeaf : LeafNode :=
  { encryptionKey := [1], signatureKey := [2], credential := .basic [3],
    capabilities := { versions := [1], cipherSuites := [1], extensions := [], proposals := [], credentials := [1] },
    source := .commit [9], extensions := [], signature := [] }

example : exCommitLeaf.encTBS [7] 5 = .ok
    [1, 1, 1, 2, 0, 1, 1, 3, 2, 0, 1, 2, 0, 1, 0, 0, 2, 0, 1, 3, 1, 9, 0, 1, 7, 0, 0, 0, 5] := by
  decide +kernel

example : ∀ lt, exCommitLeaf.source ≠ .keyPackage lt := by intro lt; simp [exCommitLeaf]

example : (∃ x, KeyPackage.encTBS ⟨1, 1, [1], exCommitLeaf, [], []⟩ = .ok x) ∧
    ∃ x, GroupInfo.encTBS ⟨exCtx, [⟨2, [0]⟩], [8], 0, []⟩ = .ok x := ⟨⟨_, rfl⟩, _, rfl⟩

end Mls
