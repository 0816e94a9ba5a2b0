import Verif.Proofs.Rfc
import Verif.Props.Serial
import Verif.Props.TreeCodec
import Verif.Props.TreeRead
import Verif.Props.Authenticity
import Verif.Props.Refs
/-
C101: the bytes written and read are those of the structures of RFC 9420. C102: so is what is
signed, authenticated and hashed.
-/
namespace Mls

open Spec (Rfc.Item)
open Spec.Ratchet

variable {pr : Prims}

/-! ### C101 -/

/-- **C101**, writing: a message is encoded to some bytes exactly if they are the encoding of the structure MLSMessage
of RFC 9420 with the same fields. -/
theorem C101_writes (m : MlsMessage) (b : Bytes) : m.enc = .ok b ↔ (Spec.Rfc.mlsMessage m).bytes = some b := by
  rw [Enc.val_ok_iff, mlsMessage_val]

/-- **C101**, the API: what `Bytes` returns is the MLSMessage of RFC 9420 that holds the key package or the welcome, and it
returns nothing else. -/
theorem C101_bytes (k : KeyPackage) (w : Welcome) (b : Bytes) :
    (k.bytes = .ok b ↔ (Spec.Rfc.mlsMessage ⟨1, .keyPackage k⟩).bytes = some b) ∧
      (w.bytes = .ok b ↔ (Spec.Rfc.mlsMessage ⟨1, .welcome w⟩).bytes = some b) := by
  rw [keyPackage_bytes_iff, welcome_bytes_iff, C101_writes, C101_writes]
  exact ⟨Iff.rfl, Iff.rfl⟩

/-- **C101**, reading: whatever is encoded as RFC 9420 says is read as the message it stands for; and what is read is encoded as RFC
9420 says, if every key package in it, and the message itself if it is a group info, has a non-empty signature (see C05 and C11). -/
theorem C101_reads (raw : Bytes) (m : MlsMessage) :
    (m.WF → (Spec.Rfc.mlsMessage m).bytes = some raw → unmarshal MlsMessage.dec raw = .ok m) ∧
      (unmarshal MlsMessage.dec raw = .ok m → m.body.Signed → (Spec.Rfc.mlsMessage m).bytes = some raw) :=
  ⟨fun hw h => C10_roundtrip m hw raw ((C101_writes m raw).2 h),
    fun h hs => (C101_writes m raw).1 (C11_partial raw m h hs)⟩

/-- **C101**, the API: UnmarshalWelcome accepts exactly the encodings of RFC 9420 and returns the welcome they stand for;
UnmarshalKeyPackage returns the key package of every encoding of RFC 9420, and of nothing else if there is a signature. -/
theorem C101_unmarshal (raw : Bytes) (k : KeyPackage) (w : Welcome) :
    (unmarshalWelcome raw = .ok w ↔ (Spec.Rfc.mlsMessage ⟨1, .welcome w⟩).bytes = some raw) ∧
      (k.signature ≠ [] → (unmarshalKeyPackage raw = .ok k ↔
        k.version = 1 ∧ (Spec.Rfc.mlsMessage ⟨1, .keyPackage k⟩).bytes = some raw)) := by
  rw [← (C101_bytes k w raw).1, ← (C101_bytes k w raw).2]
  exact ⟨⟨C07_canonical raw w, C06_roundtrip w raw⟩, fun hs => ⟨fun h => ⟨(C05_partial raw k h).1, C05_partial_signed raw k h hs⟩,
    fun h => C04_roundtrip k raw h.1 h.2⟩⟩

/-- A decoder and an encoder that invert each other. -/
theorem unmarshal_iff {α : Type} {enc : α → Enc} {dec : P α} (hr : RT enc dec Any) (hc : Canon enc dec Any) (raw : Bytes) (a : α) :
    unmarshal dec raw = .ok a ↔ enc a = .ok raw := by
  constructor
  · intro h
    obtain ⟨bs, he, hb⟩ := hc _ _ _ (unmarshal_ok_iff.1 h) trivial
    rw [List.append_nil] at hb
    rw [he, hb]
  · exact fun h => unmarshal_rt hr h trivial

/-- **C101**, what is inside a welcome and a private message: group secrets, sender data, group infos, and the content of private
messages with any number of zero bytes of padding. -/
theorem C101_inside (raw : Bytes) :
    (∀ g, (GroupSecrets.enc g = .ok raw ↔ (Spec.Rfc.groupSecrets g).bytes = some raw) ∧
      (unmarshal GroupSecrets.dec raw = .ok g ↔ (Spec.Rfc.groupSecrets g).bytes = some raw)) ∧
    (∀ d, (SenderData.enc d = .ok raw ↔ (Spec.Rfc.senderData d).bytes = some raw) ∧
      (unmarshal SenderData.dec raw = .ok d ↔ (Spec.Rfc.senderData d).bytes = some raw)) ∧
    (∀ i : GroupInfo, (i.enc = .ok raw ↔ (Spec.Rfc.groupInfo i).bytes = some raw) ∧
      (i.signature ≠ [] → (unmarshal GroupInfo.dec raw = .ok i ↔
        i.groupContext.version = 1 ∧ (Spec.Rfc.groupInfo i).bytes = some raw))) ∧
    (∀ c : PrivateMessageContent, (c.enc = .ok raw ↔ (Spec.Rfc.privateMessageContent c []).bytes = some raw) ∧
      (c.content.WF → c.auth.WF c.content.ty → c.content.Signed →
        (decodePadded c.content.ty raw = .ok c ↔ ∃ n, (Spec.Rfc.privateMessageContent c (List.replicate n 0)).bytes = some raw))) := by
  refine ⟨fun g => ⟨?_, ?_⟩, fun d => ⟨?_, ?_⟩, fun i => ⟨?_, fun hs => ?_⟩, fun c => ⟨?_, fun hw ha hs => ?_⟩⟩
  · rw [Enc.val_ok_iff, groupSecrets_val]
  · rw [unmarshal_iff groupSecrets_rt groupSecrets_canon, Enc.val_ok_iff, groupSecrets_val]
  · rw [Enc.val_ok_iff, senderData_val]
  · rw [unmarshal_iff senderData_rt senderData_canon, Enc.val_ok_iff, senderData_val]
  · rw [Enc.val_ok_iff, groupInfo_val]
  · rw [← groupInfo_val, ← Enc.val_ok_iff]
    constructor
    · intro h
      obtain ⟨hw, hc⟩ := groupInfo_dec (unmarshal_ok_iff.1 h)
      obtain ⟨bs, he, hb⟩ := hc hs
      rw [List.append_nil] at hb
      exact ⟨hw, by rw [he, hb]⟩
    · exact fun h => unmarshal_rt groupInfo_rt h.2 h.1
  · rw [← privateMessageContent_val, ← Enc.val_ok_iff, addBytes]
    constructor
    · intro h
      rw [h, Enc.append_ok rfl rfl, List.append_nil]
    · intro h
      obtain ⟨x, y, hx, hy, rfl⟩ := Enc.append_ok_iff.1 h
      cases hy
      rw [hx, List.append_nil]
  · simp only [← privateMessageContent_val, ← Enc.val_ok_iff, addBytes]
    constructor
    · intro h
      unfold decodePadded at h
      split at h
      · next c' rest hr =>
        split at h
        · next hz =>
          cases h
          obtain ⟨bs, he, hb⟩ := (privateContent_dec hr).2.2.2 hs
          refine ⟨rest.length, ?_⟩
          have : List.replicate rest.length 0 = rest := by
            refine (List.eq_replicate_iff.2 ⟨rfl, fun b hb => ?_⟩).symm
            simpa using List.all_eq_true.1 hz b hb
          rw [this, he, hb, Enc.append_ok rfl rfl]
        · cases h
      all_goals cases h
    · rintro ⟨n, h⟩
      rw [Enc.append_ok_iff] at h
      obtain ⟨x, y, hx, hy, rfl⟩ := h
      cases hy
      unfold decodePadded
      rw [privateContent_rt c x _ hx hw ha]
      simp

/-- **C101**, the ratchet tree extension: a tree is written as the vector of RFC 9420 of its nodes up to the last one that is not blank. -/
theorem C101_tree (t : VTree) (b : Bytes) :
    encTree t = .ok b ↔ ∃ l n, t = l ++ List.replicate n none ∧ (l = [] ∨ ∃ a, l.getLast? = some (some a)) ∧
      (Spec.Rfc.ratchetTree l).bytes = some b := by
  have key : ∀ l : VTree, (writeVector encOptNode l).val = (Spec.Rfc.ratchetTree l).bytes := writeVector_val optNode_val
  unfold encTree
  rw [Enc.val_ok_iff, key]
  obtain ⟨n, hn, hl⟩ := stripBlanks_spec t
  constructor
  · exact fun h => ⟨_, n, hn, hl, h⟩
  · rintro ⟨l, m, hm, hl', h⟩
    have : stripBlanks t = l := by
      rw [hm]
      unfold stripBlanks
      have hd : ∀ (m : Nat) (r : VTree), (List.replicate m none ++ r).dropWhile Option.isNone = r.dropWhile Option.isNone := by
        intro m r
        induction m with
        | zero => rfl
        | succ m ih => rw [List.replicate_succ, List.cons_append, List.dropWhile_cons_of_pos (by rfl), ih]
      rw [List.reverse_append, List.reverse_replicate, hd]
      rcases hl' with rfl | ⟨a, ha⟩
      · rfl
      · have : ∃ r, l.reverse = some a :: r := by
          rw [List.getLast?_eq_head?_reverse] at ha
          cases hr : l.reverse with
          | nil => rw [hr] at ha; cases ha
          | cons x r => rw [hr] at ha; cases ha; exact ⟨r, rfl⟩
        obtain ⟨r, hr⟩ := this
        rw [hr, List.dropWhile_cons_of_neg (by simp), ← hr, List.reverse_reverse]
    rwa [this]

/-- **C101**, the ratchet tree extension: the nodes that are read are the ones of the vector. -/
theorem C101_tree_reads (raw : Bytes) (l : List (Option Node)) :
    unmarshal (readVector decOptNode) raw = .ok l ↔ (Spec.Rfc.ratchetTree l).bytes = some raw := by
  rw [unmarshal_iff vecOptNode_rt vecOptNode_canon, Enc.val_ok_iff, writeVector_val optNode_val]
  rfl

/-- A key package, a welcome for two and a commit, written out byte by byte from the RFC. -/
example : (Spec.Rfc.mlsMessage ⟨1, .welcome ⟨1, [⟨[1], ⟨[2], [3]⟩⟩, ⟨[4], ⟨[5], [6]⟩⟩], [7, 8]⟩⟩).bytes =
      some [0, 1, 0, 3, 0, 1, 12, 1, 1, 1, 2, 1, 3, 1, 4, 1, 5, 1, 6, 2, 7, 8] ∧
    (Spec.Rfc.mlsMessage ⟨1, .publicMessage ⟨⟨[9], 258, .member 3, [], .commit ⟨[.reference [5], .proposal (.remove 6)], none⟩⟩, ⟨[7], [8]⟩, [10]⟩⟩).bytes =
      some [0, 1, 0, 1, 1, 9, 0, 0, 0, 0, 0, 0, 1, 2, 1, 0, 0, 0, 3, 0, 3, 10, 2, 1, 5, 1, 0, 3, 0, 0, 0, 6, 0, 1, 7, 1, 8, 1, 10] ∧
    (Spec.Rfc.mlsMessage ⟨1, .keyPackage (exKeyPackage 5)⟩).bytes =
      some [0, 1, 0, 5, 0, 1, 0, 1, 2, 12, 5, 2, 10, 5, 2, 11, 5, 0, 1, 1, 5, 2, 0, 1, 2, 0, 1, 0, 0, 2, 0, 1, 1, 0, 0, 0, 0, 0, 0, 0, 1,
        0, 0, 0, 0, 0, 0, 0, 2, 5, 0, 7, 2, 1, 2, 1, 9, 3, 0, 9, 0, 2, 13, 14] := by
  decide +kernel

example : exCommitMessage.body.Signed ∧ (exKeyPackage 5).signature ≠ [] ∧ ∃ raw, unmarshal MlsMessage.dec raw = .ok exCommitMessage := by
  have hs : exCommitMessage.body.Signed := by
    intro p hp
    simp only [List.mem_cons, List.not_mem_nil, or_false] at hp
    rcases hp with rfl | rfl
    · show (exKeyPackage 4).signature ≠ []; decide
    · trivial
  have hw : exCommitMessage.WF := by
    refine ⟨rfl, ?_, Or.inl rfl, Or.inl ⟨3, rfl⟩⟩
    intro p hp
    simp only [List.mem_cons, List.not_mem_nil, or_false] at hp
    rcases hp with rfl | rfl
    · rfl
    · trivial
  have hb : ∃ raw, exCommitMessage.enc = .ok raw := ⟨_, rfl⟩
  obtain ⟨raw, hb⟩ := hb
  exact ⟨hs, by decide, raw, C10_roundtrip _ hw raw hb⟩

/-! ### C102 -/

/-- RFC 9420 section 5.1.2: VerifyWithLabel of a structure. -/
def Spec.Rfc.Signed (pr : Prims) (d : SuiteDesc) (key : Bytes) (label : String) (tbs : Rfc.Item) (sig : Bytes) : Prop :=
  ∃ t m, tbs.bytes = some t ∧ (Rfc.signContent (ascii ("MLS 1.0 " ++ label)) t).bytes = some m ∧ pr.verify d.sig key m sig = some true

/-- RFC 9420 section 5.1.2: SignWithLabel of a structure; none if the key cannot be used. -/
def Spec.Rfc.sign (pr : Prims) (d : SuiteDesc) (key : Bytes) (label : String) (tbs : Rfc.Item) (rand : Bytes) : Option Bytes := do
  let t ← tbs.bytes
  let m ← (Rfc.signContent (ascii ("MLS 1.0 " ++ label)) t).bytes
  pr.sign d.sig key m rand

/-- RFC 9420 section 5.2: RefHash of a structure. -/
def Spec.Rfc.refHash (pr : Prims) (d : SuiteDesc) (label : String) (value : Rfc.Item) : Option Bytes := do
  let v ← value.bytes
  let x ← (Rfc.refHashInput (ascii label) v).bytes
  return pr.hash d.hash x

theorem signContent_val (label : Bytes) {name : String} (hl : lblPrefix ++ label = Spec.ascii ("MLS 1.0 " ++ name)) (c : Bytes) :
    (encSignContent label c).val = (Spec.Rfc.signContent (Spec.ascii ("MLS 1.0 " ++ name)) c).bytes := by
  rw [← hl]
  rfc [encSignContent, Spec.Rfc.signContent]

theorem verify_rfc {cs : UInt16} {d : SuiteDesc} (hd : suite cs = .ok d) {label : Bytes} {name : String}
    (hl : lblPrefix ++ label = Spec.ascii ("MLS 1.0 " ++ name)) {enc : Enc} {item : Spec.Rfc.Item} (he : enc.val = item.bytes)
    (key sig : Bytes) :
    orFalse enc (fun t => verifyWithLabel pr cs key label t sig) = .ok true ↔ Spec.Rfc.Signed pr d key name item sig := by
  rw [orFalse_true]
  unfold Spec.Rfc.Signed
  rw [← he]
  constructor
  · rintro ⟨t, ht, h⟩
    obtain ⟨m, d', hm, hd', hv⟩ := verifyWithLabel_true.1 h
    rw [hd] at hd'
    cases hd'
    exact ⟨t, m, Enc.val_ok_iff.1 ht, by rw [← signContent_val label hl]; exact Enc.val_ok_iff.1 hm, hv⟩
  · rintro ⟨t, m, ht, hm, hv⟩
    rw [← signContent_val label hl] at hm
    exact ⟨t, Enc.val_ok_iff.2 ht, verifyWithLabel_true.2 ⟨m, d, Enc.val_ok_iff.2 hm, hd, hv⟩⟩

/-- **C102**, what a signature is checked against: the signature of a message, a leaf node, a key package and a group info is
accepted exactly if it verifies, under the label of RFC 9420, for FramedContentTBS, LeafNodeTBS, KeyPackageTBS and GroupInfoTBS. -/
theorem C102_verified {cs : UInt16} {d : SuiteDesc} (hd : suite cs = .ok d) :
    (∀ (a : AuthenticatedContent) (key : Bytes) (ctx : GroupContext), ctx.cipherSuite = cs →
      (a.verifySignature pr key ctx = .ok true ↔
        Spec.Rfc.Signed pr d key "FramedContentTBS" (Spec.Rfc.framedContentTBS a.wireFormat a.content ctx) a.auth.signature)) ∧
    (∀ (n : LeafNode) (g : Bytes) (i : UInt32), n.verifySignature pr cs g i = .ok true ↔
      Spec.Rfc.Signed pr d n.signatureKey "LeafNodeTBS" (Spec.Rfc.leafNodeTBS n g i.toNat) n.signature) ∧
    (∀ k : KeyPackage, k.cipherSuite = cs → (k.verifySignature pr = .ok true ↔
      Spec.Rfc.Signed pr d k.leafNode.signatureKey "KeyPackageTBS" (Spec.Rfc.keyPackageTBS k) k.signature)) ∧
    (∀ (i : GroupInfo) (key : Bytes), i.groupContext.cipherSuite = cs → (i.verifySignature pr key = .ok true ↔
      Spec.Rfc.Signed pr d key "GroupInfoTBS" (Spec.Rfc.groupInfoTBS i) i.signature)) := by
  refine ⟨fun a key ctx h => ?_, fun n g i => ?_, fun k h => ?_, fun i key h => ?_⟩
  · subst h
    exact verify_rfc hd lblFramedContentTBS_name (framedContentTBS_val _ _ _) key _
  · exact verify_rfc hd lblLeafNodeTBS_name (leafNodeTBS_val _ _ _) _ _
  · subst h
    exact verify_rfc hd lblKeyPackageTBS_name (keyPackageTBS_val _) _ _
  · subst h
    exact verify_rfc hd lblGroupInfoTBS_name (groupInfoTBS_val _) key _

theorem orErr_iff {o : Option Bytes} {x : Bytes} : orErr o = .ok x ↔ o = some x := by
  cases o <;> simp [orErr]

theorem sign_rfc {cs : UInt16} {d : SuiteDesc} (hd : suite cs = .ok d) {label : Bytes} {name : String}
    (hl : lblPrefix ++ label = Spec.ascii ("MLS 1.0 " ++ name)) {enc : Enc} {item : Spec.Rfc.Item} (he : enc.val = item.bytes)
    (key rand sig : Bytes) :
    (∃ t, enc = .ok t ∧ signWithLabel pr cs key label t rand = .ok sig) ↔ Spec.Rfc.sign pr d key name item rand = some sig := by
  unfold Spec.Rfc.sign signWithLabel
  simp only [Option.bind_eq_bind, Option.bind_eq_some_iff, ← he, ← signContent_val label hl, ← Enc.val_ok_iff, Res.bind_ok_iff, hd,
    Res.ok.injEq, exists_eq_left', orErr_iff]

/-- **C102**, what is signed: the signatures made for messages, leaf nodes, key packages and group infos are those of RFC 9420 for
the same structures; the rest is left as it is. -/
theorem C102_signed {cs : UInt16} {d : SuiteDesc} (hd : suite cs = .ok d) (key rand : Bytes) :
    (∀ wf c ctx a, signAuthenticatedContent pr cs key wf c ctx rand = .ok a ↔
      a.wireFormat = wf ∧ a.content = c ∧ a.auth.confirmationTag = [] ∧
        Spec.Rfc.sign pr d key "FramedContentTBS" (Spec.Rfc.framedContentTBS wf c ctx) rand = some a.auth.signature) ∧
    (∀ (n : LeafNode) g i n', n.sign pr cs g i key rand = .ok n' ↔
      n' = { n with signature := n'.signature } ∧
        Spec.Rfc.sign pr d key "LeafNodeTBS" (Spec.Rfc.leafNodeTBS n g i.toNat) rand = some n'.signature) ∧
    (∀ k k' : KeyPackage, k.cipherSuite = cs → (k.sign pr key rand = .ok k' ↔
      k' = { k with signature := k'.signature } ∧
        Spec.Rfc.sign pr d key "KeyPackageTBS" (Spec.Rfc.keyPackageTBS k) rand = some k'.signature)) ∧
    (∀ i i' : GroupInfo, i.groupContext.cipherSuite = cs → (i.sign pr key rand = .ok i' ↔
      i' = { i with signature := i'.signature } ∧
        Spec.Rfc.sign pr d key "GroupInfoTBS" (Spec.Rfc.groupInfoTBS i) rand = some i'.signature)) := by
  refine ⟨fun wf c ctx a => ?_, fun n g i n' => ?_, fun k k' h => ?_, fun i i' h => ?_⟩
  · rw [← sign_rfc hd lblFramedContentTBS_name (framedContentTBS_val _ _ _)]
    unfold signAuthenticatedContent
    simp only [Res.bind_ok_iff, Res.pure_eq, Res.ok.injEq]
    constructor
    · rintro ⟨t, ht, s, hs, rfl⟩
      exact ⟨rfl, rfl, rfl, t, ht, hs⟩
    · rintro ⟨h1, h2, h3, t, ht, hs⟩
      obtain ⟨a1, a2, ⟨a3, a4⟩⟩ := a
      cases h1; cases h2; cases h3
      exact ⟨t, ht, _, hs, rfl⟩
  · rw [← sign_rfc hd lblLeafNodeTBS_name (leafNodeTBS_val _ _ _)]
    unfold LeafNode.sign
    simp only [Res.bind_ok_iff, Res.pure_eq, Res.ok.injEq]
    constructor
    · rintro ⟨t, ht, s, hs, rfl⟩
      exact ⟨rfl, t, ht, hs⟩
    · rintro ⟨h1, t, ht, hs⟩
      exact ⟨t, ht, _, hs, h1.symm⟩
  · subst h
    rw [← sign_rfc hd lblKeyPackageTBS_name (keyPackageTBS_val _)]
    unfold KeyPackage.sign
    simp only [Res.bind_ok_iff, Res.pure_eq, Res.ok.injEq]
    constructor
    · rintro ⟨t, ht, s, hs, rfl⟩
      exact ⟨rfl, t, ht, hs⟩
    · rintro ⟨h1, t, ht, hs⟩
      exact ⟨t, ht, _, hs, h1.symm⟩
  · subst h
    rw [← sign_rfc hd lblGroupInfoTBS_name (groupInfoTBS_val _)]
    unfold GroupInfo.sign
    simp only [Res.bind_ok_iff, Res.pure_eq, Res.ok.injEq]
    constructor
    · rintro ⟨t, ht, s, hs, rfl⟩
      exact ⟨rfl, t, ht, hs⟩
    · rintro ⟨h1, t, ht, hs⟩
      exact ⟨t, ht, _, hs, h1.symm⟩

theorem refHash_rfc {cs : UInt16} {d : SuiteDesc} (hd : suite cs = .ok d) {label : Bytes} {name : String} (hl : label = Spec.ascii name)
    {enc : Enc} {item : Spec.Rfc.Item} (he : enc.val = item.bytes) (r : Bytes) :
    (∃ t, enc = .ok t ∧ refHash pr cs label t = .ok r) ↔ Spec.Rfc.refHash pr d name item = some r := by
  have hv : ∀ t, (encRefHashInput label t).val = (Spec.Rfc.refHashInput (Spec.ascii name) t).bytes := by
    intro t
    rw [← hl]
    rfc [encRefHashInput, Spec.Rfc.refHashInput]
  unfold Spec.Rfc.refHash refHash
  simp only [Option.bind_eq_bind, Option.bind_eq_some_iff, ← he, ← hv, ← Enc.val_ok_iff, Res.bind_ok_iff, hd,
    Res.ok.injEq, exists_eq_left', Res.pure_eq, Option.pure_def, Option.some.injEq]

/-- **C102**, references: the reference of a key package is the RefHash of the structure KeyPackage, that of a proposal the
RefHash of the AuthenticatedContent with the proposal. -/
theorem C102_references {cs : UInt16} {d : SuiteDesc} (hd : suite cs = .ok d) (r : Bytes) :
    (∀ k : KeyPackage, k.cipherSuite = cs → (k.generateRef pr = .ok r ↔
      Spec.Rfc.refHash pr d "MLS 1.0 KeyPackage Reference" (Spec.Rfc.keyPackage k) = some r)) ∧
    (∀ a : AuthenticatedContent, (∃ p, a.content.content = .proposal p) → (a.generateProposalRef pr cs = .ok r ↔
      Spec.Rfc.refHash pr d "MLS 1.0 Proposal Reference" (Spec.Rfc.authenticatedContent a) = some r)) := by
  refine ⟨fun k h => ?_, fun a h => ?_⟩
  · subst h
    rw [← refHash_rfc hd (label := lblKeyPackageRef) (by decide +kernel) (keyPackage_val k)]
    unfold KeyPackage.generateRef
    simp only [Res.bind_ok_iff]
  · obtain ⟨p, hp⟩ := h
    rw [← refHash_rfc hd (label := lblProposalRef) (by decide +kernel) (authenticatedContent_val a)]
    unfold AuthenticatedContent.generateProposalRef
    rw [if_neg (by rw [hp]; simp [Content.ty])]
    simp only [Res.bind_ok_iff]

/-- **C102**, the membership tag of a message from a member: made as, and accepted exactly if it is, the MAC of
AuthenticatedContentTBM. -/
theorem C102_membership {cs : UInt16} {d : SuiteDesc} (hd : suite cs = .ok d) (m : PublicMessage) (key : Bytes) (ctx : GroupContext)
    (hs : ∃ i, m.content.sender = .member i) :
    (∀ m', m.signMembershipTag pr cs key ctx = .ok m' ↔ ∃ t,
      (Spec.Rfc.authenticatedContentTBM .publicMessage m.content m.auth ctx).bytes = some t ∧
        m' = { m with membershipTag := pr.mac d.hash key t }) ∧
    (ctx.cipherSuite = cs → (m.verifyMembershipTag pr key ctx = .ok true ↔ ∃ t,
      (Spec.Rfc.authenticatedContentTBM .publicMessage m.content m.auth ctx).bytes = some t ∧
        m.membershipTag = pr.mac d.hash key t)) := by
  obtain ⟨i, hi⟩ := hs
  rw [← authenticatedContentTBM_val]
  simp only [← Enc.val_ok_iff]
  refine ⟨fun m' => ?_, fun h => ?_⟩
  · unfold PublicMessage.signMembershipTag signMAC
    rw [hi]
    simp only [Res.bind_ok_iff, hd, Res.ok.injEq, exists_eq_left', Res.pure_eq]
    exact ⟨fun ⟨t, h1, h2⟩ => ⟨t, h1, h2.symm⟩, fun ⟨t, h1, h2⟩ => ⟨t, h1, h2.symm⟩⟩
  · subst h
    unfold PublicMessage.verifyMembershipTag verifyMAC signMAC
    rw [hi]
    simp only [orFalse_true, Res.bind_ok_iff, hd, Res.ok.injEq, exists_eq_left', Res.pure_eq, beq_iff_eq]

/-- **C102**, the transcript: the two hashes are those of ConfirmedTranscriptHashInput and InterimTranscriptHashInput after the
hash they continue. -/
theorem C102_transcript {cs : UInt16} {d : SuiteDesc} (hd : suite cs = .ok d) (x : Bytes) :
    (∀ wf c sig before, confirmedTranscriptHash pr cs wf c sig before = .ok x ↔ ∃ t,
      (Spec.Rfc.confirmedTranscriptHashInput wf c sig).bytes = some t ∧ x = pr.hash d.hash (before ++ t)) ∧
    (∀ confirmed tag, nextInterimTranscriptHash pr cs confirmed tag = .ok x ↔ ∃ t,
      (Spec.Rfc.interimTranscriptHashInput tag).bytes = some t ∧ x = pr.hash d.hash (confirmed ++ t)) := by
  refine ⟨fun wf c sig before => ?_, fun confirmed tag => ?_⟩
  · rw [← confirmedTranscriptHashInput_val]
    unfold confirmedTranscriptHash
    simp only [← Enc.val_ok_iff, Res.bind_ok_iff, hd, Res.ok.injEq, exists_eq_left', Res.pure_eq]
    exact ⟨fun ⟨t, h1, h2⟩ => ⟨t, h1, h2.symm⟩, fun ⟨t, h1, h2⟩ => ⟨t, h1, h2.symm⟩⟩
  · have : (Spec.Rfc.interimTranscriptHashInput tag).bytes = (writeOpaqueVec tag).val := by
      rfc [Spec.Rfc.interimTranscriptHashInput]
    rw [this]
    unfold nextInterimTranscriptHash
    simp only [← Enc.val_ok_iff, Res.bind_ok_iff, hd, Res.ok.injEq, exists_eq_left', Res.pure_eq]
    exact ⟨fun ⟨t, h1, h2⟩ => ⟨t, h1, h2.symm⟩, fun ⟨t, h1, h2⟩ => ⟨t, h1, h2.symm⟩⟩

/-- RFC 9420 section 7.8: the tree hash, from the structures of the RFC. -/
def Spec.Rfc.treeHash (H : Bytes → Bytes) : {d : Nat} → Nat → Spec.Ratchet ParentNode d → Option Bytes
  | _, i, .leaf n => (Rfc.leafHashInput i n).bytes.map H
  | d + 1, i, .node p l r => do
    let lh ← Rfc.treeHash H i l
    let rh ← Rfc.treeHash H (i + 2 ^ d) r
    let x ← (Rfc.parentHashInput p lh rh).bytes
    return H x

theorem leafInput_rfc (i : Nat) (hi : i < 2 ^ 32) (n : Option LeafNode) : leafInput i n = (Spec.Rfc.leafHashInput i n).bytes := by
  ext x
  rw [← leafHashInput_val i hi, ← Enc.val_ok_iff, leafInput_iff hi]

theorem parentInput_rfc (p : Option ParentNode) (l r : Bytes) (hl : l.length < 2 ^ 30) (hr : r.length < 2 ^ 30) :
    parentInput p l r = (Spec.Rfc.parentHashInput p l r).bytes := by
  ext x
  rw [← parentHashInput_val, ← Enc.val_ok_iff, parentInput_iff hl hr]

/-- **C102**, the tree hash is that of the structures TreeHashInput of RFC 9420. -/
theorem C102_tree_hash (hc : pr.Correct) {cs : UInt16} {d : SuiteDesc} (hd : suite cs = .ok d)
    {k : Nat} (hk : k ≤ 31) (s : Spec.Ratchet ParentNode k) (x : Bytes) :
    computeRootTreeHash pr cs (s.flat .leaf .parent) = .ok x ↔ Spec.Rfc.treeHash (pr.hash d.hash) 0 s = some x := by
  rw [C28_tree_hash hc hd hk]
  have hlen : ∀ m, (pr.hash d.hash m).length < 2 ^ 30 := by
    intro m
    rw [hc.hash_length]
    have := hash_size_lt d.hash
    omega
  have key : ∀ {k : Nat} (s : Spec.Ratchet ParentNode k) (i : Nat), i + 2 ^ k ≤ 2 ^ 32 →
      s.treeHash (pr.hash d.hash) i = Spec.Rfc.treeHash (pr.hash d.hash) i s ∧
        ∀ x, s.treeHash (pr.hash d.hash) i = some x → x.length < 2 ^ 30 := by
    intro k s
    induction s with
    | leaf n =>
      intro i hi
      refine ⟨?_, fun x hx => ?_⟩
      · rw [treeHash, Spec.Rfc.treeHash, leafInput_rfc i (by have := Nat.two_pow_pos 0; omega)]
      · rw [treeHash, Option.map_eq_some_iff] at hx
        obtain ⟨a, _, rfl⟩ := hx
        exact hlen a
    | @node k p l r ihl ihr =>
      intro i hi
      have hp : 2 ^ (k + 1) = 2 ^ k + 2 ^ k := by rw [Nat.pow_succ]; omega
      have hk0 := Nat.two_pow_pos k
      obtain ⟨l1, l2⟩ := ihl i (by omega)
      obtain ⟨r1, r2⟩ := ihr (i + 2 ^ k) (by omega)
      refine ⟨?_, fun x hx => ?_⟩
      · rw [treeHash, Spec.Rfc.treeHash, ← l1, ← r1]
        cases hl : treeHash (pr.hash d.hash) i l with
        | none => rfl
        | some a =>
          cases hr : treeHash (pr.hash d.hash) (i + 2 ^ k) r with
          | none => rfl
          | some b =>
            simp only [Option.bind_eq_bind, Option.bind_some]
            rw [parentInput_rfc p a b (l2 a hl) (r2 b hr)]
      · rw [treeHash] at hx
        simp only [Option.bind_eq_bind, Option.bind_eq_some_iff, Option.pure_def, Option.some.injEq] at hx
        obtain ⟨_, _, _, _, _, _, rfl⟩ := hx
        exact hlen _
  rw [(key s 0 (by have : 2 ^ k ≤ 2 ^ 31 := Nat.pow_le_pow_right (by decide) hk; omega)).1]

/-- **C102**, the parent hash is that of ParentHashInput. -/
theorem C102_parent_hash {cs : UInt16} {d : SuiteDesc} (hd : suite cs = .ok d) (n : ParentNode) (sibling x : Bytes) :
    n.computeParentHash pr cs sibling = .ok x ↔ ∃ t,
      (Spec.Rfc.parentHash n.encryptionKey n.parentHash sibling).bytes = some t ∧ x = pr.hash d.hash t := by
  rw [← parentHash_val]
  unfold ParentNode.computeParentHash
  simp only [← Enc.val_ok_iff, Res.bind_ok_iff, hd, Res.ok.injEq, exists_eq_left', Res.pure_eq]
  exact ⟨fun ⟨t, h1, h2⟩ => ⟨t, h1, h2.symm⟩, fun ⟨t, h1, h2⟩ => ⟨t, h1, h2.symm⟩⟩

/-- RFC 9420 section 8: ExpandWithLabel, from the structure KDFLabel. -/
def Spec.Rfc.expandWithLabel (pr : Prims) (d : SuiteDesc) (secret : Bytes) (label : String) (context : Bytes) (length : Nat) :
    Option Bytes :=
  (Rfc.kdfLabel length (ascii ("MLS 1.0 " ++ label)) context).bytes.map fun info => pr.expand d.kdf secret info length

theorem expand_rfc {cs : UInt16} {d : SuiteDesc} (hd : suite cs = .ok d) {label : Bytes} {name : String}
    (hl : lblPrefix ++ label = Spec.ascii ("MLS 1.0 " ++ name)) (secret context x : Bytes) (n : UInt16) (hn : n.toNat ≤ 255 * d.kdf.size) :
    expandWithLabel pr cs secret label context n = .ok x ↔ Spec.Rfc.expandWithLabel pr d secret name context n.toNat = some x := by
  have hv : (encKdfLabel label context n).val = (Spec.Rfc.kdfLabel n.toNat (Spec.ascii ("MLS 1.0 " ++ name)) context).bytes := by
    rw [← hl]
    rfc [encKdfLabel, Spec.Rfc.kdfLabel]
  unfold Spec.Rfc.expandWithLabel expandWithLabel
  rw [← hv, hd]
  simp only [Res.bind_ok_iff, Option.map_eq_some_iff, ← Enc.val_ok_iff, Res.ok.injEq, exists_eq_left', if_neg (Nat.not_lt.2 hn),
    Res.pure_eq]

/-- **C102**, the key schedule: the group context goes into the joiner secret and the epoch secret as the structure GroupContext, in the
structure KDFLabel. -/
theorem C102_schedule {ctx : GroupContext} {d : SuiteDesc} (hd : suite ctx.cipherSuite = .ok d) (x : Bytes) :
    (∀ init commit, ctx.extractJoinerSecret pr init commit = .ok x ↔ ∃ c, (Spec.Rfc.groupContext ctx).bytes = some c ∧
      Spec.Rfc.expandWithLabel pr d (pr.extract d.kdf commit init) "joiner" c d.kdf.size = some x) ∧
    (∀ joiner psk, ctx.extractEpochSecret pr joiner (some psk) = .ok x ↔ ∃ c, (Spec.Rfc.groupContext ctx).bytes = some c ∧
      Spec.Rfc.expandWithLabel pr d (pr.extract d.kdf psk joiner) "epoch" c d.kdf.size = some x) := by
  have hsz := (suite_sizes hd).1
  have hn : d.nh.toNat ≤ 255 * d.kdf.size := by rw [hsz]; omega
  simp only [← groupContext_val, ← Enc.val_ok_iff]
  refine ⟨fun init commit => ?_, fun joiner psk => ?_⟩
  · unfold GroupContext.extractJoinerSecret
    simp only [hd, Res.ok_bind, Res.bind_ok_iff, expand_rfc hd lblJoiner_name _ _ _ _ hn, hsz]
  · unfold GroupContext.extractEpochSecret
    simp only [hd, Res.ok_bind, Res.bind_ok_iff, expand_rfc hd lblEpoch_name _ _ _ _ hn, hsz, Option.getD_some]

/-- **C102**, the associated data of private messages and the context of pre-shared keys are PrivateContentAAD, SenderDataAAD and PSKLabel. -/
theorem C102_contexts (b : Bytes) :
    (∀ g e ct ad, encPrivateContentAAD g e ct ad = .ok b ↔ (Spec.Rfc.privateContentAAD g e.toNat ct ad).bytes = some b) ∧
    (∀ g e ct, encSenderDataAAD g e ct = .ok b ↔ (Spec.Rfc.senderDataAAD g e.toNat ct).bytes = some b) ∧
    (∀ id i n, encPskLabel id i n = .ok b ↔ (Spec.Rfc.pskLabel id i.toNat n.toNat).bytes = some b) ∧
    (∀ l name c, lblPrefix ++ l = Spec.ascii ("MLS 1.0 " ++ name) → (encEncryptContext l c = .ok b ↔
      (Spec.Rfc.encryptContext (Spec.ascii ("MLS 1.0 " ++ name)) c).bytes = some b)) := by
  refine ⟨fun _ _ _ _ => ?_, fun _ _ _ => ?_, fun _ _ _ => ?_, fun l name c h => ?_⟩
  · rw [Enc.val_ok_iff, privateContentAAD_val]
  · rw [Enc.val_ok_iff, senderDataAAD_val]
  · rw [Enc.val_ok_iff, pskLabel_val]
  · rw [Enc.val_ok_iff, ← h]
    rfc [encEncryptContext, Spec.Rfc.encryptContext]

/-- The structures that are signed, written out byte by byte from the RFC: the message of a member with the group context, the same
from outside without it, the leaf of a commit with the group id and the leaf index, and the leaf of a key package without. -/
example :
    (Spec.Rfc.framedContentTBS .publicMessage ⟨[9], 1, .member 3, [], .application [4]⟩ ⟨1, 2, [9], 1, [5], [6], []⟩).bytes =
      some [0, 1, 0, 1, 1, 9, 0, 0, 0, 0, 0, 0, 0, 1, 1, 0, 0, 0, 3, 0, 1, 1, 4, 0, 1, 0, 2, 1, 9, 0, 0, 0, 0, 0, 0, 0, 1, 1, 5, 1, 6, 0] ∧
    (Spec.Rfc.framedContentTBS .publicMessage ⟨[9], 1, .external 3, [], .application [4]⟩ ⟨1, 2, [9], 1, [5], [6], []⟩).bytes =
      some [0, 1, 0, 1, 1, 9, 0, 0, 0, 0, 0, 0, 0, 1, 2, 0, 0, 0, 3, 0, 1, 1, 4] ∧
    (Spec.Rfc.leafNodeTBS ⟨[1], [2], .basic [3], ⟨[], [], [], [], []⟩, .commit [4], [], []⟩ [5] 6).bytes =
      some [1, 1, 1, 2, 0, 1, 1, 3, 0, 0, 0, 0, 0, 3, 1, 4, 0, 1, 5, 0, 0, 0, 6] ∧
    (Spec.Rfc.leafNodeTBS ⟨[1], [2], .basic [3], ⟨[], [], [], [], []⟩, .keyPackage ⟨1, 2⟩, [], []⟩ [5] 6).bytes =
      some [1, 1, 1, 2, 0, 1, 1, 3, 0, 0, 0, 0, 0, 1, 0, 0, 0, 0, 0, 0, 0, 1, 0, 0, 0, 0, 0, 0, 0, 2, 0] := by
  decide +kernel

/-- A message signed by the toy primitives verifies over these structures, with its membership tag, and has a reference. -/
example : ∃ d a m r, suite 1 = .ok d ∧
    signAuthenticatedContent toyPrims 1 (toyPrims.sigKeyPair d.sig [1]).2 .publicMessage ⟨[9], 1, .member 3, [], .proposal (.remove 2)⟩
      ⟨1, 1, [9], 1, [5], [6], []⟩ [] = .ok a ∧
    a.verifySignature toyPrims (toyPrims.sigKeyPair d.sig [1]).1 ⟨1, 1, [9], 1, [5], [6], []⟩ = .ok true ∧
    PublicMessage.signMembershipTag toyPrims 1 ⟨a.content, a.auth, []⟩ [7] ⟨1, 1, [9], 1, [5], [6], []⟩ = .ok m ∧
    m.verifyMembershipTag toyPrims [7] ⟨1, 1, [9], 1, [5], [6], []⟩ = .ok true ∧
    a.generateProposalRef toyPrims 1 = .ok r := by
  refine ⟨_, _, _, _, rfl, rfl, by decide +kernel, rfl, by decide +kernel, rfl⟩

end Mls
