import Verif.Proofs.Schedule
import Verif.Props.Proposals
import Verif.Model.Group
/-
Which calls can panic: encoders, decoders and labelled primitives.
-/
namespace Mls

/-! ### Encoders -/

/-- A credential that can be encoded: Credential.marshal panics on an unknown type (crypto.go:78). -/
def Credential.Known : Credential → Prop
  | .other _ => False
  | _ => True

/-- A proposal whose leaf nodes can be encoded. -/
def Proposal.Known : Proposal → Prop
  | .add k => k.leafNode.credential.Known
  | .update n => n.credential.Known
  | _ => True

/-- A proposal or reference whose leaf nodes can be encoded. -/
def ProposalOrRef.Known : ProposalOrRef → Prop
  | .proposal p => p.Known
  | _ => True

/-- A commit whose leaf nodes can be encoded. -/
structure Commit.Known (c : Commit) : Prop where
  proposals : ∀ p ∈ c.proposals, p.Known
  path : ∀ u, c.path = some u → u.leafNode.credential.Known

/-- A content whose leaf nodes can be encoded. -/
def Content.Known : Content → Prop
  | .application _ => True
  | .proposal p => p.Known
  | .commit c => c.Known

/-- A content that was decoded: it can be encoded, and the proposals of a commit are fewer than the
bytes a length prefix can announce. -/
structure Content.Read (c : Content) : Prop where
  known : c.Known
  few : ∀ k, c = .commit k → k.proposals.length < 2 ^ 30

theorem enc_concat_fine {es : List Enc} (h : ∀ e ∈ es, Res.Fine e) : Res.Fine (Enc.concat es) := by
  induction es with
  | nil => exact Res.fine_ok _
  | cons e es ih => exact enc_append_fine (h e (by simp)) (ih fun e' he' => h e' (by simp [he']))

theorem writeVector_fine {α : Type} {f : α → Enc} {l : List α} (h : ∀ a ∈ l, Res.Fine (f a)) :
    Res.Fine (writeVector f l) := by
  have hc := enc_concat_fine (es := l.map f) (by simpa using h)
  unfold writeVector
  rcases Res.fine_iff.1 hc with he | ⟨b, he⟩ <;> rw [he]
  · exact Res.fine_err
  · exact writeOpaqueVec_fine b

theorem addU8_fine (n : UInt8) : Res.Fine (addU8 n) := Res.fine_ok _
theorem addU16_fine (n : UInt16) : Res.Fine (addU16 n) := Res.fine_ok _
theorem addU32_fine (n : UInt32) : Res.Fine (addU32 n) := Res.fine_ok _
theorem addU64_fine (n : UInt64) : Res.Fine (addU64 n) := Res.fine_ok _
theorem addBytes_fine (b : Bytes) : Res.Fine (addBytes b) := Res.fine_ok _
theorem writeOptional_fine (b : Bool) : Res.Fine (writeOptional b) := Res.fine_ok _

/-- Splits an encoder into its parts. -/
macro "enc_fine" : tactic => `(tactic|
  repeat (first
    | exact writeOpaqueVec_fine _ | exact addU8_fine _ | exact addU16_fine _ | exact addU32_fine _ | exact addU64_fine _
    | exact addBytes_fine _ | exact writeOptional_fine _ | assumption
    | apply enc_append_fine | (refine writeVector_fine fun _ _ => ?_)))

theorem Credential.Known.enc {c : Credential} (h : c.Known) : Res.Fine c.enc := by
  unfold Credential.enc
  cases c with
  | basic => enc_fine
  | x509 => enc_fine
  | other => exact h.elim

theorem hpkeCiphertext_enc_fine (c : HpkeCiphertext) : Res.Fine c.enc := by unfold HpkeCiphertext.enc; enc_fine
theorem parentNode_enc_fine (n : ParentNode) : Res.Fine n.enc := by unfold ParentNode.enc; enc_fine
theorem capabilities_enc_fine (c : Capabilities) : Res.Fine c.enc := by unfold Capabilities.enc; enc_fine
theorem lifetime_enc_fine (l : Lifetime) : Res.Fine l.enc := by unfold Lifetime.enc; enc_fine
theorem extensions_enc_fine (l : List Extension) : Res.Fine (encExtensions l) := by
  unfold encExtensions Extension.enc
  enc_fine

theorem leafNodeSource_enc_fine (s : LeafNodeSource) : Res.Fine s.enc := by
  unfold LeafNodeSource.enc
  have := lifetime_enc_fine
  cases s
  · exact enc_append_fine (addU8_fine _) (this _)
  · enc_fine
  · enc_fine

theorem leafNode_encBase_fine {n : LeafNode} (h : n.credential.Known) : Res.Fine n.encBase := by
  have h1 := h.enc
  have h2 := capabilities_enc_fine n.capabilities
  have h3 := leafNodeSource_enc_fine n.source
  have h4 := extensions_enc_fine n.extensions
  unfold LeafNode.encBase
  enc_fine

theorem leafNode_enc_fine {n : LeafNode} (h : n.credential.Known) : Res.Fine n.enc := by
  have h1 := leafNode_encBase_fine h
  unfold LeafNode.enc
  enc_fine

theorem leafNode_encTBS_fine {n : LeafNode} (h : n.credential.Known) (id : Bytes) (li : UInt32) :
    Res.Fine (n.encTBS id li) := by
  have h1 := leafNode_encBase_fine h
  unfold LeafNode.encTBS
  split <;> enc_fine

theorem updatePath_enc_fine {u : UpdatePath} (h : u.leafNode.credential.Known) : Res.Fine u.enc := by
  have h1 := leafNode_enc_fine h
  unfold UpdatePath.enc UpdatePathNode.enc HpkeCiphertext.enc
  enc_fine

theorem keyPackage_encTBS_fine {k : KeyPackage} (h : k.leafNode.credential.Known) : Res.Fine k.encTBS := by
  have h1 := leafNode_enc_fine h
  have h2 := extensions_enc_fine k.extensions
  unfold KeyPackage.encTBS
  enc_fine

theorem keyPackage_enc_fine {k : KeyPackage} (h : k.leafNode.credential.Known) : Res.Fine k.enc := by
  have h1 := keyPackage_encTBS_fine h
  unfold KeyPackage.enc
  enc_fine

theorem Proposal.Known.enc {p : Proposal} (h : p.Known) : Res.Fine p.enc := by
  unfold Proposal.enc
  cases p with
  | add k => exact enc_append_fine (addU16_fine _) (keyPackage_enc_fine h)
  | update n => exact enc_append_fine (addU16_fine _) (leafNode_enc_fine h)
  | remove => enc_fine
  | psk id => exact enc_append_fine (addU16_fine _) (pskID_enc_fine id)
  | reInit r =>
    have := extensions_enc_fine r.extensions
    unfold ReInit.enc
    enc_fine
  | externalInit => enc_fine
  | groupContextExtensions e => exact enc_append_fine (addU16_fine _) (extensions_enc_fine e)

theorem ProposalOrRef.Known.enc {p : ProposalOrRef} (h : p.Known) : Res.Fine p.enc := by
  unfold ProposalOrRef.enc
  cases p with
  | proposal p => exact enc_append_fine (addU8_fine _) (Proposal.Known.enc h)
  | reference => enc_fine

theorem Commit.Known.enc {c : Commit} (h : c.Known) : Res.Fine c.enc := by
  unfold Commit.enc
  refine enc_append_fine (writeVector_fine fun p hp => (h.proposals p hp).enc) ?_
  cases hc : c.path with
  | none => enc_fine
  | some u => exact enc_append_fine (writeOptional_fine _) (updatePath_enc_fine (h.path u hc))

theorem Content.Known.enc {c : Content} (h : c.Known) : Res.Fine c.enc := by
  unfold Content.enc
  cases c with
  | application => enc_fine
  | proposal p => exact Proposal.Known.enc h
  | commit c => exact Commit.Known.enc h

theorem wireFormat_enc_fine (w : WireFormat) : Res.Fine w.enc := by cases w <;> exact Res.fine_ok _
theorem contentType_enc_fine (c : ContentType) : Res.Fine c.enc := by cases c <;> exact Res.fine_ok _
theorem sender_enc_fine (s : Sender) : Res.Fine s.enc := by
  unfold Sender.enc
  cases s <;> enc_fine

theorem authData_enc_fine (a : AuthData) (ct : ContentType) : Res.Fine (a.enc ct) := by
  unfold AuthData.enc
  split <;> enc_fine

theorem groupContext_enc_fine (c : GroupContext) : Res.Fine c.enc := by
  have := extensions_enc_fine c.extensions
  unfold GroupContext.enc
  enc_fine

theorem framedContent_enc_fine {c : FramedContent} (h : c.content.Known) : Res.Fine c.enc := by
  have h1 := h.enc
  have h2 := contentType_enc_fine c.content.ty
  have h3 := sender_enc_fine c.sender
  unfold FramedContent.enc
  enc_fine

theorem framedContentTBS_fine {c : FramedContent} (h : c.content.Known) (w : WireFormat) (ctx : GroupContext) :
    Res.Fine (encFramedContentTBS w c ctx) := by
  have h1 := framedContent_enc_fine h
  have h2 := wireFormat_enc_fine w
  have h3 := groupContext_enc_fine ctx
  unfold encFramedContentTBS
  split <;> enc_fine

theorem authenticatedContent_enc_fine {a : AuthenticatedContent} (h : a.content.content.Known) : Res.Fine a.enc := by
  have h1 := framedContent_enc_fine h
  have h2 := wireFormat_enc_fine a.wireFormat
  have h3 := authData_enc_fine a.auth a.content.content.ty
  unfold AuthenticatedContent.enc
  enc_fine

theorem encTBM_fine {m : PublicMessage} (h : m.content.content.Known) (ctx : GroupContext) : Res.Fine (m.encTBM ctx) := by
  have h1 := framedContentTBS_fine h .publicMessage ctx
  have h3 := authData_enc_fine m.auth m.content.content.ty
  unfold PublicMessage.encTBM
  enc_fine

theorem confirmedInput_fine {c : FramedContent} (h : c.content.Known) (w : WireFormat) (sig : Bytes) :
    Res.Fine (encConfirmedTranscriptHashInput w c sig) := by
  have h1 := framedContent_enc_fine h
  have h2 := wireFormat_enc_fine w
  unfold encConfirmedTranscriptHashInput
  split
  · enc_fine
  · exact Res.fine_err

theorem groupInfo_encTBS_fine (i : GroupInfo) : Res.Fine i.encTBS := by
  have h1 := groupContext_enc_fine i.groupContext
  have h2 := extensions_enc_fine i.extensions
  unfold GroupInfo.encTBS
  enc_fine

theorem groupInfo_enc_fine (i : GroupInfo) : Res.Fine i.enc := by
  have h1 := groupInfo_encTBS_fine i
  unfold GroupInfo.enc
  enc_fine

theorem groupSecrets_enc_fine (g : GroupSecrets) : Res.Fine g.enc := by
  unfold GroupSecrets.enc
  refine enc_append_fine (enc_append_fine (writeOpaqueVec_fine _) ?_) (writeVector_fine fun id _ => pskID_enc_fine id)
  cases g.pathSecret <;> enc_fine

theorem senderDataAAD_fine (id : Bytes) (e : UInt64) (ct : ContentType) : Res.Fine (encSenderDataAAD id e ct) := by
  have := contentType_enc_fine ct
  unfold encSenderDataAAD
  enc_fine

theorem privateContentAAD_fine (id : Bytes) (e : UInt64) (ct : ContentType) (ad : Bytes) :
    Res.Fine (encPrivateContentAAD id e ct ad) := by
  have := contentType_enc_fine ct
  unfold encPrivateContentAAD
  enc_fine

theorem privateMessage_enc_fine (m : PrivateMessage) : Res.Fine m.enc := by
  have := contentType_enc_fine m.contentType
  unfold PrivateMessage.enc
  enc_fine

theorem privateMessageContent_enc_fine {c : PrivateMessageContent} (h : c.content.Known) : Res.Fine c.enc := by
  have h1 := h.enc
  have h2 := authData_enc_fine c.auth c.content.ty
  unfold PrivateMessageContent.enc
  enc_fine

theorem senderData_enc_fine (d : SenderData) : Res.Fine d.enc := by unfold SenderData.enc; enc_fine

theorem optNode_enc_fine {o : Option Node} (h : ∀ l, o = some (.leaf l) → l.credential.Known) : Res.Fine (encOptNode o) := by
  unfold encOptNode Node.enc
  cases o with
  | none => enc_fine
  | some n =>
    cases n with
    | leaf l =>
      have := leafNode_enc_fine (h l rfl)
      enc_fine
    | parent p =>
      have := parentNode_enc_fine p
      enc_fine

/-! ### Decoders give known credentials -/

/-- What a decoder gives satisfies `Q`. -/
def Yields {α : Type} (dec : P α) (Q : α → Prop) : Prop := ∀ s a rest, dec.run s = (.ok a, rest) → Q a

section
variable {α β : Type}

theorem Yields.any {p : P α} : Yields p fun _ => True := fun _ _ _ _ => trivial

theorem Yields.pure {a : α} {Q : α → Prop} (h : Q a) : Yields (Pure.pure a : P α) Q := by
  intro s b rest hr
  rw [P.pure_ok_iff] at hr
  rw [← hr.1]
  exact h

theorem Yields.fail {Q : α → Prop} : Yields (P.fail : P α) Q := by
  intro s b rest hr
  rw [P.fail_ok_iff] at hr
  exact hr.elim

theorem Yields.panic {Q : α → Prop} : Yields (P.panic : P α) Q := by
  intro s b rest hr
  rw [P.panic_ok_iff] at hr
  exact hr.elim

theorem Yields.bind {p : P α} {f : α → P β} {Q : α → Prop} {R : β → Prop} (hp : Yields p Q)
    (hf : ∀ a, Q a → Yields (f a) R) : Yields (p >>= f) R := by
  intro s b rest hr
  rw [P.bind_ok_iff] at hr
  obtain ⟨a, s', h1, h2⟩ := hr
  exact hf a (hp _ _ _ h1) _ _ _ h2

theorem Yields.then {p : P α} {f : α → P β} {R : β → Prop} (hf : ∀ a, Yields (f a) R) : Yields (p >>= f) R :=
  Yields.bind .any fun a _ => hf a

theorem Yields.ite {c : Prop} [Decidable c] {p q : P α} {Q : α → Prop} (hp : Yields p Q) (hq : Yields q Q) :
    Yields (if c then p else q) Q := by split <;> assumption

theorem Yields.vector {p : P α} {Q : α → Prop} (hp : Yields p Q) : Yields (readVector p) fun l => ∀ a ∈ l, Q a := by
  have key : ∀ (fuel : Nat) (s : Bytes) (l : List α), readVectorLoop p fuel s = .ok l → ∀ a ∈ l, Q a := by
    intro fuel
    induction fuel with
    | zero =>
      intro s l h
      cases s with
      | nil =>
        simp only [readVectorLoop] at h
        cases h
        simp
      | cons => simp [readVectorLoop] at h
    | succ fuel ih =>
      intro s l h
      cases s with
      | nil =>
        simp only [readVectorLoop] at h
        cases h
        simp
      | cons b s =>
        unfold readVectorLoop at h
        rcases hr : p.run (b :: s) with ⟨r, s'⟩
        rw [hr] at h
        cases r with
        | ok a =>
          simp only at h
          cases hl : readVectorLoop p fuel s' with
          | ok as =>
            rw [hl] at h
            simp only [Res.bind_ok'] at h
            cases h
            intro x hx
            rcases List.mem_cons.1 hx with rfl | hx
            · exact hp _ _ _ hr
            · exact ih _ _ hl x hx
          | err => rw [hl] at h; cases h
          | panic => rw [hl] at h; cases h
          | hang => rw [hl] at h; cases h
        | err => cases h
        | panic => cases h
        | hang => cases h
  unfold readVector
  refine Yields.then fun n => Yields.then fun vec => ?_
  intro s l rest h
  exact key _ _ _ (Prod.mk.inj h).1

/-- A decoded vector has fewer than 2^30 elements: each takes at least one of the bytes announced
by its length. -/
theorem Yields.few {p : P α} : Yields (readVector p) fun l => l.length < 2 ^ 30 := by
  have key : ∀ (fuel : Nat) (s : Bytes) (l : List α), readVectorLoop p fuel s = .ok l → l.length ≤ fuel := by
    intro fuel
    induction fuel with
    | zero =>
      intro s l h
      cases s with
      | nil =>
        simp only [readVectorLoop] at h
        cases h
        simp
      | cons => simp [readVectorLoop] at h
    | succ fuel ih =>
      intro s l h
      cases s with
      | nil =>
        simp only [readVectorLoop] at h
        cases h
        simp
      | cons b s =>
        unfold readVectorLoop at h
        rcases hr : p.run (b :: s) with ⟨r, s'⟩
        rw [hr] at h
        cases r with
        | ok a =>
          simp only at h
          cases hl : readVectorLoop p fuel s' with
          | ok as =>
            rw [hl] at h
            simp only [Res.bind_ok'] at h
            cases h
            have := ih _ _ hl
            simp only [List.length_cons]
            omega
          | err => rw [hl] at h; cases h
          | panic => rw [hl] at h; cases h
          | hang => rw [hl] at h; cases h
        | err => cases h
        | panic => cases h
        | hang => cases h
  unfold readVector
  intro s l rest h
  rw [P.bind_ok_iff] at h
  obtain ⟨n, s1, hn, h⟩ := h
  rw [P.bind_ok_iff] at h
  obtain ⟨vec, s2, hv, h⟩ := h
  have hl := key _ _ _ (Prod.mk.inj h).1
  have hvl : vec.length = n.toNat := by
    rw [readN_ok_iff] at hv
    exact hv.1
  have hn' : n.toNat < 2 ^ 30 := by
    rw [readVarint_ok_iff] at hn
    obtain ⟨b, bs, -, hc⟩ := hn
    have hb := beVal_lt bs
    rcases hc with ⟨h1, h2, h3⟩ | ⟨h1, h2, h3, h4, h5⟩ | ⟨h1, h2, h3, h4, h5⟩
    · omega
    · rw [h3] at hb
      omega
    · rw [h3] at hb
      omega
  omega

theorem Yields.and {p : P α} {Q R : α → Prop} (hq : Yields p Q) (hr : Yields p R) : Yields p fun a => Q a ∧ R a :=
  fun s a rest h => ⟨hq s a rest h, hr s a rest h⟩

theorem Yields.unmarshal {p : P α} {Q : α → Prop} (hp : Yields p Q) {raw : Bytes} {a : α}
    (h : Mls.unmarshal p raw = .ok a) : Q a := hp _ _ _ (unmarshal_ok_iff.1 h)

end

theorem credential_yields : Yields Credential.dec Credential.Known :=
  .then fun _ => .ite (.then fun _ => .pure trivial) (.ite (.then fun _ => .pure trivial) .fail)

theorem leafNode_yields : Yields LeafNode.dec fun n => n.credential.Known :=
  .then fun _ => .then fun _ => .bind credential_yields fun _ h => .then fun _ => .then fun _ => .then fun _ => .then fun _ =>
    .then fun _ => .pure h

theorem updatePath_yields : Yields UpdatePath.dec fun u => u.leafNode.credential.Known :=
  .bind leafNode_yields fun _ h => .then fun _ => .pure h

theorem keyPackage_yields : Yields KeyPackage.dec fun k => k.leafNode.credential.Known :=
  .then fun _ => .then fun _ => .then fun _ => .ite .fail (.bind leafNode_yields fun _ h => .then fun _ => .then fun _ => .pure h)

theorem proposal_yields : Yields Proposal.dec Proposal.Known :=
  .then fun _ => .ite (.bind keyPackage_yields fun _ h => .pure h) <| .ite (.bind leafNode_yields fun _ h => .pure h) <|
    .ite (.then fun _ => .pure trivial) <| .ite (.then fun _ => .pure trivial) <| .ite (.then fun _ => .pure trivial) <|
    .ite (.then fun _ => .pure trivial) <| .ite (.then fun _ => .pure trivial) .panic

theorem proposalOrRef_yields : Yields ProposalOrRef.dec ProposalOrRef.Known :=
  .then fun _ => .ite (.bind proposal_yields fun _ h => .pure h) (.ite (.then fun _ => .pure trivial) .panic)

theorem commit_yields : Yields Commit.dec Commit.Known :=
  .bind proposalOrRef_yields.vector fun _ h => .then fun _ =>
    .ite (.bind updatePath_yields fun _ h' => .pure ⟨h, fun _ e => Option.some.inj e ▸ h'⟩)
      (.pure ⟨h, fun _ e => nomatch e⟩)

theorem commit_few : Yields Commit.dec fun c => c.proposals.length < 2 ^ 30 :=
  .bind Yields.few fun _ h => .then fun _ => .ite (.then fun _ => .pure h) (.pure h)

theorem content_yields (ct : ContentType) : Yields (Content.dec ct) Content.Read := by
  cases ct with
  | application => exact .then fun _ => .pure ⟨trivial, fun _ e => Content.noConfusion e⟩
  | proposal => exact .bind proposal_yields fun _ h => .pure ⟨h, fun _ e => Content.noConfusion e⟩
  | commit => exact .bind (commit_yields.and commit_few) fun _ h => .pure ⟨h.1, fun _ e => Content.commit.inj e ▸ h.2⟩

theorem framedContent_yields : Yields FramedContent.dec fun c => c.content.Read :=
  .then fun _ => .then fun _ => .then fun _ => .then fun _ => .then fun _ => .bind (content_yields _) fun _ h => .pure h

theorem publicMessage_yields : Yields PublicMessage.dec fun m => m.content.content.Read := by
  refine .bind framedContent_yields fun c h => .then fun _ => ?_
  cases c.sender with
  | member => exact .then fun _ => .pure h
  | external => exact .pure h
  | newMemberProposal => exact .pure h
  | newMemberCommit => exact .pure h

theorem privateMessageContent_yields (ct : ContentType) : Yields (PrivateMessageContent.dec ct) fun c => c.content.Read :=
  .bind (content_yields ct) fun _ h => .then fun _ => .pure h

theorem message_yields : Yields MlsMessage.dec fun m => ∀ p, m.body = .publicMessage p → p.content.content.Read :=
  .then fun _ => .ite .fail <| .then fun _ =>
    .ite (.bind publicMessage_yields fun _ h => .pure fun _ e => MessageBody.publicMessage.inj e ▸ h) <|
    .ite (.then fun _ => .pure fun _ e => MessageBody.noConfusion e) <|
    .ite (.then fun _ => .pure fun _ e => MessageBody.noConfusion e) <|
    .ite (.then fun _ => .pure fun _ e => MessageBody.noConfusion e) <|
    .ite (.then fun _ => .pure fun _ e => MessageBody.noConfusion e) .panic

theorem optNode_yields : Yields decOptNode fun o => ∀ l, o = some (.leaf l) → l.credential.Known := by
  unfold decOptNode Node.dec
  refine .then fun _ => .ite ?_ (.pure fun _ e => nomatch e)
  refine Yields.bind (Q := fun n => ∀ l, n = .leaf l → l.credential.Known) ?_ fun n h => .pure fun l e => h l (Option.some.inj e)
  exact .then fun _ => .ite (.bind leafNode_yields fun _ h => .pure fun _ e => Node.leaf.inj e ▸ h) <|
    .ite (.then fun _ => .pure fun _ e => Node.noConfusion e) .panic

/-- The leaves of a decoded tree can be encoded. -/
theorem tree_yields : Yields decTree fun t => ∀ (x : Nat) l, t[x]? = some (some (.leaf l)) → l.credential.Known := by
  have key : ∀ (fuel : Nat) (t t' : VTree), padLoop fuel t = .ok t' →
      (∀ (x : Nat) l, t[x]? = some (some (Node.leaf l)) → l.credential.Known) →
      ∀ (x : Nat) l, t'[x]? = some (some (Node.leaf l)) → l.credential.Known := by
    intro fuel
    induction fuel with
    | zero =>
      intro t t' h ht
      unfold padLoop at h
      split at h
      · cases h; exact ht
      · cases h
    | succ fuel ih =>
      intro t t' h ht
      unfold padLoop at h
      split at h
      · cases h; exact ht
      · refine ih _ _ h fun x l hx => ?_
        rw [List.getElem?_append] at hx
        split at hx
        · exact ht x l hx
        · have := List.mem_of_getElem? hx
          simp at this
  unfold decTree
  refine .bind optNode_yields.vector fun t h => ?_
  intro s t' rest hr
  refine key _ _ _ (Prod.mk.inj hr).1 fun x l hx => h _ (List.mem_of_getElem? hx) l rfl

end Mls
