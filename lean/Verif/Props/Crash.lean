import Verif.Props.Exact
import Verif.Props.NoPanic
import Verif.Props.Keys
/-
C108: exactly which messages make a member panic, and which keep it busy for ever.
-/
namespace Mls

open Spec (Ratchet nodeAt IsAncestor)
open Spec.Ratchet (addOpt addsOf removesOf updatesOf)

variable {pr : Prims}

/-! ### Specification -/

/-- Checking the signature `sig` of `content` panics: the suite signs with ECDSA, the content can be encoded to be verified, and the bytes
of the key are not a point of the curve, for which the elliptic package of Go returns nil. -/
def Spec.BadPoint (pr : Prims) (cs : UInt16) (key : Bytes) (label : String) (content sig : Bytes) : Prop :=
  ∃ d m, (cs.toNat, d) ∈ Spec.suites ∧ d.sig.ecdsa = true ∧ Spec.signContent label content = some m ∧ pr.verify d.sig key m sig = none

/-- The public message `m` makes a member panic before it is known to be authentic: it is for the group and its epoch, and names as sender a leaf
outside the tree or one with a key that is no point. -/
def Spec.PublicCrash (pr : Prims) (st : GroupState) (m : PublicMessage) : Prop :=
  m.content.groupID = st.group.groupContext.groupID ∧ m.content.epoch = st.group.groupContext.epoch ∧ ∃ li,
    m.content.sender = .member li ∧ (st.vtree.length ≤ 2 * (li.toNat % 2 ^ 31) ∨ ∃ leaf tbs,
      st.vtree[2 * (li.toNat % 2 ^ 31)]? = some (some (.leaf leaf)) ∧
      (Spec.Rfc.framedContentTBS .publicMessage m.content st.group.groupContext).bytes = some tbs ∧
      Spec.BadPoint pr st.group.groupContext.cipherSuite leaf.signatureKey "FramedContentTBS" tbs m.auth.signature)

/-- The private message `m` makes a member panic before its content is known to be authentic: its sender data open, with the keys of
the epoch, and name a leaf outside the tree; or the content opens too and the leaf has a key that is no point. -/
def Spec.PrivateCrash (pr : Prims) (sd : SuiteDesc) (st : GroupState) (depth : Nat) (m : PrivateMessage) : Prop :=
  m.groupID = st.group.groupContext.groupID ∧ m.epoch = st.group.groupContext.epoch ∧ m.groupID.length < 2 ^ 30 ∧
  ∃ (li gen : UInt32) (guard : Bytes4),
    pr.aeadOpen sd.aead (Spec.senderDataKey pr sd st.group.epochSecret m.ciphertext)
      (Spec.senderDataNonce pr sd st.group.epochSecret m.ciphertext) m.encryptedSenderData
      (Spec.senderDataAAD m.groupID m.epoch.toNat m.contentType) = some (Spec.senderData li.toNat gen.toNat guard.toBytes) ∧
    (2 ^ depth ≤ li.toNat % 2 ^ 31 ∨
      m.authenticatedData.length < 2 ^ 30 ∧ ∃ (pt : Bytes) (c : PrivateMessageContent) (k : Nat) (leaf : LeafNode) (tbs : Bytes),
        Spec.Opens pr sd st.group.groupContext st.group.epochSecret depth m li.toNat gen.toNat guard.toBytes pt ∧
        (PrivateMessageContent.dec m.contentType).run pt = (.ok c, List.replicate k 0) ∧
        st.vtree[2 * (li.toNat % 2 ^ 31)]? = some (some (.leaf leaf)) ∧
        (Spec.Rfc.framedContentTBS .privateMessage
          { groupID := m.groupID, epoch := m.epoch, sender := .member li, authenticatedData := m.authenticatedData, content := c.content }
          st.group.groupContext).bytes = some tbs ∧
        Spec.BadPoint pr st.group.groupContext.cipherSuite leaf.signatureKey "FramedContentTBS" tbs c.auth.signature)

/-- The key package `k` gets as far as the check of its signature, which panics. -/
def Spec.PackageCrash (pr : Prims) (ctx : GroupContext) (k : KeyPackage) : Prop :=
  k.version = ctx.version ∧ k.cipherSuite = ctx.cipherSuite ∧ (∃ lt, k.leafNode.source = .keyPackage lt) ∧ ∃ tbs,
    (Spec.Rfc.keyPackageTBS k).bytes = some tbs ∧ Spec.BadPoint pr k.cipherSuite k.leafNode.signatureKey "KeyPackageTBS" tbs k.signature

/-- The proposals `l` of the commit are those that it lists or refers to, and follow the rules of RFC 9420 section 12.2. -/
structure Spec.Listed (pending : List PendingProposal) (sender : UInt32) (c : Commit) (l : List (Proposal × UInt32)) : Prop where
  resolved : Spec.resolve sender pending c.proposals = some l
  pskIDs : ∀ id ∈ l.filterMap Spec.pskID, ∃ b, (Spec.Rfc.preSharedKeyID id).bytes = some b
  rules : Spec.ProposalListOk l sender

/-- Moreover the key packages they add are valid, and there is a path or none is needed: they are then applied. -/
structure Spec.Checked (pr : Prims) (ctx : GroupContext) (pending : List PendingProposal) (sender : UInt32) (c : Commit)
    (l : List (Proposal × UInt32)) : Prop extends Spec.Listed pending sender c l where
  packages : ∀ k s, (.add k, s) ∈ l → Spec.PackageValid pr ctx k
  pathNeeded : c.path = none → l ≠ [] ∧ ∀ p ∈ l, Spec.pathless p.1

/-- What the update path has to panic on, when the proposals have made the tree `r`: its committer has no leaf there, or gives itself one with
a key that is no point. -/
def Spec.PathCrash (pr : Prims) (ctx : GroupContext) (sender : UInt32) (r : Option (Ratchet.Any ParentNode)) (path : UpdatePath) : Prop :=
  (∃ ph, path.leafNode.source = .commit ph) ∧
  ((¬ ∃ (d : Nat) (s : Ratchet ParentNode d) (leaf : LeafNode), r = some ⟨d, s⟩ ∧ s.leaves[sender.toNat % 2 ^ 31]? = some (some leaf)) ∨
    ∃ tbs, (Spec.Rfc.leafNodeTBS path.leafNode ctx.groupID sender.toNat).bytes = some tbs ∧
      Spec.BadPoint pr ctx.cipherSuite path.leafNode.signatureKey "LeafNodeTBS" tbs path.leafNode.signature)

/-- An authentic commit makes a member panic: with a key package that it adds; with a proposal that cannot be applied,
because it is about a leaf outside the tree; or with its path. -/
def Spec.CommitCrash (pr : Prims) (ctx : GroupContext) (pending : List PendingProposal) {d0 : Nat} (s0 : Ratchet ParentNode d0)
    (sender : UInt32) (c : Commit) : Prop :=
  (∃ l1 k s l2, Spec.Listed pending sender c (l1 ++ (.add k, s) :: l2) ∧
      (∀ k' s', (.add k', s') ∈ l1 → Spec.PackageValid pr ctx k') ∧ Spec.PackageCrash pr ctx k) ∨
  ∃ l, Spec.Checked pr ctx pending sender c l ∧
    (Spec.applyProposals (some ⟨d0, s0⟩) l = none ∨
      ∃ r path, Spec.applyProposals (some ⟨d0, s0⟩) l = some r ∧ (∀ x, r = some x → x.1 ≤ 31) ∧ c.path = some path ∧
        Spec.PathCrash pr ctx sender r path)

/-- An authentic commit keeps a member busy for ever: it makes the tree deeper than 32-bit indices can number. -/
def Spec.CommitEndless (pr : Prims) (ctx : GroupContext) (pending : List PendingProposal) {d0 : Nat} (s0 : Ratchet ParentNode d0)
    (sender : UInt32) (c : Commit) : Prop :=
  ∃ l x, Spec.Checked pr ctx pending sender c l ∧ Spec.applyProposals (some ⟨d0, s0⟩) l = some (some x) ∧ 31 < x.1

/-! ### Outcomes -/

/-- The call panics exactly if `P`, and otherwise returns. -/
def Res.PanicIff {α : Type} (x : Res α) (P : Prop) : Prop := (x = .panic ↔ P) ∧ x ≠ .hang

theorem Res.Fine.panicIff {α : Type} {x : Res α} (h : x.Fine) {P : Prop} (hp : ¬ P) : x.PanicIff P :=
  ⟨⟨fun e => absurd e h.1, fun e => absurd e hp⟩, h.2⟩

theorem Res.PanicIff.congr {α : Type} {x : Res α} {P Q : Prop} (h : x.PanicIff P) (hpq : P ↔ Q) : x.PanicIff Q :=
  ⟨h.1.trans hpq, h.2⟩

theorem Res.PanicIff.bind {α β : Type} {x : Res α} {f : α → Res β} {P : Prop} {Q : α → Prop} (hx : x.PanicIff P)
    (hf : ∀ a, x = .ok a → (f a).PanicIff (Q a)) : (x >>= f).PanicIff (P ∨ ∃ a, x = .ok a ∧ Q a) := by
  cases x with
  | ok a =>
    have hp : ¬ P := fun h => nomatch hx.1.2 h
    have := hf a rfl
    refine ⟨?_, this.2⟩
    rw [Res.ok_bind, this.1]
    simp [hp]
  | err =>
    have hp : ¬ P := fun h => nomatch hx.1.2 h
    refine ⟨⟨fun h => (by cases h), ?_⟩, fun h => (by cases h)⟩
    rintro (h | ⟨_, h, _⟩)
    · exact absurd h hp
    · cases h
  | panic => exact ⟨⟨fun _ => .inl (hx.1.1 rfl), fun _ => rfl⟩, fun h => (by cases h)⟩
  | hang => exact absurd rfl hx.2

theorem Res.Fine.bindPanic {α β : Type} {x : Res α} {f : α → Res β} {Q : α → Prop} (hx : x.Fine)
    (hf : ∀ a, x = .ok a → (f a).PanicIff (Q a)) : (x >>= f).PanicIff (∃ a, x = .ok a ∧ Q a) :=
  ((hx.panicIff (P := False) id).bind hf).congr (by simp)

theorem Res.PanicIff.tail {α β : Type} {x : Res α} {f : α → Res β} {P : Prop} (hx : x.PanicIff P)
    (hf : ∀ a, x = .ok a → (f a).Fine) : (x >>= f).PanicIff P :=
  (hx.bind (Q := fun _ => False) fun a h => (hf a h).panicIff id).congr (by simp)

theorem guard_panic {β : Type} {b : Bool} {f : Unit → Res β} {Q : Prop} (hf : b = true → (f ()).PanicIff Q) :
    (Res.guardErr b >>= f).PanicIff (b = true ∧ Q) :=
  ((Res.fine_guardErr b).bindPanic (Q := fun _ => Q) fun _ h => hf (Res.guardErr_ok_iff.1 h)).congr
    ⟨fun ⟨_, h, q⟩ => ⟨Res.guardErr_ok_iff.1 h, q⟩, fun ⟨h, q⟩ => ⟨(), Res.guardErr_ok_iff.2 h, q⟩⟩

theorem ok_panic {α β : Type} {x : Res α} {a : α} (hx : x = .ok a) {f : α → Res β} {Q : Prop} (hf : (f a).PanicIff Q) :
    (x >>= f).PanicIff Q := by
  subst hx
  exact hf

theorem orFalse_panic {α : Type} {x : Res α} {f : α → Res Bool} {Q : α → Prop} (hx : x.Fine)
    (hf : ∀ a, x = .ok a → (f a).PanicIff (Q a)) : (orFalse x f).PanicIff (∃ a, x = .ok a ∧ Q a) := by
  cases x with
  | ok a => exact (hf a rfl).congr (by simp)
  | err => exact (Res.fine_ok _).panicIff (by simp)
  | panic => exact absurd rfl hx.1
  | hang => exact absurd rfl hx.2

theorem verifyWithLabel_panic {cs : UInt16} {sd : SuiteDesc} (hd : suite cs = .ok sd) {label : Bytes} {name : String}
    (hl : lblPrefix ++ label = Spec.ascii ("MLS 1.0 " ++ name)) (hs : (lblPrefix ++ label).length < 2 ^ 30) (key content sig : Bytes) :
    (verifyWithLabel pr cs key label content sig).PanicIff (Spec.BadPoint pr cs key name content sig) := by
  unfold verifyWithLabel Spec.BadPoint
  rw [encSignContent_eq hl hs]
  cases hm : Spec.signContent name content with
  | none => exact (Res.fine_ok _).panicIff (by simp)
  | some m =>
    have hb : (∃ d m', (cs.toNat, d) ∈ Spec.suites ∧ d.sig.ecdsa = true ∧ some m = some m' ∧ pr.verify d.sig key m' sig = none) ↔
        sd.sig.ecdsa = true ∧ pr.verify sd.sig key m sig = none := by
      simp only [← suite_iff_spec, hd, Res.ok.injEq, Option.some.injEq]
      exact ⟨fun ⟨_, _, h1, h2, h3, h4⟩ => by subst h1; subst h3; exact ⟨h2, h4⟩, fun ⟨h1, h2⟩ => ⟨_, _, rfl, h1, rfl, h2⟩⟩
    rw [hb]
    simp only [orErr, hd, Res.ok_bind, sigVerify]
    split
    · next he =>
      cases hv : pr.verify sd.sig key m sig with
      | none => exact ⟨⟨fun _ => ⟨he, rfl⟩, fun _ => rfl⟩, fun h => (by cases h)⟩
      | some b => exact (Res.fine_ok _).panicIff (by simp)
    · next he => exact (Res.fine_ok _).panicIff fun h => he h.1

theorem contentSignature_panic {a : AuthenticatedContent} {ctx : GroupContext} {sd : SuiteDesc} (hd : suite ctx.cipherSuite = .ok sd)
    (h : a.content.content.Known) (k : Bytes) : (a.verifySignature pr k ctx).PanicIff
      (∃ tbs, (Spec.Rfc.framedContentTBS a.wireFormat a.content ctx).bytes = some tbs ∧
        Spec.BadPoint pr ctx.cipherSuite k "FramedContentTBS" tbs a.auth.signature) := by
  simp only [contentTBS_some]
  exact orFalse_panic (framedContentTBS_fine h _ ctx) fun _ _ => verifyWithLabel_panic hd lblFramedContentTBS_name (by decide) _ _ _

theorem keyPackage_panic {k : KeyPackage} {ctx : GroupContext} {sd : SuiteDesc} (hd : suite ctx.cipherSuite = .ok sd)
    (h : k.leafNode.credential.Known) : (k.verify pr ctx).PanicIff (Spec.PackageCrash pr ctx k) := by
  have hsrc : k.leafNode.isKeyPackage = true ↔ ∃ lt, k.leafNode.source = .keyPackage lt := by
    unfold LeafNode.isKeyPackage
    cases k.leafNode.source <;> simp
  unfold Spec.PackageCrash
  simp only [packageTBS_some, ← hsrc, ← beq_iff_eq (a := k.version), ← beq_iff_eq (a := k.cipherSuite) (b := ctx.cipherSuite)]
  unfold KeyPackage.verify
  refine guard_panic fun _ => guard_panic fun hcs => guard_panic fun _ => Res.PanicIff.tail ?_ fun _ _ =>
    (Res.fine_guardErr _).bind fun _ _ => Res.fine_guardErr _
  rw [beq_iff_eq] at hcs
  exact orFalse_panic (keyPackage_encTBS_fine h) fun _ _ =>
    verifyWithLabel_panic (hcs ▸ hd) lblKeyPackageTBS_name (by decide) _ _ _

theorem getLeaf_panicIff {v : VTree} (hv : Spec.IsTree v) (i : Nat) : (getLeaf v i).PanicIff (v.length ≤ 2 * (i % 2 ^ 31)) := by
  by_cases h : nodeOfLeaf i < v.length
  · refine (getLeaf_fine hv h).panicIff ?_
    rw [← nodeOfLeaf_mod31]
    omega
  · have : getLeaf v i = .panic := by
      unfold getLeaf Res.idx
      rw [List.getElem?_eq_none (by omega)]
      rfl
    rw [this]
    refine ⟨⟨fun _ => ?_, fun _ => rfl⟩, fun h => (by cases h)⟩
    rw [← nodeOfLeaf_mod31]
    omega

/-! ### Messages -/

theorem verifyPublicMessage_panic {st : GroupState} (hi : GroupInv pr st) (hf : FineInv st) {m : PublicMessage} (hk : m.content.content.Known) :
    (verifyPublicMessage pr st m).PanicIff (Spec.PublicCrash pr st m) := by
  obtain ⟨sd, hsd⟩ := hi.suite
  unfold Spec.PublicCrash verifyPublicMessage
  simp only [← beq_iff_eq (a := m.content.groupID), ← beq_iff_eq (a := m.content.epoch)]
  refine guard_panic fun _ => guard_panic fun _ => ?_
  split
  · next li hli =>
    refine ((getLeaf_panicIff ((Shaped.of hi.tree hf.leaves).isTree st.heap) li.toNat).bind
      (Q := fun o => ∃ leaf tbs, o = some leaf ∧
        (Spec.Rfc.framedContentTBS .publicMessage m.content st.group.groupContext).bytes = some tbs ∧
        Spec.BadPoint pr st.group.groupContext.cipherSuite leaf.signatureKey "FramedContentTBS" tbs m.auth.signature)
      fun o ho => ?_).congr ?_
    · refine ((fine_orErr o).bindPanic fun leaf hl => (contentSignature_panic hsd (a := m.authenticatedContent) hk leaf.signatureKey).tail
        fun _ _ => (Res.fine_guardErr _).bind fun _ _ => (deriveSecret_fine hsd _ _).bind fun _ _ => (membershipTag_fine hsd hk _).bind fun _ _ =>
        (Res.fine_guardErr _).bind fun _ _ => Res.fine_ok _).congr ?_
      simp only [orErr_ok_iff]
      exact ⟨fun ⟨leaf, h1, tbs, h2⟩ => ⟨leaf, tbs, h1, h2⟩, fun ⟨leaf, tbs, h1, h2⟩ => ⟨leaf, h1, tbs, h2⟩⟩
    · constructor
      · rintro (h | ⟨o, ho, leaf, tbs, rfl, h1, h2⟩)
        · exact ⟨li, hli, .inl h⟩
        · exact ⟨li, hli, .inr ⟨leaf, tbs, by rw [getLeaf_ok_some_iff, nodeOfLeaf_mod31] at ho; exact ho, h1, h2⟩⟩
      · rintro ⟨li', hli', h⟩
        obtain rfl : li = li' := Sender.member.inj (hli.symm.trans hli')
        rcases h with h | ⟨leaf, tbs, h1, h2⟩
        · exact .inl h
        · exact .inr ⟨some leaf, by rw [getLeaf_ok_some_iff, nodeOfLeaf_mod31]; exact h1, leaf, tbs, rfl, h2⟩
  · next hne =>
    refine Res.fine_err.panicIff ?_
    rintro ⟨li, h, _⟩
    exact hne li h

theorem decryptContent_fine (hc : pr.Correct) {cs : UInt16} {sd : SuiteDesc} (hsd : suite cs = .ok sd) (m : PrivateMessage)
    (s : RatchetSecret) (g : Bytes4) : (m.decryptContent pr cs s g).Fine :=
  (keyAndNonce_fine hsd hc _ _).bind fun _ _ => Res.Fine.bind (privateContentAAD_fine _ _ _ _) fun _ _ =>
    (aeadOpen_fine hsd _ _ _ _).bind fun _ _ => decodePadded_fine _ _

theorem decryptContent_known {cs : UInt16} {m : PrivateMessage}
    {s : RatchetSecret} {g : Bytes4} {c : PrivateMessageContent} (h : m.decryptContent pr cs s g = .ok c) : c.content.Known := by
  unfold PrivateMessage.decryptContent at h
  simp only [Res.bind_ok_iff] at h
  obtain ⟨_, _, _, _, _, _, h⟩ := h
  exact (decodePadded_read h).known

theorem decryptPrivateMessage_panic (hc : pr.Correct) {st : GroupState} (hi : GroupInv pr st) (hf : FineInv st) {sd : SuiteDesc}
    (hsd : suite st.group.groupContext.cipherSuite = .ok sd) {depth : Nat} (hdep : depth ≤ 31)
    (hlen : st.group.tree.length = 2 ^ (depth + 1) - 1) (m : PrivateMessage) :
    (decryptPrivateMessage pr st m).PanicIff (Spec.PrivateCrash pr sd st depth m) := by
  have hn := numLeaves_pow hdep hlen
  unfold Spec.PrivateCrash decryptPrivateMessage
  simp only [hn, deriveSecret_eq hsd _ lblSenderData_name (by decide),
    deriveSecret_eq hsd _ lblEncryption_name (by decide), Res.ok_bind]
  refine (guard_panic fun hg => guard_panic fun he => (decryptSenderData_fine hsd _ _).bindPanic (Q := fun x =>
    2 ^ depth ≤ x.leafIndex.toNat % 2 ^ 31 ∨
      m.authenticatedData.length < 2 ^ 30 ∧ ∃ (pt : Bytes) (c : PrivateMessageContent) (k : Nat) (leaf : LeafNode) (tbs : Bytes),
        Spec.Opens pr sd st.group.groupContext st.group.epochSecret depth m x.leafIndex.toNat x.generation.toNat x.reuseGuard.toBytes pt ∧
        (PrivateMessageContent.dec m.contentType).run pt = (.ok c, List.replicate k 0) ∧
        st.vtree[2 * (x.leafIndex.toNat % 2 ^ 31)]? = some (some (.leaf leaf)) ∧
        (Spec.Rfc.framedContentTBS .privateMessage
          { groupID := m.groupID, epoch := m.epoch, sender := .member x.leafIndex, authenticatedData := m.authenticatedData, content := c.content }
          st.group.groupContext).bytes = some tbs ∧
        Spec.BadPoint pr st.group.groupContext.cipherSuite leaf.signatureKey "FramedContentTBS" tbs c.auth.signature) fun x hx => ?_).congr ?_
  · rw [beq_iff_eq] at hg he
    rw [decryptSenderData_iff hsd] at hx
    obtain ⟨hgl, hx⟩ := hx
    by_cases hin : x.leafIndex.toNat % 2 ^ 31 < 2 ^ depth
    · obtain ⟨tree, ht, hr⟩ := ratchetRoot_eq (pr := pr) hsd hdep hin st.group.epochSecret m.contentType
      have hff := fastForward_eq (pr := pr) hsd (Spec.messageSecret pr sd st.group.epochSecret depth
        (x.leafIndex.toNat % 2 ^ 31) m.contentType 0) x.generation x.generation.toNat 0 (2 ^ 32) (by omega)
        (by have := x.generation.toNat_lt; omega)
      refine ok_panic ht (ok_panic hr (ok_panic hff ?_))
      refine ((decryptContent_fine hc hsd _ _ _).bindPanic fun c hcon => (getLeaf_panicIff ((Shaped.of hi.tree hf.leaves).isTree st.heap)
        x.leafIndex.toNat).bind fun o ho => (fine_orErr o).bindPanic fun leaf hl =>
        (contentSignature_panic hsd (a := m.authenticatedContent x c) (decryptContent_known hcon) leaf.signatureKey).tail
          fun _ _ => (Res.fine_guardErr _).bind fun _ _ => Res.fine_ok _).congr ?_
      have hin' : ¬ (derefTree st.heap st.group.tree).length ≤ 2 * (x.leafIndex.toNat % 2 ^ 31) := by
        rw [derefTree_length, hlen, Nat.pow_succ]; omega
      simp only [orErr_ok_iff, decryptContent_iff hc hsd, Nat.not_le.2 hin, false_or, hin']
      constructor
      · rintro ⟨c, ⟨_, hal, pt, k, hpt, hdec⟩, o, ho, leaf, rfl, tbs, h1, h2⟩
        rw [getLeaf_ok_some_iff, nodeOfLeaf_mod31] at ho
        exact ⟨hal, pt, c, k, leaf, tbs, ⟨hg, he, hx, hin, hpt⟩, hdec, ho, h1, h2⟩
      · rintro ⟨hal, pt, c, k, leaf, tbs, ho, hdec, h1, h2, h3⟩
        refine ⟨c, ⟨hgl, hal, pt, k, ho.content, hdec⟩, some leaf, ?_, leaf, rfl, tbs, h2, h3⟩
        rw [getLeaf_ok_some_iff, nodeOfLeaf_mod31]
        exact h1
    · obtain ⟨tree, ht, hr⟩ := ratchetRoot_outside (pr := pr) hsd hdep (Nat.le_of_not_lt hin)
        (Spec.deriveSecret pr sd st.group.epochSecret "encryption") m.contentType
      refine ok_panic ht ?_
      rw [hr]
      exact ⟨⟨fun _ => .inl (Nat.le_of_not_lt hin), fun _ => rfl⟩, fun h => (by cases h)⟩
  · simp only [decryptSenderData_iff hsd, beq_iff_eq]
    constructor
    · rintro ⟨h1, h2, ⟨li, gen, guard⟩, ⟨h3, h4⟩, h5⟩
      exact ⟨h1, h2, h3, li, gen, guard, h4, h5⟩
    · rintro ⟨h1, h2, h3, li, gen, guard, h4, h5⟩
      exact ⟨h1, h2, ⟨li, gen, guard⟩, ⟨h3, h4⟩, h5⟩

/-! ### Proposals -/

theorem verifyAdds_panic {ctx : GroupContext} {sd : SuiteDesc} (hd : suite ctx.cipherSuite = .ok sd) : ∀ (l : List (Proposal × UInt32)),
    (∀ p ∈ l, p.1.Known) → (verifyAdds pr ctx (l.map (·.1))).PanicIff
      (∃ l1 k s l2, l = l1 ++ (.add k, s) :: l2 ∧ (∀ k' s', (.add k', s') ∈ l1 → Spec.PackageValid pr ctx k') ∧ Spec.PackageCrash pr ctx k) := by
  intro l
  induction l with
  | nil => intro _; exact (Res.fine_ok _).panicIff (by simp)
  | cons p l ih =>
    intro hk
    have ih := ih fun q hq => hk q (List.mem_cons_of_mem _ hq)
    obtain ⟨p, s⟩ := p
    have skip : ∀ {q : Proposal}, (∀ k, q ≠ .add k) →
        ((∃ l1 k s' l2, l = l1 ++ (.add k, s') :: l2 ∧ (∀ k' s', (.add k', s') ∈ l1 → Spec.PackageValid pr ctx k') ∧ Spec.PackageCrash pr ctx k) ↔
          ∃ l1 k s' l2, (q, s) :: l = l1 ++ (.add k, s') :: l2 ∧ (∀ k' s', (.add k', s') ∈ l1 → Spec.PackageValid pr ctx k') ∧
            Spec.PackageCrash pr ctx k) := by
      intro q hq
      constructor
      · rintro ⟨l1, k, s', l2, rfl, h1, h2⟩
        refine ⟨(q, s) :: l1, k, s', l2, rfl, fun k' s'' hm => ?_, h2⟩
        rcases List.mem_cons.1 hm with he | hm
        · exact absurd (Prod.mk.inj he).1.symm (hq k')
        · exact h1 k' s'' hm
      · rintro ⟨l1, k, s', l2, he, h1, h2⟩
        cases l1 with
        | nil => exact absurd (Prod.mk.inj (List.cons.inj he).1).1 (hq k)
        | cons x l1 =>
          obtain ⟨rfl, rfl⟩ := List.cons.inj he
          exact ⟨l1, k, s', l2, rfl, fun k' s'' hm => h1 k' s'' (List.mem_cons_of_mem _ hm), h2⟩
    cases p with
    | add k =>
      have h1 := keyPackage_panic (pr := pr) (k := k) hd (hk (.add k, s) List.mem_cons_self)
      refine (h1.bind (Q := fun _ => _) fun _ _ => ih).congr ?_
      constructor
      · rintro (h | ⟨⟨⟩, hv, l1, k', s', l2, rfl, g1, g2⟩)
        · exact ⟨[], k, s, l, rfl, by simp, h⟩
        · refine ⟨(.add k, s) :: l1, k', s', l2, rfl, fun k2 s2 hm => ?_, g2⟩
          rcases List.mem_cons.1 hm with he | hm
          · obtain ⟨he, rfl⟩ := Prod.mk.inj he
            cases he
            exact packageValid_iff.2 hv
          · exact g1 k2 s2 hm
      · rintro ⟨l1, k', s', l2, he, g1, g2⟩
        cases l1 with
        | nil =>
          obtain ⟨he, _⟩ := List.cons.inj he
          obtain ⟨he, rfl⟩ := Prod.mk.inj he
          cases he
          exact .inl g2
        | cons x l1 =>
          obtain ⟨rfl, rfl⟩ := List.cons.inj he
          exact .inr ⟨(), packageValid_iff.1 (g1 k s List.mem_cons_self), l1, k', s', l2, rfl,
            fun k2 s2 hm => g1 k2 s2 (List.mem_cons_of_mem _ hm), g2⟩
    | update | remove | psk | reInit | externalInit | groupContextExtensions => exact ih.congr (skip (by simp))

theorem resolved_known {st : GroupState} (hf : FineInv st) {s : UInt32} {c : Commit} (hk : c.Known) {l : List (Proposal × UInt32)}
    (h : Spec.resolve s st.group.pendingProposals c.proposals = some l) : ∀ p ∈ l, p.1.Known := by
  have hx : resolveProposals s st.group.pendingProposals c.proposals = .ok (l.map (·.1), l.map (·.2)) := by
    rw [resolveProposals_eq, h]
    rfl
  obtain ⟨h1, h2, h3⟩ := resolveProposals_spec _ _ _ hx
  intro p hp
  obtain ⟨i, hi, rfl⟩ := List.mem_iff_getElem.1 hp
  rcases h3 i l[i].1 l[i].2 (by simp [hi]) (by simp [hi]) with ⟨h, _⟩ | ⟨pp, h, _, h', _⟩
  · exact hk.proposals _ h
  · rw [h']; exact (hf.pending pp h).1

theorem checkProposals_panic {st : GroupState} {sd : SuiteDesc} (hsd : suite st.group.groupContext.cipherSuite = .ok sd)
    (hf : FineInv st) (s : UInt32) {c : Commit} (hk : c.Known) :
    (checkProposals pr st.group s c).PanicIff (∃ l1 k s' l2, Spec.Listed st.group.pendingProposals s c (l1 ++ (.add k, s') :: l2) ∧
      (∀ k' s', (.add k', s') ∈ l1 → Spec.PackageValid pr st.group.groupContext k') ∧ Spec.PackageCrash pr st.group.groupContext k) := by
  unfold checkProposals
  rw [resolveProposals_eq]
  cases hl : Spec.resolve s st.group.pendingProposals c.proposals with
  | none =>
    refine Res.fine_err.panicIff ?_
    rintro ⟨l1, k, s', l2, h, _⟩
    have := h.resolved
    rw [hl] at this
    cases this
  | some l =>
    have hkn := resolved_known hf hk hl
    simp only [Option.map_some, orErr, Res.ok_bind]
    have hfine : (verifyProposalList (l.map (·.1)) (l.map (·.2)) s).Fine := by
      rcases C32_total (l.map (·.1)) (l.map (·.2)) s (by simp) with h | h <;> rw [h]
      · exact Res.fine_ok _
      · exact Res.fine_err
    refine (hfine.bindPanic (Q := fun _ => _) fun _ _ => (verifyAdds_panic hsd l hkn).tail fun _ _ =>
      (Res.fine_guardErr _).bind fun _ _ => Res.fine_ok _).congr ?_
    constructor
    · rintro ⟨⟨⟩, hv, l1, k, s', l2, rfl, h1, h2⟩
      obtain ⟨g1, g2⟩ := (verifyProposalList_all _ s).1 hv
      exact ⟨l1, k, s', l2, ⟨hl, pskIDs_iff.1 g1, g2⟩, h1, h2⟩
    · rintro ⟨l1, k, s', l2, h, h1, h2⟩
      have := h.resolved
      rw [hl, Option.some.injEq] at this
      subst this
      exact ⟨(), (verifyProposalList_all _ s).2 ⟨pskIDs_iff.2 h.pskIDs, h.rules⟩, l1, k, s', l2, rfl, h1, h2⟩

theorem checked_iff {g : Group} {s : UInt32} {c : Commit} {ps : List Proposal} {ss : List UInt32} :
    checkProposals pr g s c = .ok (ps, ss) ↔
      ∃ l, Spec.Checked pr g.groupContext g.pendingProposals s c l ∧ ps = l.map (·.1) ∧ ss = l.map (·.2) := by
  rw [checkProposals_iff]
  exact ⟨fun ⟨l, h1, h2, h3, h4, h5, h6, h7⟩ => ⟨l, ⟨⟨h1, h4, h5⟩, h6, h7⟩, h2, h3⟩,
    fun ⟨l, h, h2, h3⟩ => ⟨l, h.resolved, h2, h3, h.pskIDs, h.rules, h.packages, h.pathNeeded⟩⟩

/-! ### The path -/

theorem deref_panic {α : Type} (o : Option α) : (Res.deref o).PanicIff (o = none) := by
  cases o with
  | none => exact ⟨⟨fun _ => rfl, fun _ => rfl⟩, fun h => (by cases h)⟩
  | some a => exact (Res.fine_ok _).panicIff (by simp)

theorem leafNode_panic {n : LeafNode} (h : n.credential.Known) {o : VerifyOptions} {sd : SuiteDesc} (hd : suite o.cipherSuite = .ok sd) :
    (n.verify pr o).PanicIff (∃ tbs, (Spec.Rfc.leafNodeTBS n o.groupID o.leafIndex.toNat).bytes = some tbs ∧
      Spec.BadPoint pr o.cipherSuite n.signatureKey "LeafNodeTBS" tbs n.signature) := by
  simp only [leafTBS_some]
  unfold LeafNode.verify
  refine Res.PanicIff.tail (orFalse_panic (leafNode_encTBS_fine h _ _) fun _ _ =>
    verifyWithLabel_panic hd lblLeafNodeTBS_name (by decide) _ _ _) fun _ _ => ?_
  exact (Res.fine_guardErr _).bind fun _ _ => (Res.fine_guardErr _).bind fun _ _ => (Res.fine_guardErr _).bind fun _ _ =>
    (Res.fine_guardErr _).bind fun _ _ => (Res.fine_guardErr _).bind fun _ _ => Res.fine_guardErr _

/-- What follows the check of the new leaf does not panic. -/
theorem pathRest_fine (hc : pr.Correct) {st : GroupState} (hi : GroupInv pr st) (hsup : supported st.group.groupContext.cipherSuite = .ok true)
    {ps : List Proposal} {ss : List UInt32} {h : Heap} {t : RTree} (ht : treeApply st.heap st.group.tree ps ss = .ok (h, t))
    (hv : ValidTree h t) (hkn : KnownLeaves t) {newCtx : GroupContext} {c : Nat} (hlt : 2 * (c % 2 ^ 31) < t.length) {pt : List (Option Bytes)}
    (hpt : pt.length = t.length) {path : UpdatePath} (hp : path.leafNode.credential.Known) :
    (do
      let (h, t) ← mergeUpdatePath pr st.group.groupContext.cipherSuite h t c path
      let treeHash ← computeRootTreeHash pr st.group.groupContext.cipherSuite (derefTree h t)
      let newCtx := { newCtx with treeHash := treeHash }
      let (commitSecret, privTree) ←
        decryptPathSecrets pr st.group.groupContext.cipherSuite (derefTree h t) newCtx c st.group.myLeafIndex.toNat path pt
      return (h, t, newCtx, privTree, commitSecret) : Res (Heap × RTree × GroupContext × List (Option Bytes) × Bytes)).Fine := by
  obtain ⟨sd, hsd⟩ := hi.suite
  have hsh := Shaped.of hv hkn
  simp only [mergeUpdatePath_mod (i := c), decryptPathSecrets_mod (i := c)]
  generalize hci : c % 2 ^ 31 = i at hlt
  have hi31 : i < 2 ^ 31 := hci ▸ Nat.mod_lt _ (by decide)
  have hnl : nodeOfLeaf i < t.length := by rw [nodeOfLeaf_idx hi31, idx_zero]; exact hlt
  refine (mergeUpdatePath_fine hsd hsh h hnl path).bind fun x hx => ?_
  obtain ⟨h', t'⟩ := x
  have hkn' : KnownLeaves t' := hkn.merge hc ⟨sd, hsd⟩ hv hlt hp hx
  obtain ⟨d, s, s', hpm⟩ := path_merged hc ⟨sd, hsd⟩ hv hlt hx
  have hv' := hpm.after.valid hpm.depth
  dsimp only
  refine (computeRootTreeHash_fine hsd ((Shaped.of hv' hkn').isTree h') (hkn'.deref h')).bind fun th _ => ?_
  refine Res.Fine.bind ?_ fun _ _ => Res.fine_ok _
  have hlen := hpm.before.length
  have hlen' := hpm.after.length
  refine decryptPathSecrets_fine hc hsd hsup hpm.depth hpm.sender hi.own_lt hpm.after.flat (merged_unmerged hc hi ht hv ⟨sd, hsd⟩ hlt hx)
    (fun x hx => ?_) _ path (by rw [derefTree_length]; omega)
  obtain ⟨e, he, hxe⟩ := List.mem_iff_getElem.1 hx
  obtain ⟨ph, hnode⟩ := hpm.onPath e x (path.nodes[e]'(by rw [← hpm.length]; exact he))
    (by rw [List.getElem?_eq_getElem he, hxe]) (List.getElem?_eq_getElem _)
  exact ⟨_, hnode⟩

theorem commitPath_panic (hc : pr.Correct) {st : GroupState} (hi : GroupInv pr st) (hsup : supported st.group.groupContext.cipherSuite = .ok true)
    {ps : List Proposal} {ss : List UInt32} {h : Heap} {t : RTree} (ht : treeApply st.heap st.group.tree ps ss = .ok (h, t))
    {r : Option (Ratchet.Any ParentNode)} (hr : Small r) (hh : HoldsOpt h t r) (hkn : KnownLeaves t) {newCtx : GroupContext} (c : UInt32)
    {pt : List (Option Bytes)} (hpt : pt.length = t.length) {path : UpdatePath} (hp : path.leafNode.credential.Known) (now : GoTime) :
    (commitPath pr st.group.groupContext newCtx h t c st.group.myLeafIndex pt path now).PanicIff
      (Spec.PathCrash pr st.group.groupContext c r path) := by
  obtain ⟨sd, hsd⟩ := hi.suite
  have hsrc : path.leafNode.isCommit = true ↔ ∃ ph, path.leafNode.source = .commit ph := by
    unfold LeafNode.isCommit
    cases path.leafNode.source <;> simp
  unfold Spec.PathCrash commitPath
  simp only [← hsrc]
  refine guard_panic fun _ => ?_
  match r, hr, hh with
  | none, _, hh =>
    replace hh : t = [] := hh
    subst hh
    have : getLeaf (derefTree h []) c.toNat = .panic := by unfold getLeaf derefTree Res.idx; simp
    rw [this]
    exact ⟨⟨fun _ => .inl (by rintro ⟨_, _, _, h, _⟩; cases h), fun _ => rfl⟩, fun h => (by cases h)⟩
  | some ⟨d, s⟩, hd, hh =>
    replace hh : Holds h t s := hh
    replace hd : d ≤ 31 := hd
    have hv := hh.valid hd
    have hlen := hh.length
    have htree := (Shaped.of hv hkn).isTree h
    have hnone : (¬ ∃ (d' : Nat) (s' : Ratchet ParentNode d') (leaf : LeafNode), (some ⟨d, s⟩ : Option (Ratchet.Any ParentNode)) = some ⟨d', s'⟩ ∧
        s'.leaves[c.toNat % 2 ^ 31]? = some (some leaf)) ↔ ∀ leaf, s.leaves[c.toNat % 2 ^ 31]? ≠ some (some leaf) := by
      constructor
      · intro hn leaf hl
        exact hn ⟨d, s, leaf, rfl, hl⟩
      · rintro hn ⟨d', s', leaf, he, hl⟩
        cases he
        exact hn leaf hl
    rw [hnone]
    by_cases hin : c.toNat % 2 ^ 31 < 2 ^ d
    · obtain ⟨o, g1, _, g2⟩ := getLeaf_at hd hh.flat hin
      rw [← getLeaf_mod] at g1
      refine ok_panic g1 ?_
      have hpow : 2 ^ (d + 1) = 2 * 2 ^ d := by rw [Nat.pow_succ]; omega
      refine ((treeKeys_fine htree).bindPanic fun x hx => (deref_panic o).bind fun leaf _ => (supportedCreds_fine htree).bindPanic fun _ _ =>
        (leafNode_panic hp hsd).tail fun _ _ => (Res.fine_guardErr _).bind fun _ _ =>
          pathRest_fine hc hi hsup ht hv hkn (by omega) hpt hp).congr ?_
      obtain ⟨x, hx⟩ : ∃ x, treeKeys (derefTree h t) = .ok x := by
        unfold treeKeys
        rw [members_eq hd hh.flat]
        exact ⟨_, rfl⟩
      obtain ⟨y, hy⟩ : ∃ y, supportedCreds (derefTree h t) = .ok y := by
        unfold supportedCreds
        rw [members_eq hd hh.flat]
        exact ⟨_, rfl⟩
      rw [g2]
      cases o with
      | none => exact ⟨fun _ => .inl (by simp), fun _ => ⟨x, hx, .inl rfl⟩⟩
      | some leaf =>
        constructor
        · rintro ⟨_, _, hn | ⟨_, _, _, _, hb⟩⟩
          · cases hn
          · exact .inr hb
        · rintro (hn | hb)
          · exact absurd rfl (hn leaf)
          · exact ⟨x, hx, .inr ⟨leaf, rfl, y, hy, hb⟩⟩
    · have hout : getLeaf (derefTree h t) c.toNat = .panic := by
        rw [(getLeaf_panicIff htree c.toNat).1, derefTree_length, hlen, Nat.pow_succ]
        omega
      rw [hout]
      refine ⟨⟨fun _ => .inl fun leaf hl => ?_, fun _ => rfl⟩, fun h => (by cases h)⟩
      have := (List.getElem?_eq_some_iff.1 hl).1
      rw [leaves_length] at this
      exact hin this

/-! ### The commit -/

theorem pathless_nonempty {a : Ratchet.Any ParentNode} {l : List (Proposal × UInt32)} (hp : ∀ p ∈ l, Spec.pathless p.1)
    {r : Option (Ratchet.Any ParentNode)} (h : Spec.applyProposals (some a) l = some r) : r ≠ none := by
  have hu : updatesOf (l.map fun p => (p.1.low, lowIndex p.2)) = [] := by
    unfold updatesOf
    rw [List.filterMap_eq_nil_iff]
    rintro ⟨p, s⟩ hm
    obtain ⟨⟨q, s'⟩, hm, he⟩ := List.mem_map.1 hm
    have := hp _ hm
    cases q <;> first | exact this.elim | (cases he; rfl)
  have hrm : removesOf (l.map fun p => p.1.low) = [] := by
    unfold removesOf
    rw [List.filterMap_eq_nil_iff]
    rintro p hm
    obtain ⟨⟨q, s'⟩, hm, he⟩ := List.mem_map.1 hm
    have := hp _ hm
    cases q <;> first | exact this.elim | (cases he; rfl)
  unfold Spec.applyProposals at h
  rw [hu, hrm] at h
  unfold Spec.Ratchet.applyAll at h
  have key : ∀ (ns : List LeafNode) (a : Ratchet.Any ParentNode), ns.foldl (fun t n => some (addOpt t n)) (some a) ≠ none := by
    intro ns
    induction ns with
    | nil => intro a; simp
    | cons n ns ih => intro a; exact ih _
  have h : some (List.foldl (fun t n => some (addOpt t n)) (some a) (addsOf (l.map fun p => p.1.low))) = some r := h
  rw [← Option.some.inj h]
  exact key _ _

theorem finishCommit_panic (hc : pr.Correct) {st : GroupState} (hi : GroupInv pr st) (hf : FineInv st)
    (hsup : supported st.group.groupContext.cipherSuite = .ok true) {a : AuthenticatedContent} {k : Commit} (hak : a.content.content = .commit k)
    (hk : k.Known) {ps : List Proposal} {ss : List UInt32} (hps : ∀ p ∈ ps, p.Known) {h : Heap} {t : RTree}
    (ht : treeApply st.heap st.group.tree ps ss = .ok (h, t)) {r : Option (Ratchet.Any ParentNode)} (hr : Small r) (hh : HoldsOpt h t r)
    (hne : k.path = none → r ≠ none) (now : GoTime) :
    (finishCommit pr st.group h t a k [] [] now).PanicIff
      (∃ path, k.path = some path ∧ Spec.PathCrash pr st.group.groupContext a.content.sender.leafIndex r path) := by
  obtain ⟨sd, hsd⟩ := hi.suite
  have hkn := hf.leaves.apply hps ht
  obtain ⟨pt, hpt⟩ := copyPrivTree_total (b := t.length) hi.length
  have hptl := (copyPrivTree_ok hpt).1
  unfold finishCommit
  refine ok_panic hpt (ok_panic hsd ?_)
  cases hpath : k.path with
  | none =>
    refine Res.Fine.panicIff ?_ (by simp)
    obtain ⟨⟨d, s⟩, rfl⟩ := Option.ne_none_iff_exists'.1 (hne hpath)
    have hv : ValidTree h t := Holds.valid hr hh
    dsimp only
    refine (Res.Fine.bind (computeRootTreeHash_fine hsd ((Shaped.of hv hkn).isTree h) (hkn.deref h)) fun _ _ => Res.fine_ok _).bind
      fun x hx => ?_
    simp only [Res.bind_ok_iff] at hx
    obtain ⟨th, _, hx⟩ := hx
    cases hx
    dsimp only
    refine (confirmedTranscriptHash_fine hsd (by rw [hak]; exact hk) _ _ _).bind fun _ _ => (nextInterim_fine hsd _ _).bind fun _ _ => ?_
    refine (extractJoinerSecret_fine (d := sd) (by dsimp only; exact hsd) _ _).bind fun _ _ => (extractPSKSecret_nil_fine hsd).bind fun _ _ => ?_
    exact (extractEpochSecret_fine (d := sd) (by dsimp only; exact hsd) _ _).bind fun _ _ => (deriveSecret_fine hsd _ _).bind fun _ _ =>
      Res.fine_ok _
  | some path =>
    refine ((commitPath_panic hc hi hsup ht hr hh hkn a.content.sender.leafIndex hptl (hk.path path hpath) now).tail fun x hx => ?_).congr
      (by simp)
    obtain ⟨h', t', ctx', pt', sec⟩ := x
    obtain ⟨_, th, _, _, _, hctx, _⟩ := commitPath_ok hx
    subst hctx
    dsimp only
    refine (confirmedTranscriptHash_fine hsd (by rw [hak]; exact hk) _ _ _).bind fun _ _ => (nextInterim_fine hsd _ _).bind fun _ _ => ?_
    refine (extractJoinerSecret_fine (d := sd) (by dsimp only; exact hsd) _ _).bind fun _ _ => (extractPSKSecret_nil_fine hsd).bind fun _ _ => ?_
    exact (extractEpochSecret_fine (d := sd) (by dsimp only; exact hsd) _ _).bind fun _ _ => (deriveSecret_fine hsd _ _).bind fun _ _ =>
      Res.fine_ok _

/-- The commit of an authentic message. -/
theorem processCommit_outcome (hc : pr.Correct) {st : GroupState} (hi : GroupInv pr st) (hf : FineInv st)
    (hsup : supported st.group.groupContext.cipherSuite = .ok true) {d0 : Nat} (hd0 : d0 ≤ 31) {s0 : Ratchet ParentNode d0}
    (hs0 : Holds st.heap st.group.tree s0) {a : AuthenticatedContent} {k : Commit} (hak : a.content.content = .commit k)
    (hk : k.Known) (now : GoTime) :
    ((processCommit pr st a [] [] now).1 = .panic ↔
      Spec.CommitCrash pr st.group.groupContext st.group.pendingProposals s0 a.content.sender.leafIndex k) ∧
    ((processCommit pr st a [] [] now).1 = .hang ↔
      Spec.CommitEndless pr st.group.groupContext st.group.pendingProposals s0 a.content.sender.leafIndex k) := by
  obtain ⟨sd, hsd⟩ := hi.suite
  have hchk := checkProposals_panic (pr := pr) hsd hf a.content.sender.leafIndex hk
  -- a list that passes the checks is the only one
  have uniq : ∀ {l l'}, Spec.Listed st.group.pendingProposals a.content.sender.leafIndex k l →
      Spec.Listed st.group.pendingProposals a.content.sender.leafIndex k l' → l = l' := by
    intro l l' h h'
    exact Option.some.inj (h.resolved.symm.trans h'.resolved)
  unfold processCommit
  rw [hak]
  dsimp only
  unfold Spec.CommitCrash Spec.CommitEndless
  have hno : ∀ l, Spec.Checked pr st.group.groupContext st.group.pendingProposals a.content.sender.leafIndex k l →
      checkProposals pr st.group a.content.sender.leafIndex k = .ok (l.map (·.1), l.map (·.2)) :=
    fun l h => checked_iff.2 ⟨l, h, rfl, rfl⟩
  rcases hcp : checkProposals pr st.group a.content.sender.leafIndex k with ⟨ps, ss⟩ | _ | _ | _
  · dsimp only
    obtain ⟨l, hl, e1, e2⟩ := checked_iff.1 hcp
    have huniq : ∀ l', Spec.Checked pr st.group.groupContext st.group.pendingProposals a.content.sender.leafIndex k l' → l' = l :=
      fun l' h' => uniq h'.toListed hl.toListed
    have hnp : ¬ ∃ l1 k' s' l2, Spec.Listed st.group.pendingProposals a.content.sender.leafIndex k (l1 ++ (.add k', s') :: l2) ∧
        (∀ k' s', (.add k', s') ∈ l1 → Spec.PackageValid pr st.group.groupContext k') ∧ Spec.PackageCrash pr st.group.groupContext k' := by
      intro h
      have := hchk.1.2 h
      rw [hcp] at this
      cases this
    have hps : ∀ p ∈ ps, p.Known := checkProposals_known hf hk hcp
    subst e1 e2
    have hout := treeApply_outcome (s := some ⟨d0, s0⟩) hd0 hs0 l
    cases hap : Spec.applyProposals (some ⟨d0, s0⟩) l with
    | none =>
      rw [hap] at hout
      rw [hout]
      refine ⟨⟨fun _ => .inr ⟨l, hl, .inl hap⟩, fun _ => rfl⟩, ⟨fun h => (by cases h), ?_⟩⟩
      rintro ⟨l', x, h1, h2, _⟩
      rw [huniq l' h1, hap] at h2
      cases h2
    | some r =>
      rw [hap] at hout
      rcases hout with ⟨hsm, h', t', hta, hh⟩ | ⟨hsm, hta⟩
      · rw [hta]
        dsimp only
        have hfin := finishCommit_panic (pr := pr) hc hi hf hsup hak hk hps hta hsm hh
          (fun hp => pathless_nonempty (hl.pathNeeded hp).2 hap) now
        have hsm' : ∀ x, r = some x → x.1 ≤ 31 := by
          rintro x rfl
          exact hsm
        have hiff : (∃ path, k.path = some path ∧ Spec.PathCrash pr st.group.groupContext a.content.sender.leafIndex r path) ↔
            ((∃ l1 k' s' l2, Spec.Listed st.group.pendingProposals a.content.sender.leafIndex k (l1 ++ (.add k', s') :: l2) ∧
              (∀ k' s', (.add k', s') ∈ l1 → Spec.PackageValid pr st.group.groupContext k') ∧ Spec.PackageCrash pr st.group.groupContext k') ∨
            ∃ l, Spec.Checked pr st.group.groupContext st.group.pendingProposals a.content.sender.leafIndex k l ∧
              (Spec.applyProposals (some ⟨d0, s0⟩) l = none ∨
                ∃ r path, Spec.applyProposals (some ⟨d0, s0⟩) l = some r ∧ (∀ x, r = some x → x.1 ≤ 31) ∧ k.path = some path ∧
                  Spec.PathCrash pr st.group.groupContext a.content.sender.leafIndex r path)) := by
          constructor
          · rintro ⟨path, h1, h2⟩
            exact .inr ⟨l, hl, .inr ⟨r, path, hap, hsm', h1, h2⟩⟩
          · rintro (h | ⟨l', h1, h2⟩)
            · exact absurd h hnp
            · rw [huniq l' h1, hap] at h2
              rcases h2 with h2 | ⟨r', path, h2, _, h3, h4⟩
              · cases h2
              · cases h2
                exact ⟨path, h3, h4⟩
        have hend : ¬ ∃ l x, Spec.Checked pr st.group.groupContext st.group.pendingProposals a.content.sender.leafIndex k l ∧
            Spec.applyProposals (some ⟨d0, s0⟩) l = some (some x) ∧ 31 < x.1 := by
          rintro ⟨l', x, h1, h2, h3⟩
          rw [huniq l' h1, hap, Option.some.injEq] at h2
          have := hsm' x h2
          omega
        have hfp := hfin.1.trans hiff
        have hfh := hfin.2
        rcases hfc : finishCommit pr st.group h' t' a k [] [] now with st' | _ | _ | _
        · rw [hfc] at hfp
          exact ⟨⟨fun h => (by cases h), fun h => nomatch hfp.2 h⟩, ⟨fun h => (by cases h), fun h => absurd h hend⟩⟩
        · rw [hfc] at hfp
          exact ⟨⟨fun h => (by cases h), fun h => nomatch hfp.2 h⟩, ⟨fun h => (by cases h), fun h => absurd h hend⟩⟩
        · rw [hfc] at hfp
          exact ⟨⟨fun _ => hfp.1 rfl, fun _ => rfl⟩, ⟨fun h => (by cases h), fun h => absurd h hend⟩⟩
        · exact absurd hfc hfh
      · rw [hta]
        dsimp only
        refine ⟨⟨fun h => (by cases h), ?_⟩, ⟨fun _ => ?_, fun _ => rfl⟩⟩
        · rintro (h | ⟨l', h1, h2⟩)
          · exact absurd h hnp
          · rw [huniq l' h1, hap] at h2
            rcases h2 with h2 | ⟨r', path, h2, h3, _⟩
            · cases h2
            · cases h2
              refine absurd ?_ hsm
              cases r with
              | none => trivial
              | some x => exact h3 x rfl
        · cases r with
          | none => exact absurd trivial hsm
          | some x => exact ⟨l, x, hl, hap, Nat.lt_of_not_le hsm⟩
  · dsimp only
    refine ⟨⟨fun h => (by cases h), ?_⟩, ⟨fun h => (by cases h), ?_⟩⟩
    · rintro (h | ⟨l', h1, _⟩)
      · have := hchk.1.2 h
        rw [hcp] at this
        cases this
      · have := hno l' h1
        rw [hcp] at this
        cases this
    · rintro ⟨l', x, h1, _⟩
      have := hno l' h1
      rw [hcp] at this
      cases this
  · dsimp only
    refine ⟨⟨fun _ => .inl (hchk.1.1 hcp), fun _ => rfl⟩, ⟨fun h => (by cases h), ?_⟩⟩
    rintro ⟨l', x, h1, _⟩
    have := hno l' h1
    rw [hcp] at this
    cases this
  · exact absurd hcp hchk.2

/-! ### C108 -/

theorem dispatch_outcome (hc : pr.Correct) {st : GroupState} (hi : GroupInv pr st) (hf : FineInv st)
    (hsup : supported st.group.groupContext.cipherSuite = .ok true) {d0 : Nat} (hd0 : d0 ≤ 31) {s0 : Ratchet ParentNode d0}
    (hs0 : Holds st.heap st.group.tree s0) {a : AuthenticatedContent} (hr : a.content.content.Read) (now : GoTime) (e : Bool) :
    ((dispatch pr st a now e).1 = .panic ↔ ∃ c, a.content.content = .commit c ∧
      Spec.CommitCrash pr st.group.groupContext st.group.pendingProposals s0 a.content.sender.leafIndex c) ∧
    ((dispatch pr st a now e).1 = .hang ↔ ∃ c, a.content.content = .commit c ∧
      Spec.CommitEndless pr st.group.groupContext st.group.pendingProposals s0 a.content.sender.leafIndex c) := by
  obtain ⟨sd, hsd⟩ := hi.suite
  have fine : ∀ {x : Res (Option Bytes)} {k : Content}, x.Fine → (∀ c, k ≠ .commit c) →
      (x = .panic ↔ ∃ c, k = .commit c ∧
        Spec.CommitCrash pr st.group.groupContext st.group.pendingProposals s0 a.content.sender.leafIndex c) ∧
      (x = .hang ↔ ∃ c, k = .commit c ∧
        Spec.CommitEndless pr st.group.groupContext st.group.pendingProposals s0 a.content.sender.leafIndex c) :=
    fun hx hne => ⟨⟨fun h => absurd h hx.1, fun ⟨c, h, _⟩ => absurd h (hne c)⟩, ⟨fun h => absurd h hx.2, fun ⟨c, h, _⟩ => absurd h (hne c)⟩⟩
  unfold dispatch
  cases hk : a.content.content with
  | application data =>
    refine fine ?_ (fun _ h => by cases h)
    dsimp only
    split
    · exact Res.fine_ok _
    · exact Res.fine_err
  | proposal p =>
    refine fine ?_ (fun _ h => by cases h)
    have h1 := generateProposalRef_fine (pr := pr) hsd hk hr.known
    refine Res.Fine.bind ?_ fun _ _ => Res.fine_ok _
    unfold processProposal
    rw [hk]
    dsimp only
    rcases hg : a.generateProposalRef pr st.group.groupContext.cipherSuite with ref | _ | _ | _
    · exact Res.fine_ok _
    · exact Res.fine_err
    · rw [hg] at h1; exact absurd rfl h1.1
    · rw [hg] at h1; exact absurd rfl h1.2
  | commit k =>
    have hkn : k.Known := by have := hr.known; rw [hk] at this; exact this
    obtain ⟨h1, h2⟩ := processCommit_outcome (pr := pr) hc hi hf hsup hd0 hs0 hk hkn now
    dsimp only
    simp only [Content.commit.injEq, exists_eq_left']
    rw [← h1, ← h2]
    rcases (processCommit pr st a [] [] now).1 with _ | _ | _ | _ <;> simp [Res.bind]

/-- **C108**: which messages make a member panic, and which keep it busy for ever, exactly; all the others return (and C105
says which of them with an error). A public message panics before anything is authenticated, or its authentic commit does; likewise a
private message. Only commits go on for ever. The suites 4, 5 and 6 panic anyway (C41). -/
theorem C108_crash (hc : pr.Correct) {st : GroupState} (hr : Reachable pr st)
    (hsup : supported st.group.groupContext.cipherSuite = .ok true) :
    ∃ (sd : SuiteDesc) (d0 : Nat) (s0 : Ratchet ParentNode d0), suite st.group.groupContext.cipherSuite = .ok sd ∧
      st.vtree = s0.flat .leaf .parent ∧ d0 ≤ 31 ∧ ∀ raw now,
      ((unmarshalAndProcessMessage pr st raw now).1 = .panic ↔
        (∃ v m, unmarshal MlsMessage.dec raw = .ok ⟨v, .publicMessage m⟩ ∧ (Spec.PublicCrash pr st m ∨
          ∃ a c, Spec.PublicOk pr st m a ∧ a.content.content = .commit c ∧
            Spec.CommitCrash pr st.group.groupContext st.group.pendingProposals s0 a.content.sender.leafIndex c)) ∨
        (∃ v m, unmarshal MlsMessage.dec raw = .ok ⟨v, .privateMessage m⟩ ∧ (Spec.PrivateCrash pr sd st d0 m ∨
          ∃ a c, Spec.PrivateOk pr sd st d0 m a ∧ a.content.content = .commit c ∧
            Spec.CommitCrash pr st.group.groupContext st.group.pendingProposals s0 a.content.sender.leafIndex c))) ∧
      ((unmarshalAndProcessMessage pr st raw now).1 = .hang ↔
        (∃ v m a c, unmarshal MlsMessage.dec raw = .ok ⟨v, .publicMessage m⟩ ∧ Spec.PublicOk pr st m a ∧ a.content.content = .commit c ∧
          Spec.CommitEndless pr st.group.groupContext st.group.pendingProposals s0 a.content.sender.leafIndex c) ∨
        (∃ v m a c, unmarshal MlsMessage.dec raw = .ok ⟨v, .privateMessage m⟩ ∧ Spec.PrivateOk pr sd st d0 m a ∧ a.content.content = .commit c ∧
          Spec.CommitEndless pr st.group.groupContext st.group.pendingProposals s0 a.content.sender.leafIndex c)) := by
  have hi := hr.inv hc
  have hf := hr.fineInv hc
  obtain ⟨sd, hsd⟩ := hi.suite
  obtain ⟨d0, hd0, s0, hs0⟩ := hi.tree.holds
  have hlen : st.group.tree.length = 2 ^ (d0 + 1) - 1 := hs0.length
  refine ⟨sd, d0, s0, hsd, hs0.flat, hd0, fun raw now => ?_⟩
  have hsafe := unmarshal_safe message_safe raw
  unfold unmarshalAndProcessMessage
  rcases hd : unmarshal MlsMessage.dec raw with ⟨v, body⟩ | _ | _ | _
  · cases body with
    | publicMessage m =>
      have hp := verifyPublicMessage_panic hi hf (message_yields.unmarshal hd m rfl).known
      have hok := fun a => verifyPublicMessage_iff (pr := pr) (st := st) (m := m) (a := a) hsd
      simp only [Res.ok.injEq, MlsMessage.mk.injEq, MessageBody.publicMessage.injEq, reduceCtorEq, and_false, false_and, exists_false,
        or_false, processPublicMessage]
      rcases hv : verifyPublicMessage pr st m with a | _ | _ | _
      · obtain ⟨g1, g2⟩ := dispatch_outcome (pr := pr) hc hi hf hsup hd0 hs0 (Carries.sender (.pub hd hv)).1 now false
        have huniq : ∀ a', Spec.PublicOk pr st m a' ↔ a' = a := by
          intro a'
          refine (hok a').symm.trans ?_
          rw [hv, Res.ok.injEq]
          exact eq_comm
        have hnp : ¬ Spec.PublicCrash pr st m := fun h => by have := hp.1.2 h; rw [hv] at this; cases this
        dsimp only
        rw [g1, g2]
        constructor
        · constructor
          · rintro ⟨c, h1, h2⟩
            exact ⟨v, m, ⟨rfl, rfl⟩, .inr ⟨a, c, (huniq a).2 rfl, h1, h2⟩⟩
          · rintro ⟨v', m', ⟨rfl, rfl⟩, h | ⟨a', c, h0, h1, h2⟩⟩
            · exact absurd h hnp
            · obtain rfl := (huniq a').1 h0
              exact ⟨c, h1, h2⟩
        · constructor
          · rintro ⟨c, h1, h2⟩
            exact ⟨v, m, a, c, ⟨rfl, rfl⟩, (huniq a).2 rfl, h1, h2⟩
          · rintro ⟨v', m', a', c, ⟨rfl, rfl⟩, h0, h1, h2⟩
            obtain rfl := (huniq a').1 h0
            exact ⟨c, h1, h2⟩
      · dsimp only
        refine ⟨⟨fun h => (by cases h), ?_⟩, ⟨fun h => (by cases h), ?_⟩⟩
        · rintro ⟨v', m', ⟨rfl, rfl⟩, h | ⟨a', c, h0, h1, h2⟩⟩
          · have := hp.1.2 h; rw [hv] at this; cases this
          · have := (hok a').2 h0; rw [hv] at this; cases this
        · rintro ⟨v', m', a', c, ⟨rfl, rfl⟩, h0, h1, h2⟩
          have := (hok a').2 h0; rw [hv] at this; cases this
      · dsimp only
        refine ⟨⟨fun _ => ⟨v, m, ⟨rfl, rfl⟩, .inl (hp.1.1 hv)⟩, fun _ => rfl⟩, ⟨fun h => (by cases h), ?_⟩⟩
        rintro ⟨v', m', a', c, ⟨rfl, rfl⟩, h0, h1, h2⟩
        have := (hok a').2 h0; rw [hv] at this; cases this
      · exact absurd hv hp.2
    | privateMessage m =>
      have hp := decryptPrivateMessage_panic hc hi hf hsd hd0 hlen m
      have hok := fun a => C62_received pr hc st sd hsd d0 hd0 hlen m a
      simp only [Res.ok.injEq, MlsMessage.mk.injEq, MessageBody.privateMessage.injEq, reduceCtorEq, and_false, false_and, exists_false,
        false_or, processPrivateMessage]
      rcases hv : decryptPrivateMessage pr st m with a | _ | _ | _
      · obtain ⟨g1, g2⟩ := dispatch_outcome (pr := pr) hc hi hf hsup hd0 hs0 (Carries.sender (.priv hd hv)).1 now true
        have huniq : ∀ a', Spec.PrivateOk pr sd st d0 m a' ↔ a' = a := by
          intro a'
          refine (hok a').symm.trans ?_
          rw [hv, Res.ok.injEq]
          exact eq_comm
        have hnp : ¬ Spec.PrivateCrash pr sd st d0 m := fun h => by have := hp.1.2 h; rw [hv] at this; cases this
        dsimp only
        rw [g1, g2]
        constructor
        · constructor
          · rintro ⟨c, h1, h2⟩
            exact ⟨v, m, ⟨rfl, rfl⟩, .inr ⟨a, c, (huniq a).2 rfl, h1, h2⟩⟩
          · rintro ⟨v', m', ⟨rfl, rfl⟩, h | ⟨a', c, h0, h1, h2⟩⟩
            · exact absurd h hnp
            · obtain rfl := (huniq a').1 h0
              exact ⟨c, h1, h2⟩
        · constructor
          · rintro ⟨c, h1, h2⟩
            exact ⟨v, m, a, c, ⟨rfl, rfl⟩, (huniq a).2 rfl, h1, h2⟩
          · rintro ⟨v', m', a', c, ⟨rfl, rfl⟩, h0, h1, h2⟩
            obtain rfl := (huniq a').1 h0
            exact ⟨c, h1, h2⟩
      · dsimp only
        refine ⟨⟨fun h => (by cases h), ?_⟩, ⟨fun h => (by cases h), ?_⟩⟩
        · rintro ⟨v', m', ⟨rfl, rfl⟩, h | ⟨a', c, h0, h1, h2⟩⟩
          · have := hp.1.2 h; rw [hv] at this; cases this
          · have := (hok a').2 h0; rw [hv] at this; cases this
        · rintro ⟨v', m', a', c, ⟨rfl, rfl⟩, h0, h1, h2⟩
          have := (hok a').2 h0; rw [hv] at this; cases this
      · dsimp only
        refine ⟨⟨fun _ => ⟨v, m, ⟨rfl, rfl⟩, .inl (hp.1.1 hv)⟩, fun _ => rfl⟩, ⟨fun h => (by cases h), ?_⟩⟩
        rintro ⟨v', m', a', c, ⟨rfl, rfl⟩, h0, h1, h2⟩
        have := (hok a').2 h0; rw [hv] at this; cases this
      · exact absurd hv hp.2
    | _ =>
      simp
  · simp
  · rw [hd] at hsafe; exact absurd rfl hsafe.1
  · rw [hd] at hsafe; exact absurd rfl hsafe.2

/-! ### Without keys that are no points, and without trees that are full -/

theorem badPoint_edwards {cs : UInt16} (h : cs.toNat ≠ 2 ∧ cs.toNat ≠ 5 ∧ cs.toNat ≠ 7) {key content sig : Bytes} {label : String} :
    ¬ Spec.BadPoint pr cs key label content sig := by
  rintro ⟨d, m, h1, h2, _, h3⟩
  exact C41_edwards pr cs h key d ((suite_iff_spec cs d).2 h1) h2 m sig h3

theorem updates_depth : ∀ (us : List (UInt32 × LeafNode)) (a : Ratchet.Any ParentNode) (r : Option (Ratchet.Any ParentNode)),
    us.foldlM (fun t u => Spec.Ratchet.updateOpt t u.1.toNat u.2) (some a) = some r → ∃ b, r = some b ∧ b.1 = a.1 := by
  intro us
  induction us with
  | nil => rintro a r h; exact ⟨a, (Option.some.inj h).symm, rfl⟩
  | cons u us ih =>
    rintro ⟨d, t⟩ r h
    rw [List.foldlM_cons] at h
    obtain ⟨t', h1, h2⟩ := Option.bind_eq_some_iff.1 h
    unfold Spec.Ratchet.updateOpt at h1
    dsimp only at h1
    split at h1
    · obtain rfl := (Option.some.inj h1).symm
      exact ih (⟨d, t.update u.1.toNat u.2⟩ : Ratchet.Any ParentNode) r h2
    · cases h1

theorem removes_depth : ∀ (rs : List UInt32) (t r : Option (Ratchet.Any ParentNode)) (d : Nat), (∀ a, t = some a → a.1 ≤ d) →
    rs.foldlM (fun t i => Spec.Ratchet.removeOpt t i.toNat) t = some r → ∀ a, r = some a → a.1 ≤ d := by
  intro rs
  induction rs with
  | nil => intro t r d ht h; cases h; exact ht
  | cons i rs ih =>
    intro t r d ht h
    rw [List.foldlM_cons] at h
    obtain ⟨t', h1, h2⟩ := Option.bind_eq_some_iff.1 h
    refine ih t' r d (fun a ha => ?_) h2
    unfold Spec.Ratchet.removeOpt at h1
    match t, ht, h1 with
    | none, _, h1 => cases h1
    | some ⟨d', s⟩, ht, h1 =>
      dsimp only at h1
      split at h1
      · rw [Option.some.injEq] at h1
        subst h1
        exact Nat.le_trans (shrink_depth _ ha) (ht _ rfl)
      · cases h1

/-- A commit with fewer than 2^30 proposals does not make a tree with at most 2^30 leaves too deep. -/
theorem applied_small {d0 : Nat} (hd0 : d0 ≤ 30) {s0 : Ratchet ParentNode d0} {l : List (Proposal × UInt32)} (hl : l.length < 2 ^ 30)
    {x : Ratchet.Any ParentNode} (h : Spec.applyProposals (some ⟨d0, s0⟩) l = some (some x)) : x.1 ≤ 31 := by
  unfold Spec.applyProposals Spec.Ratchet.applyAll at h
  rw [Option.map_eq_some_iff] at h
  obtain ⟨t2, h2, h3⟩ := h
  obtain ⟨t1, h1, h2⟩ := Option.bind_eq_some_iff.1 h2
  obtain ⟨b, rfl, hb⟩ := updates_depth _ _ _ h1
  have ht2 := removes_depth _ _ _ d0 (fun a ha => by cases ha; exact Nat.le_of_eq hb) h2
  have hadds : (addsOf (l.map fun p => p.1.low)).length < 2 ^ 30 := by
    refine Nat.lt_of_le_of_lt (List.length_filterMap_le _ _) ?_
    simpa using hl
  match t2, ht2, h3 with
  | some ⟨d, s⟩, ht2, h3 =>
    have hd : d ≤ d0 := ht2 _ rfl
    have hsz := size_bound s
    have hp : 2 ^ d ≤ 2 ^ 30 := Nat.pow_le_pow_right (by decide) (by omega)
    have := small_adds (addsOf (l.map fun p => p.1.low)) ⟨d, s⟩ (by show d ≤ 31; omega) (by show s.size + _ ≤ _; omega)
    rw [h3] at this
    exact this
  | none, _, h3 =>
    cases hns : addsOf (l.map fun p => p.1.low) with
    | nil => rw [hns] at h3; cases h3
    | cons n ns =>
      rw [hns] at h3 hadds
      have := small_adds ns (addOpt none n) (by show 0 ≤ 31; omega) (by
        simp only [List.length_cons] at hadds
        have := size_bound (addOpt none n).2
        have e : 2 ^ (addOpt none n).1 = 1 := rfl
        omega)
      rw [List.foldl_cons] at h3
      rw [h3] at this
      exact this

/-- **C108**: no message keeps a member busy for ever unless its tree has more than 2^30 leaves. -/
theorem C108_endless (hc : pr.Correct) {st : GroupState} (hr : Reachable pr st)
    (hsup : supported st.group.groupContext.cipherSuite = .ok true) (hroom : st.group.tree.length < 2 ^ 31) (raw : Bytes) (now : GoTime) :
    (unmarshalAndProcessMessage pr st raw now).1 ≠ .hang := by
  obtain ⟨sd, d0, s0, hsd, hv, hd0, h⟩ := C108_crash hc hr hsup
  have hlen : st.group.tree.length = 2 ^ (d0 + 1) - 1 := by
    rw [← derefTree_length st.heap]
    exact (congrArg List.length hv).trans (flat_length _ _ s0)
  have hd30 : d0 ≤ 30 := by
    by_contra hd
    have : 2 ^ 32 ≤ 2 ^ (d0 + 1) := Nat.pow_le_pow_right (by decide) (by omega)
    omega
  have key : ∀ a e c, Carries pr st raw a e → a.content.content = .commit c →
      ¬ Spec.CommitEndless pr st.group.groupContext st.group.pendingProposals s0 a.content.sender.leafIndex c := by
    rintro a e c hca hk ⟨l, x, hl, hap, hx⟩
    have hres : resolveProposals a.content.sender.leafIndex st.group.pendingProposals c.proposals = .ok (l.map (·.1), l.map (·.2)) := by
      rw [resolveProposals_eq, hl.resolved]
      rfl
    have h1 := (resolveProposals_spec _ _ _ hres).1
    rw [List.length_map] at h1
    have := applied_small hd30 (by rw [h1]; exact hca.sender.1.few c hk) hap
    omega
  intro hh
  rcases (h raw now).2.1 hh with ⟨v, m, a, c, h1, h2, h3, h4⟩ | ⟨v, m, a, c, h1, h2, h3, h4⟩
  · exact key a false c (.pub h1 ((verifyPublicMessage_iff hsd).2 h2)) h3 h4
  · have hlen' : st.group.tree.length = 2 ^ (d0 + 1) - 1 := hlen
    exact key a true c (.priv h1 ((C62_received pr hc st sd hsd d0 hd0 hlen' m a).2 h2)) h3 h4

/-- An authentic commit makes a member panic by what it names: a leaf outside the tree that it removes or updates, or a committer
that has no leaf any more once the proposals are applied, though a path has to be put there. -/
def Spec.CommitNames (pr : Prims) (ctx : GroupContext) (pending : List PendingProposal) {d0 : Nat} (s0 : Ratchet ParentNode d0)
    (sender : UInt32) (c : Commit) : Prop :=
  ∃ l, Spec.Checked pr ctx pending sender c l ∧
    (Spec.applyProposals (some ⟨d0, s0⟩) l = none ∨
      ∃ r path ph, Spec.applyProposals (some ⟨d0, s0⟩) l = some r ∧ (∀ x, r = some x → x.1 ≤ 31) ∧ c.path = some path ∧
        path.leafNode.source = .commit ph ∧
        ¬ ∃ (d : Nat) (s : Ratchet ParentNode d) (leaf : LeafNode), r = some ⟨d, s⟩ ∧ s.leaves[sender.toNat % 2 ^ 31]? = some (some leaf))

theorem commitCrash_edwards {ctx : GroupContext} (h : ctx.cipherSuite.toNat ≠ 2 ∧ ctx.cipherSuite.toNat ≠ 5 ∧ ctx.cipherSuite.toNat ≠ 7)
    {pending : List PendingProposal} {d0 : Nat} {s0 : Ratchet ParentNode d0} {sender : UInt32} {c : Commit} :
    Spec.CommitCrash pr ctx pending s0 sender c ↔ Spec.CommitNames pr ctx pending s0 sender c := by
  constructor
  · rintro (⟨l1, k, s, l2, _, _, _, hcs, _, tbs, _, hb⟩ | ⟨l, hl, hn | ⟨r, path, h1, h2, h3, ⟨ph, h4⟩, h5 | ⟨tbs, _, hb⟩⟩⟩)
    · rw [hcs] at hb
      exact absurd hb (badPoint_edwards h)
    · exact ⟨l, hl, .inl hn⟩
    · exact ⟨l, hl, .inr ⟨r, path, ph, h1, h2, h3, h4, h5⟩⟩
    · exact absurd hb (badPoint_edwards h)
  · rintro ⟨l, hl, hn | ⟨r, path, ph, h1, h2, h3, h4, h5⟩⟩
    · exact .inr ⟨l, hl, .inl hn⟩
    · exact .inr ⟨l, hl, .inr ⟨r, path, h1, h2, h3, ⟨ph, h4⟩, .inl h5⟩⟩

/-- **C108**: with the suites that do not sign with ECDSA, a message panics by what it names only: a sender outside the tree, which for
a public message anyone can write, or the leaves its authentic commit is about. -/
theorem C108_edwards (hc : pr.Correct) {st : GroupState} (hr : Reachable pr st)
    (hsup : supported st.group.groupContext.cipherSuite = .ok true)
    (hed : st.group.groupContext.cipherSuite.toNat ≠ 2 ∧ st.group.groupContext.cipherSuite.toNat ≠ 5 ∧ st.group.groupContext.cipherSuite.toNat ≠ 7) :
    ∃ (sd : SuiteDesc) (d0 : Nat) (s0 : Ratchet ParentNode d0), suite st.group.groupContext.cipherSuite = .ok sd ∧
      st.vtree = s0.flat .leaf .parent ∧ ∀ raw now, (unmarshalAndProcessMessage pr st raw now).1 = .panic ↔
        (∃ v m, unmarshal MlsMessage.dec raw = .ok ⟨v, .publicMessage m⟩ ∧
          ((m.content.groupID = st.group.groupContext.groupID ∧ m.content.epoch = st.group.groupContext.epoch ∧ ∃ li,
              m.content.sender = .member li ∧ st.vtree.length ≤ 2 * (li.toNat % 2 ^ 31)) ∨
            ∃ a c, Spec.PublicOk pr st m a ∧ a.content.content = .commit c ∧
              Spec.CommitNames pr st.group.groupContext st.group.pendingProposals s0 a.content.sender.leafIndex c)) ∨
        (∃ v m, unmarshal MlsMessage.dec raw = .ok ⟨v, .privateMessage m⟩ ∧
          ((m.groupID = st.group.groupContext.groupID ∧ m.epoch = st.group.groupContext.epoch ∧ m.groupID.length < 2 ^ 30 ∧
              ∃ (li gen : UInt32) (guard : Bytes4),
                pr.aeadOpen sd.aead (Spec.senderDataKey pr sd st.group.epochSecret m.ciphertext)
                  (Spec.senderDataNonce pr sd st.group.epochSecret m.ciphertext) m.encryptedSenderData
                  (Spec.senderDataAAD m.groupID m.epoch.toNat m.contentType) = some (Spec.senderData li.toNat gen.toNat guard.toBytes) ∧
                2 ^ d0 ≤ li.toNat % 2 ^ 31) ∨
            ∃ a c, Spec.PrivateOk pr sd st d0 m a ∧ a.content.content = .commit c ∧
              Spec.CommitNames pr st.group.groupContext st.group.pendingProposals s0 a.content.sender.leafIndex c)) := by
  obtain ⟨sd, d0, s0, hsd, hv, hd0, h⟩ := C108_crash hc hr hsup
  refine ⟨sd, d0, s0, hsd, hv, fun raw now => (h raw now).1.trans ?_⟩
  simp only [commitCrash_edwards hed, Spec.PublicCrash, Spec.PrivateCrash, badPoint_edwards hed, and_false, exists_false, or_false]

/-! ### Instances -/

/-- A commit of `i` in a group of suite 2 with a path of one leaf, whose signature key is `key`, and the proposals `ps`. -/
def toyKeyCommit (st : GroupState) (i : UInt32) (name : UInt8) (key : Bytes) (ps : List Proposal) : Bytes :=
  let leaf : LeafNode := { (toyPoint name).pub.leafNode with signatureKey := key, encryptionKey := [9, 101, name], source := .commit [] }
  match leaf.sign toyPrims 2 st.group.groupContext.groupID i [11, name] [] with
  | .ok leaf => toyPublic st i name (.commit ⟨ps.map .proposal, some ⟨leaf, []⟩⟩) [1]
  | _ => []

/-- The key package of `name` for suite 2, with a signature key that is no point. -/
def toyNoPoint (name : UInt8) : KeyPackage :=
  { (toyPoint name).pub with leafNode := { (toyPoint name).pub.leafNode with signatureKey := [] } }

/-- The group as a member with a tree of 16 leaves has it: with their secret tree they can send from leaf 9. -/
def toyWider (st : GroupState) : GroupState :=
  { st with group := { st.group with tree := st.group.tree ++ List.replicate (31 - st.group.tree.length) none } }

/-- Each of the ways to panic occurs in a group in use: a public message and a private one with a sender outside the tree, a commit that
removes a leaf outside the tree, one that adds a key package with a key that is no point, one with a path whose leaf has such a key; and
messages that do not panic: an application message, a commit that is not authentic. -/
example : Res.holds toyTwo (fun p =>
      decide ((unmarshalAndProcessMessage toyPrims p.1 (toyPublic p.1 9 1 (.proposal (.remove 0)) []) toyLater).1 = .panic) &&
      decide ((unmarshalAndProcessMessage toyPrims p.1 (toyPrivate (toyWider p.1) 9 1 (.application [1]) []) toyLater).1 = .panic) &&
      decide ((unmarshalAndProcessMessage toyPrims p.1 (toyRemoves p.1 1 1 5) toyLater).1 = .panic) &&
      decide ((unmarshalAndProcessMessage toyPrims p.1 (toyRemoves p.1 1 2 5) toyLater).1 = .err) &&
      decide ((unmarshalAndProcessMessage toyPrims p.1 (toyPrivate p.1 1 1 (.application [1]) []) toyLater).1 = .ok (some [1]))) = true ∧
    Res.holds toyPoints (fun p =>
      decide ((unmarshalAndProcessMessage toyPrims p.1 (toyKeyCommit p.1 1 1 [9, 11, 1] [.add (toyNoPoint 3)]) toyLater).1 = .panic) &&
      decide ((unmarshalAndProcessMessage toyPrims p.1 (toyKeyCommit p.1 1 1 [] []) toyLater).1 = .panic) &&
      decide ((unmarshalAndProcessMessage toyPrims p.1 (toyKeyCommit p.1 1 1 [9, 11, 1] []) toyLater).1 = .err)) = true := by
  refine ⟨?_, ?_⟩ <;> decide +kernel

end Mls
