import Verif.Props.Guests
import Verif.Props.Enclose
/-
C121: a conversation with members that do what RFC 9420 says, whatever software they use.
-/
namespace Mls

open Spec (Ratchet nodeAt)

variable {pr : Prims}

/-! ### Specification -/

/-- A conversation, each message made as RFC 9420 says: from the epoch `e`, the tree `t` and the proposals `pending` on; the messages, with what is to be
delivered for each; and the epoch, the tree and the proposals at the end. Application data are encrypted; proposals are sent and then committed by reference, or
stand in the commits. The member at the leaf `my` makes no commit with a path; its leaf is left alone, and nothing added is in the resolution on its side. -/
inductive Spec.Rfc.Talk (pr : Prims) (sd : SuiteDesc) (my : UInt32) : Epoch → Ratchet.Any ParentNode → List PendingProposal → List (Bytes × Option Bytes) →
    Epoch → Ratchet.Any ParentNode → List PendingProposal → Prop where
  | nil (e : Epoch) (t : Ratchet.Any ParentNode) (pending : List PendingProposal) : Talk pr sd my e t pending [] e t pending
  | application {e e' : Epoch} {t t' : Ratchet.Any ParentNode} {pending pending' : List PendingProposal} {raw : Bytes} {raws : List (Bytes × Option Bytes)}
      {key : Bytes} {leaf : UInt32} {ad data rand : Bytes} {a : AuthenticatedContent} {v : Rfc.Envelope}
      (signer : Rfc.Signer pr sd (t.2.flat Node.leaf Node.parent) leaf key)
      (made : Rfc.compose pr sd e.context key leaf .privateMessage ad (.application data) rand [] = some a)
      (message : Rfc.enclose pr sd e.context e.epochSecret t.1 v a = some raw)
      (rest : Talk pr sd my e t pending raws e' t' pending') : Talk pr sd my e t pending ((raw, some data) :: raws) e' t' pending'
  | proposal {e e' : Epoch} {t t' : Ratchet.Any ParentNode} {pending pending' : List PendingProposal} {raw : Bytes} {raws : List (Bytes × Option Bytes)}
      {key : Bytes} {leaf : UInt32} {wf : WireFormat} {ad rand ref : Bytes} {p : Proposal} {a : AuthenticatedContent} {v : Rfc.Envelope}
      (signer : Rfc.Signer pr sd (t.2.flat Node.leaf Node.parent) leaf key)
      (made : Rfc.compose pr sd e.context key leaf wf ad (.proposal p) rand [] = some a)
      (message : Rfc.enclose pr sd e.context e.epochSecret t.1 v a = some raw)
      (version : ∀ k, p = .add k → k.version = 1)
      (reference : Rfc.refHash pr sd "MLS 1.0 Proposal Reference" (Rfc.authenticatedContent a) = some ref)
      (rest : Talk pr sd my e t (pending ++ [⟨ref, p, leaf⟩]) raws e' t' pending') : Talk pr sd my e t pending ((raw, none) :: raws) e' t' pending'
  | commit {e e' : Epoch} {t t' : Ratchet.Any ParentNode} {pending pending' : List PendingProposal} {raw : Bytes} {raws : List (Bytes × Option Bytes)}
      {wf : WireFormat} {c : Rfc.Committer} {proposals : List ProposalOrRef} {withPath : Bool} {m : Rfc.Made} {v : Rfc.Envelope}
      (made : Rfc.makeCommit pr sd e pending t.2 wf c proposals withPath = some m) (message : Rfc.commitMessage pr sd e t.1 v m = some raw)
      (versions : ∀ k, .proposal (.add k) ∈ proposals → k.version = 1)
      (signer : Rfc.Signer pr sd (t.2.flat Node.leaf Node.parent) c.sender c.signKey)
      (sizes : withPath = true → sd.kem.seedSize = sd.kdf.size)
      (ruled : ∀ l d s, resolve c.sender pending proposals = some l → applyProposals (some t) l = some (some ⟨d, s⟩) →
        Rfc.Ruled pr sd e.context l s c withPath ∧ (withPath = true → ∀ x res,
          m.tree.2.meet 0 c.sender.toNat my.toNat = some (x, res) → ∀ y ∈ res, y ∉ newLeaves l s))
      (other : withPath = true → c.sender ≠ my)
      (kept : nodeAt (m.tree.2.flat Node.leaf Node.parent) (2 * my.toNat) = nodeAt (t.2.flat Node.leaf Node.parent) (2 * my.toNat))
      (rest : Talk pr sd my m.epoch m.tree [] raws e' t' pending') : Talk pr sd my e t pending ((raw, none) :: raws) e' t' pending'

/-! ### One message -/

/-- **C121**, application data: they are delivered, and nothing else happens. -/
theorem C121_application (hc : pr.Correct) {st : GroupState} (hr : Reachable pr st) {sd : SuiteDesc}
    (hsd : suite st.group.groupContext.cipherSuite = .ok sd) {d0 : Nat} {s0 : Ratchet ParentNode d0} (hv : st.vtree = s0.flat .leaf .parent)
    {key : Bytes} {leaf : UInt32} (hkey : Spec.Rfc.Signer pr sd st.vtree leaf key) {ad data rand : Bytes} {a : AuthenticatedContent}
    (ha : Spec.Rfc.compose pr sd st.group.groupContext key leaf .privateMessage ad (.application data) rand [] = some a) {v : Spec.Rfc.Envelope} {raw : Bytes}
    (hraw : Spec.Rfc.enclose pr sd st.group.groupContext st.group.epochSecret d0 v a = some raw) (now : GoTime) :
    unmarshalAndProcessMessage pr st raw now = (.ok (some data), st) := by
  have hca := C121_read hc hr hsd hv hkey ⟨⟨fun _ h => (by cases h), fun _ h => (by cases h)⟩, fun _ => rfl⟩ ha hraw
  have hk : a.content.content = .application data := by
    unfold Spec.Rfc.compose at ha
    simp only [Option.bind_eq_bind, Option.bind_eq_some_iff, Option.pure_def, Option.some.injEq] at ha
    obtain ⟨_, _, rfl⟩ := ha
    rfl
  rw [upm_of_carries hca]
  unfold dispatch
  rw [hk]
  simp

/-- **C121**, proposals: a proposal is kept with the reference of RFC 9420 and its sender, and nothing else happens. -/
theorem C121_proposal (hc : pr.Correct) {st : GroupState} (hr : Reachable pr st) {sd : SuiteDesc}
    (hsd : suite st.group.groupContext.cipherSuite = .ok sd) {d0 : Nat} {s0 : Ratchet ParentNode d0} (hv : st.vtree = s0.flat .leaf .parent)
    {key : Bytes} {leaf : UInt32} (hkey : Spec.Rfc.Signer pr sd st.vtree leaf key) {wf : WireFormat} {ad rand : Bytes} {p : Proposal} {a : AuthenticatedContent}
    (ha : Spec.Rfc.compose pr sd st.group.groupContext key leaf wf ad (.proposal p) rand [] = some a) {v : Spec.Rfc.Envelope} {raw : Bytes}
    (hraw : Spec.Rfc.enclose pr sd st.group.groupContext st.group.epochSecret d0 v a = some raw) (hver : ∀ k, p = .add k → k.version = 1) {ref : Bytes}
    (href : Spec.Rfc.refHash pr sd "MLS 1.0 Proposal Reference" (Spec.Rfc.authenticatedContent a) = some ref) (now : GoTime) :
    unmarshalAndProcessMessage pr st raw now =
      (.ok none, { st with group := { st.group with pendingProposals := st.group.pendingProposals ++ [⟨ref, p, leaf⟩] } }) := by
  have hca := C121_read hc hr hsd hv hkey
    ⟨⟨fun k h => hver k (by cases h; rfl), fun _ h => (by cases h)⟩, fun _ => rfl⟩ ha hraw
  have hk : a.content.content = .proposal p ∧ a.content.sender.leafIndex = leaf := by
    unfold Spec.Rfc.compose at ha
    simp only [Option.bind_eq_bind, Option.bind_eq_some_iff, Option.pure_def, Option.some.injEq] at ha
    obtain ⟨_, _, rfl⟩ := ha
    exact ⟨rfl, rfl⟩
  have hg := ((C102_references (pr := pr) hsd ref).2 a ⟨p, hk.1⟩).2 href
  rw [upm_of_carries hca]
  unfold dispatch processProposal
  rw [hk.1]
  simp only [hg, hk.2]
  rfl

/-! ### A conversation -/

/-- **C121**: a member that holds its keys takes part in every conversation with members that do what RFC 9420 says, whenever it processes the messages:
application data are delivered, nothing else is, and it ends in the same epoch, with the same tree and the same proposals; it holds its keys again. -/
theorem C121_talk (hc : pr.Correct) {sd : SuiteDesc} {my : UInt32} {e e' : Spec.Epoch} {t t' : Ratchet.Any ParentNode} {pending pending' : List PendingProposal}
    {talk : List (Bytes × Option Bytes)} (h : Spec.Rfc.Talk pr sd my e t pending talk e' t' pending') {st : GroupState} (hr : Reachable pr st)
    (hk : Keyed pr st) (hsd : suite st.group.groupContext.cipherSuite = .ok sd) (hmy : st.group.myLeafIndex = my) (hv : st.vtree = t.2.flat .leaf .parent)
    (he : st.group.keyState = e) (hp : st.group.pendingProposals = pending) {msgs : List (Bytes × GoTime)} (hm : msgs.map Prod.fst = talk.map Prod.fst) :
    ∃ st', processAll pr st msgs = (talk.map fun x => .ok x.2, st') ∧ st'.vtree = t'.2.flat .leaf .parent ∧ st'.group.keyState = e' ∧
      st'.group.pendingProposals = pending' ∧ st'.group.myLeafIndex = my ∧ Keyed pr st' ∧ Reachable pr st' := by
  induction h generalizing st msgs with
  | nil =>
    obtain rfl := List.map_eq_nil_iff.1 hm
    exact ⟨st, rfl, hv, he, hp, hmy, hk, hr⟩
  | application signer made message rest ih =>
    subst he hmy hp
    obtain ⟨⟨raw', now⟩, msgs, rfl, hm1, hm2⟩ := List.map_eq_cons_iff.1 hm
    simp only at hm1
    subst hm1
    have g1 := C121_application hc hr hsd hv (by rw [hv]; exact signer) made message now
    obtain ⟨st', k1, k2⟩ := ih hr hk hsd rfl hv rfl rfl hm2
    refine ⟨st', ?_, k2⟩
    simp only [processAll, g1, k1, List.map_cons]
  | proposal signer made message version reference rest ih =>
    subst he hmy hp
    obtain ⟨⟨raw', now⟩, msgs, rfl, hm1, hm2⟩ := List.map_eq_cons_iff.1 hm
    simp only at hm1
    subst hm1
    have g1 := C121_proposal hc hr hsd hv (by rw [hv]; exact signer) made message version reference now
    obtain ⟨st', k1, k2⟩ := ih (.message hr g1 ⟨by simp, by simp⟩) hk hsd rfl hv rfl rfl hm2
    refine ⟨st', ?_, k2⟩
    simp only [processAll, g1, k1, List.map_cons]
  | commit made message versions signer sizes ruled other kept rest ih =>
    subst he hmy hp
    obtain ⟨⟨raw', now⟩, msgs, rfl, hm1, hm2⟩ := List.map_eq_cons_iff.1 hm
    simp only at hm1
    subst hm1
    obtain ⟨st1, g1, g2, g3, g4, g5, g6⟩ := C119_followed hc hr hk hsd hv made versions (by rw [hv]; exact signer) sizes
      ruled other (by rw [hv]; exact kept) message now
    obtain ⟨st', k1, k2⟩ := ih (.message hr g1 ⟨by simp, by simp⟩) g6 (by rw [upm_suite g1]; exact hsd) g5 g2 g3 g4 hm2
    refine ⟨st', ?_, k2⟩
    simp only [processAll, g1, k1, List.map_cons]

/-- **C121**, for new members: who joins as in C120_joins, with nothing missing among its keys, takes part in every conversation from there on. -/
theorem C121_guest (hc : pr.Correct) {w : Welcome} {kp : KeyPairPackage} {now : GoTime} {st : GroupState} (h : groupFromWelcome pr w kp now = .ok st)
    {sd : SuiteDesc} {e : Spec.Epoch} (hsd : suite e.context.cipherSuite = .ok sd) {d : Nat} {s : Ratchet ParentNode d} {i li : Nat} (hli : li < 2 ^ d)
    {ps : Option Bytes} (hv : st.vtree = s.flat .leaf .parent) (he : st.group.keyState = e) (hp : st.group.pendingProposals = [])
    (hmy : st.group.myLeafIndex.toNat = li) (hj : Spec.JoinKeys pr sd d i li kp.priv.encryptionKey ps st.group.privTree)
    (ho : Spec.KeyOpens pr sd kp.pub.leafNode.encryptionKey kp.priv.encryptionKey) (hpr : Spec.Rfc.Provided (s.flat .leaf .parent) i li ps)
    {e' : Spec.Epoch} {t' : Ratchet.Any ParentNode} {pending' : List PendingProposal} {talk : List (Bytes × Option Bytes)}
    (hta : Spec.Rfc.Talk pr sd (UInt32.ofNat li) e ⟨d, s⟩ [] talk e' t' pending') {msgs : List (Bytes × GoTime)}
    (hm : msgs.map Prod.fst = talk.map Prod.fst) :
    ∃ st', processAll pr st msgs = (talk.map fun x => .ok x.2, st') ∧ st'.vtree = t'.2.flat .leaf .parent ∧ st'.group.keyState = e' ∧
      st'.group.pendingProposals = pending' ∧ st'.group.myLeafIndex = UInt32.ofNat li ∧ Keyed pr st' ∧ Reachable pr st' :=
  C121_talk hc hta (.join h) (C120_keyed hc h hsd hli hv he hmy hj ho hpr) (by rw [← he] at hsd; exact hsd)
    (by rw [← hmy, UInt32.ofNat_toNat]) hv he hp hm

/-! ### What the library sends -/

/-- **C121**, sending data: what CreateApplicationMessage returns is such a message, of generation 0 and without padding; so it belongs to conversations. -/
theorem C121_sends_data (hc : pr.Correct) {st : GroupState} (hr : Reachable pr st) {sd : SuiteDesc}
    (hsd : suite st.group.groupContext.cipherSuite = .ok sd) {d0 : Nat} {s0 : Ratchet ParentNode d0} (hv : st.vtree = s0.flat .leaf .parent)
    {data rand : Bytes} {guard : Bytes4} {raw : Bytes} (h : createApplicationMessage pr st data rand guard = .ok raw) :
    ∃ a, Spec.Rfc.compose pr sd st.group.groupContext st.group.signaturePriv st.group.myLeafIndex .privateMessage [] (.application data) rand [] = some a ∧
      Spec.Rfc.enclose pr sd st.group.groupContext st.group.epochSecret d0 ⟨0, guard, 0⟩ a = some raw := by
  obtain ⟨sd', d, s, hsd', hd, hs, hlen, hin⟩ := reachable_shape hc hr
  cases hsd.symm.trans hsd'
  cases flat_any (hs.flat.symm.trans hv)
  have h' := (createApplicationMessage_iff hc hsd hd hlen hin).1 h
  unfold Spec.Rfc.applicationMessage at h'
  simp only [Option.bind_eq_bind, Option.bind_eq_some_iff] at h'
  obtain ⟨sig, h1, h2⟩ := h'
  refine ⟨⟨.privateMessage, Spec.Rfc.framed st.group.groupContext st.group.myLeafIndex (.application data), ⟨sig, []⟩⟩, ?_, h2⟩
  unfold Spec.Rfc.compose
  simp only [Option.bind_eq_bind, Option.bind_eq_some_iff, Option.pure_def]
  exact ⟨sig, h1, rfl⟩

/-- Who invites with CreateWelcome, as a committer: there is no path, so the rest does not matter. -/
def Spec.Rfc.inviter (g : Group) (r : WelcomeRand) (leaf : LeafNode) : Spec.Rfc.Committer where
  sender := g.myLeafIndex
  signKey := g.signaturePriv
  leaf := leaf
  leafKey := []
  secret := []
  authenticatedData := []
  sigRand := r.commitSign
  leafRand := []
  sealRand := fun _ _ => []

/-- **C121**, sending invitations: the message that CreateWelcome returns is a commit as RFC 9420 says, without a path, that adds the key packages; so it belongs
to conversations, for its sender as well. -/
theorem C121_sends_invitation (hc : pr.Correct) {st : GroupState} (hr : Reachable pr st) {sd : SuiteDesc}
    (hsd : suite st.group.groupContext.cipherSuite = .ok sd) {d0 : Nat} {s0 : Ratchet ParentNode d0} (hv : st.vtree = s0.flat .leaf .parent)
    {kps : List KeyPackage} {r : WelcomeRand} {w : Welcome} {raw : Bytes} (hne : kps ≠ []) (h : (createWelcome pr st kps r).1 = .ok (w, raw))
    (pending : List PendingProposal) (leaf : LeafNode) :
    ∃ m, Spec.Rfc.makeCommit pr sd st.group.keyState pending s0 .privateMessage (Spec.Rfc.inviter st.group r leaf)
        (kps.map fun k => .proposal (.add k)) false = some m ∧ m.tree = Spec.withMembers s0 kps ∧
      Spec.Rfc.commitMessage pr sd st.group.keyState d0 ⟨0, r.guard, 0⟩ m = some raw := by
  obtain ⟨sd', d, s, hsd', hs, hiff⟩ := C107_invitation hc hr
  cases hsd.symm.trans ((suite_iff_spec _ _).2 hsd')
  cases flat_any (hs.symm.trans hv)
  obtain ⟨hdep, hinv⟩ := (hiff kps r w raw hne).1 h
  unfold Spec.Rfc.invitation at hinv
  simp only [Option.bind_eq_bind, Option.bind_eq_some_iff, Option.pure_def, Option.some.injEq, Prod.mk.injEq] at hinv
  obtain ⟨p, hp, _, _, _, _, raw', hraw, _, rfl⟩ := hinv
  unfold Spec.Rfc.prepared at hp
  simp only [Option.bind_eq_bind, Option.bind_eq_some_iff, Option.pure_def, Option.some.injEq] at hp
  obtain ⟨th, h1, sig, h2, input, h3, ctx, h4, js, h5, sec, h6, _, _, _, _, _, _, _, _, rfl⟩ := hp
  have hth : (Spec.withMembers s0 kps).2.treeHash (pr.hash sd.hash) 0 = some th :=
    (computeRootTreeHash_iff hc hsd hdep _ _).1 ((C102_tree_hash hc hsd hdep _ _).2 h1)
  obtain ⟨next, hnx⟩ : ∃ next : GroupContext, next = { st.group.groupContext with
    epoch := st.group.groupContext.epoch + 1, treeHash := th,
    confirmedTranscriptHash := pr.hash sd.hash (st.group.interimTranscriptHash ++ input) } := ⟨_, rfl⟩
  have hsn : suite next.cipherSuite = .ok sd := by rw [hnx]; exact hsd
  have e1 := ((C102_schedule hsn js).1 st.group.initSecret (List.replicate sd.kdf.size 0)).2 ⟨ctx, by rw [hnx]; exact h4, h5⟩
  have henc : next.enc = .ok ctx := context_some.1 (by rw [hnx]; exact h4)
  have hb := joiner_bound hsn henc e1
  obtain ⟨_, k1, k2⟩ := joiner_ok hsn e1
  cases henc.symm.trans k1
  have hsz := (suite_sizes hsn).1
  have hn : sd.nh.toNat ≤ 255 * sd.kdf.size := by rw [hsz]; omega
  have e2 : sec = Spec.epochSecret pr sd js (List.replicate sd.kdf.size 0) ctx := by
    have := (expand_rfc (pr := pr) hsn lblEpoch_name (pr.extract sd.kdf (List.replicate sd.kdf.size 0) js) ctx sec sd.nh hn).2 (by rw [hsz]; exact h6)
    exact expandWithLabel_ok hsn lblEpoch_name (by decide) this
  subst k2 e2
  have hm : ∃ ep, Spec.Rfc.makeCommit pr sd st.group.keyState pending s0 .privateMessage (Spec.Rfc.inviter st.group r leaf)
      (kps.map fun k => .proposal (.add k)) false = some ⟨⟨.privateMessage,
        Spec.Rfc.framed st.group.groupContext st.group.myLeafIndex (.commit ⟨kps.map fun k => .proposal (.add k), none⟩),
        ⟨sig, Spec.confirmationTag pr sd (Spec.epochSecret pr sd (Spec.joinerSecret pr sd st.group.initSecret (List.replicate sd.kdf.size 0) ctx)
          (List.replicate sd.kdf.size 0) ctx) (pr.hash sd.hash (st.group.interimTranscriptHash ++ input))⟩⟩, Spec.withMembers s0 kps, ep⟩ := by
    unfold Spec.Rfc.makeCommit
    simp only [resolve_adds, Option.bind_eq_bind, Option.bind_some, Spec.Rfc.inviter, applyProposals_adds, Bool.false_eq_true, if_false,
      Option.bind_eq_some_iff]
    refine ⟨⟨next, Spec.interimHash pr sd (Spec.confirmedHash pr sd st.group.interimTranscriptHash input) (pr.mac sd.hash (Spec.deriveSecret pr sd
      (Spec.epochSecret pr sd (Spec.joinerSecret pr sd st.group.initSecret (List.replicate sd.kdf.size 0) ctx) (List.replicate sd.kdf.size 0) ctx) "confirm")
      (Spec.confirmedHash pr sd st.group.interimTranscriptHash input)), Spec.epochSecret pr sd (Spec.joinerSecret pr sd st.group.initSecret
      (List.replicate sd.kdf.size 0) ctx) (List.replicate sd.kdf.size 0) ctx, Spec.deriveSecret pr sd (Spec.epochSecret pr sd
        (Spec.joinerSecret pr sd st.group.initSecret (List.replicate sd.kdf.size 0) ctx) (List.replicate sd.kdf.size 0) ctx) "init"⟩, th, hth, ?_⟩
    subst hnx
    unfold Spec.Rfc.confirm
    simp only [Option.bind_eq_bind, Option.bind_eq_some_iff, Option.pure_def, Option.guard_eq_some', exists_const]
    exact ⟨sig, h2, input, h3, ctx, h4, hb, rfl⟩
  obtain ⟨ep, hm⟩ := hm
  exact ⟨_, hm, rfl, hraw⟩

/-! ### A concrete case -/

/-- What happens in a conversation. -/
inductive ToyAct where
  | say (leaf : UInt32) (key data : Bytes)
  | propose (wf : WireFormat) (leaf : UInt32) (key : Bytes) (p : Proposal)
  | commit (wf : WireFormat) (c : Spec.Rfc.Committer)

/-- What is to be delivered. -/
def ToyAct.data : ToyAct → Option Bytes
  | .say _ _ data => some data
  | _ => none

/-- Rfc.Signer, tested. -/
def signerCheck (sd : SuiteDesc) (t : VTree) (leaf : UInt32) (key : Bytes) : Bool :=
  match nodeAt t (2 * leaf.toNat) with
  | some (.leaf old) => decide (old.signatureKey = (toyPrims.sigKeyPair sd.sig key).1 ∧ key = (toyPrims.sigKeyPair sd.sig key).2)
  | _ => false

theorem signerCheck_true {sd : SuiteDesc} {t : VTree} {leaf : UInt32} {key : Bytes} (h : signerCheck sd t leaf key = true) :
    Spec.Rfc.Signer toyPrims sd t leaf key := by
  unfold signerCheck at h
  split at h
  · next old ho => exact ⟨old, _, ho, of_decide_eq_true h⟩
  · cases h

/-- A conversation, in which every commit is to all proposals before it, by reference, and has a path. -/
def talkCheck (sd : SuiteDesc) (my : UInt32) : Spec.Epoch → Ratchet.Any ParentNode → List PendingProposal → List ToyAct → Bool
  | _, _, _, [] => true
  | e, t, pending, .say leaf key data :: rest => signerCheck sd (t.2.flat .leaf .parent) leaf key &&
    match Spec.Rfc.compose toyPrims sd e.context key leaf .privateMessage [1, 2] (.application data) [] [] with
    | none => false
    | some a => (Spec.Rfc.enclose toyPrims sd e.context e.epochSecret t.1 toyEnvelope a).isSome && talkCheck sd my e t pending rest
  | e, t, pending, .propose wf leaf key p :: rest => signerCheck sd (t.2.flat .leaf .parent) leaf key &&
    (match p with | .add k => decide (k.version = 1) | _ => true) &&
    match Spec.Rfc.compose toyPrims sd e.context key leaf wf [3] (.proposal p) [] [] with
    | none => false
    | some a => (Spec.Rfc.enclose toyPrims sd e.context e.epochSecret t.1 toyEnvelope a).isSome &&
      match Spec.Rfc.refHash toyPrims sd "MLS 1.0 Proposal Reference" (Spec.Rfc.authenticatedContent a) with
      | none => false
      | some ref => talkCheck sd my e t (pending ++ [⟨ref, p, leaf⟩]) rest
  | e, t, pending, .commit wf c :: rest =>
    match Spec.Rfc.makeCommit toyPrims sd e pending t.2 wf c (pending.map fun x => .reference x.ref) true with
    | none => false
    | some m => (Spec.Rfc.commitMessage toyPrims sd e t.1 toyEnvelope m).isSome &&
      stepCheck sd e.context my pending t c (pending.map fun x => .reference x.ref) m && talkCheck sd my m.epoch m.tree [] rest

theorem talkCheck_true {sd : SuiteDesc} {my : UInt32} {acts : List ToyAct} {e : Spec.Epoch} {t : Ratchet.Any ParentNode} {pending : List PendingProposal}
    (h : talkCheck sd my e t pending acts = true) :
    ∃ talk e' t' pending', talk.map Prod.snd = acts.map ToyAct.data ∧ Spec.Rfc.Talk toyPrims sd my e t pending talk e' t' pending' := by
  induction acts generalizing e t pending with
  | nil => exact ⟨[], e, t, pending, rfl, .nil _ _ _⟩
  | cons x acts ih =>
    cases x with
    | say leaf key data =>
      simp only [talkCheck, Bool.and_eq_true] at h
      obtain ⟨h1, h2⟩ := h
      split at h2
      · cases h2
      · next a ha =>
        simp only [Bool.and_eq_true] at h2
        obtain ⟨raw, hraw⟩ := Option.isSome_iff_exists.1 h2.1
        obtain ⟨talk, e', t', p', g1, g2⟩ := ih h2.2
        exact ⟨(raw, some data) :: talk, e', t', p', by simp [g1, ToyAct.data], .application (signerCheck_true h1) ha hraw g2⟩
    | propose wf leaf key p =>
      simp only [talkCheck, Bool.and_eq_true] at h
      obtain ⟨⟨h1, h3⟩, h2⟩ := h
      split at h2
      · cases h2
      · next a ha =>
        simp only [Bool.and_eq_true] at h2
        obtain ⟨raw, hraw⟩ := Option.isSome_iff_exists.1 h2.1
        replace h2 := h2.2
        split at h2
        · cases h2
        · next ref href =>
          obtain ⟨talk, e', t', p', g1, g2⟩ := ih h2
          refine ⟨(raw, none) :: talk, e', t', p', by simp [g1, ToyAct.data], .proposal (signerCheck_true h1) ha hraw (fun k hk => ?_) href g2⟩
          subst hk
          exact of_decide_eq_true h3
    | commit wf c =>
      simp only [talkCheck] at h
      split at h
      · cases h
      · next m hm =>
        simp only [Bool.and_eq_true] at h
        obtain ⟨⟨h1, h2⟩, h3⟩ := h
        obtain ⟨raw, hraw⟩ := Option.isSome_iff_exists.1 h1
        obtain ⟨talk, e', t', p', g1, g2⟩ := ih h3
        obtain ⟨k2, k3, k4, k5, k6, k7⟩ := stepCheck_true h2
        exact ⟨(raw, none) :: talk, e', t', p', by simp [g1, ToyAct.data], .commit hm hraw k2 k3 (fun _ => k4) k5 (fun _ => k6) k7 g2⟩

/-- A new leaf node for the creator of the group of three. -/
def toyRenewed : LeafNode := { (toyMember 0).pub.leafNode with encryptionKey := [9, 77], source := .update }

/-- The member at leaf 1 says something; the creator proposes to update itself; the member at leaf 1 commits to that; the creator says something in the new
epoch; the member at leaf 1 proposes to remove the creator, commits to that, and says something. -/
def toyConversation : List ToyAct :=
  [.say 1 [11, 1] [104, 105], .propose .publicMessage 0 [11, 0] (.update toyRenewed), .commit .privateMessage (toyCommitter 9), .say 0 [11, 0] [],
   .propose .privateMessage 1 [11, 1] (.remove 0), .commit .publicMessage (toyCommitter 8), .say 1 [11, 1] [42]]

set_option maxRecDepth 100000 in
/-- **A concrete case for C121**: the member at leaf 2 of the group of three listens. -/
example : ∃ a b c : GroupState, toyThree = .ok (a, b, c) ∧ ∃ sd talk e' t' p',
    talk.map Prod.snd = [some [104, 105], none, none, some [], none, none, some [42]] ∧
    Spec.Rfc.Talk toyPrims sd c.group.myLeafIndex c.group.keyState ⟨2, ratchetOf c.vtree 2 0⟩ [] talk e' t' p' ∧
    ∀ msgs : List (Bytes × GoTime), msgs.map Prod.fst = talk.map Prod.fst → ∃ st', processAll toyPrims c msgs = (talk.map fun x => .ok x.2, st') ∧
      st'.vtree = t'.2.flat .leaf .parent ∧ st'.group.keyState = e' ∧ st'.group.pendingProposals = p' := by
  obtain ⟨⟨a, b, c⟩, h, hx⟩ := Res.holds_ok (x := toyThree) (f := fun x => toyKeyed x.2.2 2 && x.2.2.group.pendingProposals.isEmpty &&
    decide (x.2.2.vtree = (ratchetOf x.2.2.vtree 2 0).flat Node.leaf Node.parent) && (suite x.2.2.group.groupContext.cipherSuite).holds fun sd =>
    talkCheck sd x.2.2.group.myLeafIndex x.2.2.group.keyState ⟨2, ratchetOf x.2.2.vtree 2 0⟩ [] toyConversation)
    (by decide +kernel)
  simp only [Bool.and_eq_true, decide_eq_true_eq, List.isEmpty_iff] at hx
  obtain ⟨⟨⟨h1, hp⟩, h2⟩, h3⟩ := hx
  obtain ⟨sd, hsd, h4⟩ := Res.holds_ok h3
  obtain ⟨talk, e', t', p', g1, g2⟩ := talkCheck_true h4
  refine ⟨a, b, c, h, sd, talk, e', t', p', g1, g2, fun _ hm => ?_⟩
  obtain ⟨st', k1, k2, k3, k4, _⟩ := C121_talk toyPrims_correct g2 (toyThree_reachable h).2.2 (toyKeyed_true h1) hsd rfl h2 rfl hp hm
  exact ⟨st', k1, k2, k3, k4⟩

set_option maxRecDepth 100000 in
/-- **A concrete case for C121_sends**: in the group of three, the creator sends data and invites another member. -/
example : ∃ a b c : GroupState, toyThree = .ok (a, b, c) ∧ (∃ raw, createApplicationMessage toyPrims a [1, 2] [] ⟨1, 2, 3, 4⟩ = .ok raw) ∧
    ∃ w raw, (createWelcome toyPrims a [(toyMember 3).pub] default).1 = .ok (w, raw) := by
  obtain ⟨⟨a, b, c⟩, h, hx⟩ := Res.holds_ok (x := toyThree) (f := fun x =>
    ((createApplicationMessage toyPrims x.1 [1, 2] [] ⟨1, 2, 3, 4⟩).holds fun _ => true) &&
    (createWelcome toyPrims x.1 [(toyMember 3).pub] default).1.holds fun _ => true) (by decide +kernel)
  simp only [Bool.and_eq_true] at hx
  obtain ⟨raw, h1, _⟩ := Res.holds_ok hx.1
  obtain ⟨⟨w, raw'⟩, h2, _⟩ := Res.holds_ok hx.2
  exact ⟨a, b, c, h, ⟨raw, h1⟩, w, raw', h2⟩

end Mls
