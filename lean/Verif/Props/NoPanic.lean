import Verif.Proofs.FineGroup
import Verif.Props.Panics
import Verif.Props.PathSecret
import Verif.Props.Invariant
/-
C49: which messages cannot make a member panic.
-/
namespace Mls

open Spec (nodeAt)

variable {pr : Prims}

/-- The message names leaves of the group only: its claimed sender is inside the tree (if it is for this
group and epoch), and a commit, once authenticated, removes members only. -/
structure Spec.NamesLeaves (pr : Prims) (st : GroupState) (raw : Bytes) : Prop where
  /-- The sender written in a public message. -/
  pub : ∀ v m li, unmarshal MlsMessage.dec raw = .ok ⟨v, .publicMessage m⟩ →
    m.content.groupID = st.group.groupContext.groupID → m.content.epoch = st.group.groupContext.epoch →
    m.content.sender = .member li → 2 * li.toNat < st.vtree.length
  /-- The sender in the sender data of a private message, which only members can encrypt. -/
  priv : ∀ v m secret sd, unmarshal MlsMessage.dec raw = .ok ⟨v, .privateMessage m⟩ →
    m.groupID = st.group.groupContext.groupID → m.epoch = st.group.groupContext.epoch →
    Mls.deriveSecret pr st.group.groupContext.cipherSuite st.group.epochSecret lblSenderData = .ok secret →
    m.decryptSenderData pr st.group.groupContext.cipherSuite secret = .ok sd → 2 * sd.leafIndex.toNat < st.vtree.length
  /-- The members removed by a commit. -/
  removes : ∀ a e c, Carries pr st raw a e → a.content.content = .commit c → ∀ li, Spec.Removes st c li →
    li.toNat < 2 ^ 31 ∧ ∃ l, nodeAt st.vtree (2 * li.toNat) = some (.leaf l)

/-- The signature keys of the members, and those of the new leaves that a commit has checked, can be read. In the
suites with Ed25519 and Ed448 this always holds (readable_edwards). -/
structure Spec.ReadableKeys (pr : Prims) (st : GroupState) (raw : Bytes) : Prop where
  members : ∀ x l, nodeAt st.vtree x = some (.leaf l) → Spec.Readable pr st.group.groupContext.cipherSuite l.signatureKey
  commit : ∀ a e c, Carries pr st raw a e → a.content.content = .commit c → Spec.ReadableCommit pr st c

theorem readable_edwards {st : GroupState} (h : st.group.groupContext.cipherSuite.toNat ≠ 2 ∧ st.group.groupContext.cipherSuite.toNat ≠ 5 ∧
    st.group.groupContext.cipherSuite.toNat ≠ 7) (raw : Bytes) : Spec.ReadableKeys pr st raw :=
  ⟨fun _ _ _ => C41_edwards pr _ h _, fun _ _ _ _ _ => ⟨fun _ _ => C41_edwards pr _ h _, fun _ _ => C41_edwards pr _ h _⟩⟩

theorem inside_num {st : GroupState} (hi : GroupInv pr st) {li : Nat} (h : 2 * li < st.vtree.length) :
    li < treeNumLeaves st.group.tree := by
  obtain ⟨d, hd, hl⟩ := hi.tree.complete
  rw [numLeaves_pow hd hl]
  unfold GroupState.vtree at h
  rw [derefTree_length, hl, Nat.pow_succ] at h
  omega

/-- **C49**, for messages naming leaves of the group: in every group in use with a supported suite and room in
its tree, whatever bytes arrive, UnmarshalAndProcessMessage returns. Missing: the messages excluded, for
which it panics (C49_refuted, C49_remove, C80_outsider), and the suites 4, 5 and 6 (C41). -/
theorem C49_partial (hc : pr.Correct) {st : GroupState} (hr : Reachable pr st)
    (hsup : supported st.group.groupContext.cipherSuite = .ok true) (hroom : st.group.tree.length < 2 ^ 31)
    (raw : Bytes) (now : GoTime) (hn : Spec.NamesLeaves pr st raw) (hkeys : Spec.ReadableKeys pr st raw) :
    (unmarshalAndProcessMessage pr st raw now).1.Fine := by
  have hi := hr.inv hc
  have hf := hr.fineInv hc
  have htree : ReadableTree pr st.group.groupContext.cipherSuite st.vtree := fun x l hx => hkeys.members x l (nodeAt_eq hx)
  have done : ∀ a e, Carries pr st raw a e → 2 * a.content.sender.leafIndex.toNat < st.vtree.length →
      (unmarshalAndProcessMessage pr st raw now).1.Fine := by
    intro a e ha hin
    obtain ⟨hread, hmem⟩ := ha.sender
    rw [Nat.mod_eq_of_lt (nodeOfLeaf_inside hi (inside_num hi hin)).2] at hmem
    rw [upm_of_carries ha]
    exact dispatch_fine hc hi hf hsup hread (fun k hk => hkeys.commit a e k ha hk) hmem
      (fun k hk li hli => ⟨(hn.removes a e k ha hk li hli).1, member_iff.2 (hn.removes a e k ha hk li hli).2⟩) hroom now e
  have hsafe := unmarshal_safe message_safe raw
  rcases hd : unmarshal MlsMessage.dec raw with ⟨v, body⟩ | _ | _ | _
  · cases body with
    | publicMessage m =>
      have hfine := verifyPublicMessage_fine hi hf (message_yields.unmarshal hd m rfl).known htree
        fun li hg he hs => inside_num hi (hn.pub v m li hd hg he hs)
      rcases hv : verifyPublicMessage pr st m with a | _ | _ | _
      · refine done a false (.pub hd hv) ?_
        unfold verifyPublicMessage at hv
        simp only [Res.bind_ok_iff, Res.guardErr_ok_iff, beq_iff_eq] at hv
        obtain ⟨_, hg, _, he, hv⟩ := hv
        split at hv
        · next li hs =>
          simp only [Res.bind_ok_iff] at hv
          obtain ⟨_, _, _, _, _, _, _, _, _, _, _, _, _, _, hv⟩ := hv
          cases hv
          have := hn.pub v m li hd hg he hs
          rw [show m.authenticatedContent.content.sender = .member li from hs]
          exact this
        · cases hv
      · unfold unmarshalAndProcessMessage
        rw [hd]
        simp only [processPublicMessage, hv]
        exact Res.fine_err
      · rw [hv] at hfine; exact absurd rfl hfine.1
      · rw [hv] at hfine; exact absurd rfl hfine.2
    | privateMessage m =>
      have hfine := decryptPrivateMessage_fine hc hi hf (m := m) htree
        fun secret sd hg he h1 h2 => inside_num hi (hn.priv v m secret sd hd hg he h1 h2)
      rcases hv : decryptPrivateMessage pr st m with a | _ | _ | _
      · refine done a true (.priv hd hv) ?_
        unfold decryptPrivateMessage at hv
        simp only [Res.bind_ok_iff, Res.guardErr_ok_iff, beq_iff_eq] at hv
        obtain ⟨_, hg, _, he, secret, h1, sd, h2, _, _, _, _, _, _, _, _, c, _, _, _, _, _, _, _, _, _, hv⟩ := hv
        cases hv
        exact hn.priv v m secret sd hd hg he h1 h2
      · unfold unmarshalAndProcessMessage
        rw [hd]
        simp only [processPrivateMessage, hv]
        exact Res.fine_err
      · rw [hv] at hfine; exact absurd rfl hfine.1
      · rw [hv] at hfine; exact absurd rfl hfine.2
    | _ =>
      unfold unmarshalAndProcessMessage
      rw [hd]
      exact Res.fine_err
  · unfold unmarshalAndProcessMessage
    rw [hd]
    exact Res.fine_err
  · rw [hd] at hsafe; exact absurd rfl hsafe.1
  · rw [hd] at hsafe; exact absurd rfl hsafe.2

/-! ### Witnesses -/

/-- The hypotheses are met by a group that 0 created and in which it invited 1, and by a commit of 1 with a path. -/
def toyFits (a : GroupState) (raw : Bytes) : Bool :=
  decide (supported a.group.groupContext.cipherSuite = .ok true) && decide (a.group.tree.length < 2 ^ 31) &&
  Res.holds (unmarshal MlsMessage.dec raw) fun msg =>
    match msg.body with
    | .publicMessage m =>
      (match m.content.sender with | .member li => decide (2 * li.toNat < a.vtree.length) | _ => false) &&
      (match m.content.content with | .commit c => decide (c.proposals = []) && c.path.isSome | _ => false)
    | _ => false

theorem toyFits_names {a : GroupState} {raw : Bytes} (h : toyFits a raw = true) :
    supported a.group.groupContext.cipherSuite = .ok true ∧ a.group.tree.length < 2 ^ 31 ∧ Spec.NamesLeaves toyPrims a raw := by
  unfold toyFits at h
  simp only [Bool.and_eq_true, decide_eq_true_eq] at h
  obtain ⟨⟨h1, h2⟩, h3⟩ := h
  refine ⟨h1, h2, ?_⟩
  obtain ⟨⟨v, body⟩, hd, h3⟩ := Res.holds_ok h3
  cases body with
  | publicMessage m =>
    simp only [Bool.and_eq_true] at h3
    obtain ⟨h3, h4⟩ := h3
    constructor
    · intro v' m' li hd' _ _ hs
      rw [hd] at hd'
      cases hd'
      rw [hs] at h3
      exact of_decide_eq_true h3
    · intro v' m' _ _ hd'
      rw [hd] at hd'
      cases hd'
    · intro b e c hb hc li hli
      cases hb with
      | pub hd' hv =>
        rw [hd] at hd'
        cases hd'
        have : b.content = m.content := by
          unfold verifyPublicMessage at hv
          simp only [Res.bind_ok_iff] at hv
          obtain ⟨_, _, _, _, hv⟩ := hv
          split at hv
          · simp only [Res.bind_ok_iff] at hv
            obtain ⟨_, _, _, _, _, _, _, _, _, _, _, _, _, _, hv⟩ := hv
            cases hv
            rfl
          · cases hv
        rw [← this, hc] at h4
        simp only [Bool.and_eq_true, decide_eq_true_eq] at h4
        rcases hli with h | ⟨_, _, h, _⟩ <;> simp [h4.1] at h
      | priv hd' _ =>
        rw [hd] at hd'
        cases hd'
  | _ => cases h3

example : ∃ a raw, Reachable toyPrims a ∧ supported a.group.groupContext.cipherSuite = .ok true ∧
    a.group.tree.length < 2 ^ 31 ∧ Spec.NamesLeaves toyPrims a raw ∧
    (unmarshalAndProcessMessage toyPrims a raw toyLater).1 = .ok none := by
  have key : Res.holds toyTwo (fun p => toyFits p.1 (toyCommit p.1 1 1 [] (List.replicate 32 9) []) &&
      decide ((unmarshalAndProcessMessage toyPrims p.1 (toyCommit p.1 1 1 [] (List.replicate 32 9) []) toyLater).1 = .ok none)) = true := by
    decide +kernel
  obtain ⟨⟨a, b⟩, ht, key⟩ := Res.holds_ok key
  rw [Bool.and_eq_true] at key
  obtain ⟨h1, h2, h3⟩ := toyFits_names key.1
  exact ⟨a, _, (toyTwo_reachable ht).1, h1, h2, h3, of_decide_eq_true key.2⟩

/-- A commit by the member `name` claiming to be leaf `i`, removing leaf `li`, with a valid leaf and an empty path. -/
def toyRemoves (st : GroupState) (i : UInt32) (name : UInt8) (li : UInt32) : Bytes :=
  let leaf : LeafNode := { (toyMember name).pub.leafNode with encryptionKey := [9, 101, name], source := .commit [] }
  match leaf.sign toyPrims 1 st.group.groupContext.groupID i [11, name] [] with
  | .ok leaf => toyPublic st i name (.commit ⟨[.proposal (.remove li)], some ⟨leaf, []⟩⟩) [1]
  | _ => []

/-- Members can make each other panic: in a group that 0 created and in which it invited 1, an authentic commit of 1
that removes leaf 5, which does not exist, panics at 0. -/
theorem C49_remove : ∃ a raw, Reachable toyPrims a ∧ (∃ b, Carries toyPrims a raw b false) ∧
    (unmarshalAndProcessMessage toyPrims a raw toyLater).1 = .panic := by
  have key : Res.holds toyTwo (fun p => Res.holds (unmarshal MlsMessage.dec (toyRemoves p.1 1 1 5)) fun msg =>
      match msg.body with
      | .publicMessage m => Res.holds (verifyPublicMessage toyPrims p.1 m) fun _ =>
          decide ((unmarshalAndProcessMessage toyPrims p.1 (toyRemoves p.1 1 1 5) toyLater).1 = .panic)
      | _ => false) = true := by
    decide +kernel
  obtain ⟨⟨a, b⟩, ht, key⟩ := Res.holds_ok key
  obtain ⟨⟨v, body⟩, hd, key⟩ := Res.holds_ok key
  cases body with
  | publicMessage m =>
    obtain ⟨c, hv, key⟩ := Res.holds_ok key
    exact ⟨a, _, (toyTwo_reachable ht).1, ⟨c, .pub hd hv⟩, of_decide_eq_true key⟩
  | _ => cases key

/-- Likewise a member that removes itself, claiming to be leaf 2^31 + 1: the index passes for that of leaf 1 when the
message is authenticated, but not when the removal is compared with the committer. -/
theorem C49_alias : ∃ a raw, Reachable toyPrims a ∧ (∃ b, Carries toyPrims a raw b false) ∧
    (unmarshalAndProcessMessage toyPrims a raw toyLater).1 = .panic := by
  have key : Res.holds toyTwo (fun p => Res.holds (unmarshal MlsMessage.dec (toyRemoves p.1 (2 ^ 31 + 1) 1 1)) fun msg =>
      match msg.body with
      | .publicMessage m => Res.holds (verifyPublicMessage toyPrims p.1 m) fun _ =>
          decide ((unmarshalAndProcessMessage toyPrims p.1 (toyRemoves p.1 (2 ^ 31 + 1) 1 1) toyLater).1 = .panic)
      | _ => false) = true := by
    decide +kernel
  obtain ⟨⟨a, b⟩, ht, key⟩ := Res.holds_ok key
  obtain ⟨⟨v, body⟩, hd, key⟩ := Res.holds_ok key
  cases body with
  | publicMessage m =>
    obtain ⟨c, hv, key⟩ := Res.holds_ok key
    exact ⟨a, _, (toyTwo_reachable ht).1, ⟨c, .pub hd hv⟩, of_decide_eq_true key⟩
  | _ => cases key

end Mls
