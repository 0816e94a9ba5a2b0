import Verif.Props.Calls
import Verif.Props.Accept
/-
C80: signature keys that cannot be read.
-/
namespace Mls

open Spec (nodeAt)

variable {pr : Prims}

/-- The signature keys of all members can be read. -/
def Spec.ReadableMembers (pr : Prims) (st : GroupState) : Prop :=
  ∀ x l, nodeAt st.vtree x = some (.leaf l) → Spec.Readable pr st.group.groupContext.cipherSuite l.signatureKey

/-- A leaf node that a commit puts in the place of the sender of an Update proposal. -/
def Spec.UpdatesTo (st : GroupState) (c : Commit) (l : LeafNode) : Prop :=
  .proposal (.update l) ∈ c.proposals ∨
    ∃ pp ∈ st.group.pendingProposals, .reference pp.ref ∈ c.proposals ∧ pp.proposal = .update l

/-- A key under which something verifies can be read. -/
theorem readable_of_sig (hc : pr.Correct) {cs : UInt16} {key content sig : Bytes} {label : String}
    (h : Spec.ValidSig pr cs key label content sig) : Spec.Readable pr cs key := by
  obtain ⟨d, m, h1, -, h3⟩ := h
  intro d' hd' _
  rw [← suite_iff_spec] at h1
  obtain rfl := Res.ok.inj (hd'.symm.trans h1)
  exact hc.verify_readable _ _ _ _ h3

theorem readableMembers_iff {st : GroupState} :
    Spec.ReadableMembers pr st ↔ AllLeaves (fun l => Spec.Readable pr st.group.groupContext.cipherSuite l.signatureKey) st.group.tree := by
  constructor
  · intro h x l hx
    exact h x l (nodeAt_eq (derefTree_leaf.2 hx))
  · intro h x l hx
    exact h x l (derefTree_leaf.1 (nodeAt_some.1 hx))

/-- **C80.** After joining, the keys of all members can be read. -/
theorem C80_join (hc : pr.Correct) {w : Welcome} {kp : KeyPairPackage} {now : GoTime} {st : GroupState}
    (h : groupFromWelcome pr w kp now = .ok st) : Spec.ReadableMembers pr st := by
  obtain ⟨sd, d, hsd, hd, s, hs⟩ := C29_join hc h
  intro x l hx
  have heven : x % 2 = 0 := (isTree_iff.2 ⟨d, by omega, s, hs.array⟩).2.1 x l (nodeAt_some.1 hx)
  obtain ⟨i, rfl⟩ : ∃ i, x = 2 * i := ⟨x / 2, by omega⟩
  have hlt := nodeAt_lt hx
  have hlen : st.vtree.length = 2 ^ (d + 1) - 1 := by rw [hs.array]; exact flat_length _ _ s
  obtain ⟨tbs, _, hsig⟩ := (hs.leaves i l (by rw [hlen, Nat.pow_succ] at hlt; omega) hx).signature
  exact readable_of_sig hc hsig

/-- **C80.** After creating a group with a key that can be read, the same. -/
theorem C80_create {id : Bytes} {kp : KeyPairPackage} {rand : Nat → UInt8} {st : GroupState} (h : createGroup pr id kp rand = .ok st)
    (hk : Spec.Readable pr kp.pub.cipherSuite kp.pub.leafNode.signatureKey) : Spec.ReadableMembers pr st := by
  rw [readableMembers_iff]
  unfold createGroup at h
  simp only [Res.bind_ok_iff] at h
  obtain ⟨⟨hp, t⟩, h1, pt, h2, th, hth, d, h3, _, _, _, _, _, _, _, _, h⟩ := h
  have e : treeAdd [] [none] kp.pub.leafNode = .ok ([], [some (.leaf kp.pub.leafNode)]) := rfl
  rw [e] at h1
  cases h1
  cases h
  intro x l hx
  cases x with
  | zero =>
    simp only [List.getElem?_cons_zero, Option.some.injEq, TNode.leaf.injEq] at hx
    subst hx
    exact hk
  | succ x => simp at hx

theorem verifyAdds_valid {ctx : GroupContext} {ps : List Proposal} (h : verifyAdds pr ctx ps = .ok ()) :
    ∀ k, .add k ∈ ps → k.verify pr ctx = .ok () := by
  induction ps with
  | nil => intro k hk; cases hk
  | cons p ps ih =>
    intro k hk
    cases p with
    | add k' =>
      simp only [verifyAdds, Res.bind_ok_iff] at h
      obtain ⟨u, h1, h2⟩ := h
      rcases List.mem_cons.1 hk with e | hk
      · cases e; exact h1
      · exact ih h2 k hk
    | update | remove | psk | reInit | externalInit | groupContextExtensions =>
      rcases List.mem_cons.1 hk with e | hk
      · cases e
      · exact ih h k hk

/-- **C80.** Whatever message is processed, and however that ends, the keys of all members can still be read, unless an Update
proposal brought one that cannot. -/
theorem C80_message (hc : pr.Correct) {st st' : GroupState} (hr : Reachable pr st) (hkeys : Spec.ReadableMembers pr st) {raw : Bytes}
    {now : GoTime} {r : Res (Option Bytes)} (h : unmarshalAndProcessMessage pr st raw now = (r, st'))
    (hup : ∀ a e c, Carries pr st raw a e → a.content.content = .commit c → ∀ l, Spec.UpdatesTo st c l →
      Spec.Readable pr st.group.groupContext.cipherSuite l.signatureKey) : Spec.ReadableMembers pr st' := by
  have hi := hr.inv hc
  have hcs : st'.group.groupContext.cipherSuite = st.group.groupContext.cipherSuite := by
    have := (message_effect (pr := pr) st raw now).1
    rw [h] at this
    exact this.cipherSuite
  rw [readableMembers_iff] at hkeys ⊢
  rw [hcs]
  by_cases ho : ∃ d, r = .ok d
  · obtain ⟨d, rfl⟩ := ho
    obtain ⟨a, e, hca, ⟨p, hp, _, hpp⟩ | ⟨c, hcm, _, hpc⟩ | ⟨_, _, _, rfl, _⟩⟩ := accepted_cases h
    · rcases processProposal_cases (pr := pr) st a p hp with ⟨ref, _, he⟩ | ⟨hne, _⟩
      · rw [hpp] at he
        obtain rfl := (Prod.mk.inj he).2
        exact hkeys
      · rw [hpp] at hne
        exact absurd rfl hne
    · rcases processCommit_cases (pr := pr) st a c hcm [] [] now with ⟨ps, ss, hp, t, st1, h1, h2, h3, h4⟩ | ⟨hne, _⟩
      · rw [hpc] at h4
        obtain rfl := (Prod.mk.inj h4).2
        have hcp := h1
        unfold checkProposals at hcp
        simp only [Res.bind_ok_iff] at hcp
        obtain ⟨⟨ps', ss'⟩, hx, _, _, _, hva, _, _, he⟩ := hcp
        obtain ⟨e1, e2⟩ : ps' = ps ∧ ss' = ss := Prod.mk.inj (Res.ok.inj he)
        subst ps' ss'
        obtain ⟨l1, l2, l3⟩ := resolveProposals_spec _ _ _ hx
        have hmem : ∀ p ∈ ps, .proposal p ∈ c.proposals ∨
            ∃ pp ∈ st.group.pendingProposals, .reference pp.ref ∈ c.proposals ∧ pp.proposal = p := by
          intro p hp
          obtain ⟨i, hi, rfl⟩ := List.mem_iff_getElem.1 hp
          rcases l3 i ps[i] (ss[i]'(by omega)) (List.getElem?_eq_getElem _) (List.getElem?_eq_getElem _) with ⟨h, _⟩ | ⟨pp, h, hm, h', _⟩
          · exact .inl h
          · exact .inr ⟨pp, h, hm, h'.symm⟩
        have hkn := AllLeaves.apply hkeys (fun l hl => hup a e c hca hcm l (hmem _ hl)) (fun k hk => by
          obtain ⟨_, hs, _, ⟨tbs, _, hsig⟩, _⟩ := (C59_verify pr k _).1 (verifyAdds_valid hva k hk)
          rw [hs] at hsig
          exact readable_of_sig hc hsig) h2
        obtain ⟨hsd, pt, hpt, hcase⟩ := finishCommit_parts h3
        rcases hcase with ⟨_, _, ht, _⟩ | ⟨path, ctx', sec, hpath, hcp⟩
        · rw [ht]; exact hkn
        · obtain ⟨leaf, th, hg, hm, -⟩ := commitPath_ok hcp
          have hmem := member_of_getLeaf hg
          rw [mergeUpdatePath_mod] at hm
          obtain ⟨_, _, _, _, _, _, _, _, _, _, _, _, _, hvalid, _⟩ := C67_partial hcm hpath hpc
          obtain ⟨tbs, _, hsig⟩ := hvalid.signature
          rcases (treeApply_effect (.inr hi.tree) h2).1 with rfl | hv
          · have := hmem.lt
            simp at this
          · exact hkn.merge hc hsd hv hmem.lt (readable_of_sig hc hsig) hm
      · rw [hpc] at hne
        exact absurd rfl hne
    · exact hkeys
  · rcases rejected_cases h (fun d hd => ho ⟨d, hd⟩) with rfl | ⟨a, e, c, ps, ss, h, t, _, _, _, h2, rfl, _⟩
    · exact hkeys
    · exact hkeys

/-- **C80.** An invitation changes nothing about it for the inviter. -/
theorem C80_invite {st st' : GroupState} (hkeys : Spec.ReadableMembers pr st) {kps : List KeyPackage} {rnd : WelcomeRand}
    {o : Res (Welcome × Bytes)} (h : createWelcome pr st kps rnd = (o, st')) : Spec.ReadableMembers pr st' := by
  rw [readableMembers_iff] at hkeys ⊢
  unfold createWelcome at h
  split at h
  · cases h; exact hkeys
  · split at h
    · cases h; exact hkeys
    all_goals cases h; exact hkeys

/-- Once the key of a member cannot be read, whoever knows the group id and the epoch can make the other members panic: with a message in
the clear that claims to be from this member, whatever its signature and tags are. -/
theorem C80_outsider {st : GroupState} {raw : Bytes} (now : GoTime) {v : UInt16} {m : PublicMessage} {li : UInt32} {l : LeafNode} {d : SuiteDesc}
    {tbs x : Bytes} (hm : unmarshal MlsMessage.dec raw = .ok ⟨v, .publicMessage m⟩)
    (hg : m.content.groupID = st.group.groupContext.groupID) (he : m.content.epoch = st.group.groupContext.epoch)
    (hs : m.content.sender = .member li) (hl : nodeAt st.vtree (Spec.leafNumber li) = some (.leaf l))
    (hd : suite st.group.groupContext.cipherSuite = .ok d) (hec : d.sig.ecdsa = true)
    (htbs : encFramedContentTBS .publicMessage m.content st.group.groupContext = .ok tbs) (hx : encSignContent lblFramedContentTBS tbs = .ok x)
    (hun : pr.verify d.sig l.signatureKey x m.auth.signature = none) :
    unmarshalAndProcessMessage pr st raw now = (.panic, st) := by
  have : verifyPublicMessage pr st m = .panic := by
    unfold verifyPublicMessage
    simp only [beq_iff_eq.2 hg, beq_iff_eq.2 he, Res.guardErr_true, Res.ok_bind, hs]
    have hgl : getLeaf st.vtree li.toNat = .ok (some l) := getLeaf_ok_some_iff.2 (nodeAt_some.1 hl)
    rw [hgl]
    simp only [Res.ok_bind, orErr]
    have : m.authenticatedContent.verifySignature pr l.signatureKey st.group.groupContext = .panic := by
      unfold AuthenticatedContent.verifySignature
      have e : encFramedContentTBS m.authenticatedContent.wireFormat m.authenticatedContent.content st.group.groupContext = .ok tbs := htbs
      rw [e]
      exact C41_unreadable pr _ d hd hec _ _ _ _ x hx hun
    rw [this]
    rfl
  unfold unmarshalAndProcessMessage
  rw [hm]
  simp only [processPublicMessage, this]

/-- Before anything in it is authenticated: a welcome that opens, and names a suite with ECDSA and a signer whose key cannot be read, makes
the receiver panic, whatever the suite of the receiver's key package is. -/
theorem C80_welcome (w : Welcome) (kp : KeyPairPackage) (now : GoTime) {ref : Bytes} {gs : GroupSecrets} {psk : Bytes} {info : GroupInfo} {raw : Bytes}
    {t : VTree} {l : LeafNode} {d : SuiteDesc} {tbs x : Bytes} (h1 : kp.pub.generateRef pr = .ok ref)
    (h2 : w.decryptGroupSecrets pr ref kp.priv.initKey = .ok gs) (h3 : gs.psks = [])
    (h4 : extractPSKSecret pr w.cipherSuite gs.psks [] = .ok psk) (h5 : w.decryptGroupInfo pr gs.joinerSecret psk = .ok info)
    (h6 : findExtensionData info.extensions 2 = some raw) (h7 : unmarshal decTree raw = .ok t)
    (h8 : nodeAt t (Spec.leafNumber info.signer) = some (.leaf l)) (hd : suite info.groupContext.cipherSuite = .ok d) (hec : d.sig.ecdsa = true)
    (htbs : info.encTBS = .ok tbs) (hx : encSignContent lblGroupInfoTBS tbs = .ok x) (hun : pr.verify d.sig l.signatureKey x info.signature = none) :
    groupFromWelcome pr w kp now = .panic := by
  unfold groupFromWelcome
  rw [h1, Res.ok_bind, h2, Res.ok_bind]
  have e : gs.verifySingleReinitOrBranchPSK = true := by
    unfold GroupSecrets.verifySingleReinitOrBranchPSK
    rw [h3]
    rfl
  rw [e, Res.guardErr_true, Res.ok_bind, h3]
  simp only [List.length_nil, beq_self_eq_true, Res.guardErr_true, Res.ok_bind]
  unfold groupFromSecrets
  rw [h4, Res.ok_bind, h5, Res.ok_bind, Option.none_or, h6]
  simp only [orErr, Res.ok_bind]
  have hgl : getLeaf t info.signer.toNat = .ok (some l) := getLeaf_ok_some_iff.2 (nodeAt_some.1 h8)
  rw [h7, Res.ok_bind, hgl]
  simp only [Res.ok_bind]
  have : info.verifySignature pr l.signatureKey = .panic := by
    unfold GroupInfo.verifySignature
    rw [htbs]
    exact C41_unreadable pr _ d hd hec _ _ _ _ x hx hun
  rw [this]
  rfl

/-! ### Witnesses -/

/-- A key package of suite 2 (P-256 and ECDSA), generated with keys made of its name. -/
def toyPoint (name : UInt8) : KeyPairPackage :=
  match generateKeyPairPackage toyPrims 2 (.basic [name])
      { init := [12, name], enc := [10, name], sig := [11, name], leafSign := [], pkgSign := [],
        now1 := toyNow, now2 := toyNow } with
  | .ok k => k
  | _ => default

/-- The group of suite 2 that `0` created and to which they invited `1` and `2`, seen by `0`, and the welcome of `1` and `2`. -/
def toyPoints : Res (GroupState × Welcome) := do
  let a ← createGroup toyPrims [7] (toyPoint 0) (fun _ => 3)
  match createWelcome toyPrims a [(toyPoint 1).pub, (toyPoint 2).pub] default with
  | (.ok (w, raw), a) => do
    let a ← a.after raw
    return (a, w)
  | _ => .err

theorem toyPoints_reachable {a : GroupState} {w : Welcome} (h : toyPoints = .ok (a, w)) : Reachable toyPrims a := by
  unfold toyPoints at h
  simp only [Res.bind_ok_iff] at h
  obtain ⟨a0, h0, h⟩ := h
  split at h
  · rename_i w1 raw a1 h1
    simp only [Res.bind_ok_iff] at h
    obtain ⟨a2, h2, h⟩ := h
    obtain ⟨rfl, rfl⟩ := Prod.mk.inj (Res.ok.inj h)
    exact (Reachable.invite (.create h0) h1 (Res.fine_ok _)).after h2
  · cases h

/-- The leaf of `1` with a signature key that cannot be read, and no signature. -/
def toyUnread (a : GroupState) : LeafNode :=
  match getLeaf a.vtree 1 with
  | .ok (some l) => { l with signatureKey := [], signature := [] }
  | _ => default

/-- `1` proposes to replace their leaf by that, and `2` commits to the proposal. -/
def toyUnreadable (a : GroupState) : Res GroupState := do
  let a ← a.after (toyPublic a 1 1 (.proposal (.update (toyUnread a))) [])
  a.after (toyCommitPending a 2 2 (List.replicate 32 9))

/-- A message in the clear that claims to be from `1`, without signature and membership tag: it takes the group id and the epoch only. -/
def toyClaim (id : Bytes) (epoch : UInt64) : Bytes :=
  match MlsMessage.enc ⟨1, .publicMessage {
    content := { groupID := id, epoch, sender := .member 1, authenticatedData := [], content := .proposal (.remove 0) },
    auth := ⟨[], []⟩, membershipTag := [] }⟩ with
  | .ok b => b
  | _ => []

/-- All keys of a tree are not empty: with the toy primitives, that they can be read. -/
def toyPointed (a : GroupState) : Bool :=
  a.group.tree.all fun o => match o with
    | some (.leaf l) => !l.signatureKey.isEmpty
    | _ => true

theorem toyPointed_spec {a : GroupState} (h : toyPointed a = true) : Spec.ReadableMembers toyPrims a := by
  rw [readableMembers_iff]
  intro x l hx d _ _ m s hn
  have := (List.all_eq_true.1 h) _ (List.mem_of_getElem? hx)
  simp only [Bool.not_eq_true', List.isEmpty_eq_false_iff] at this
  simp only [toyPrims] at hn
  split at hn
  · rename_i h; simp only [Bool.and_eq_true, List.isEmpty_iff] at h; exact this h.2
  · cases hn

/-- The member 1 has an empty key, in a group of suite 2. -/
def toyPointless (a : GroupState) : Bool :=
  decide (a.group.groupContext.cipherSuite = 2) && (getLeaf a.vtree 1).holds fun o => match o with
    | some l => l.signatureKey.isEmpty
    | none => false

theorem toyPointless_spec {a : GroupState} (h : toyPointless a = true) : ¬ Spec.ReadableMembers toyPrims a := by
  intro hk
  unfold toyPointless at h
  rw [Bool.and_eq_true, decide_eq_true_eq] at h
  obtain ⟨o, ho, h2⟩ := Res.holds_ok h.2
  cases o with
  | none => cases h2
  | some l =>
    have hl : a.vtree[2]? = some (some (.leaf l)) := getLeaf_ok_some_iff.1 ho
    refine hk 2 l (nodeAt_some.2 hl) ⟨.sha256, .p256, .sha256, .aes128gcm, .ecdsaP256⟩ (by rw [h.1]; rfl) rfl [] [] ?_
    rw [List.isEmpty_iff.1 h2]
    rfl

/-- **C80 refuted.** In a group of suite 2 in which all keys can be read, a proposal and a commit of two members are accepted; after that
not all keys can be read, and a message in the clear of an outsider makes the member panic. -/
theorem C80_refuted : ∃ st st' st'' p c, Reachable toyPrims st ∧ Spec.ReadableMembers toyPrims st ∧ Reachable toyPrims st'' ∧
    unmarshalAndProcessMessage toyPrims st p toyLater = (.ok none, st') ∧
    unmarshalAndProcessMessage toyPrims st' c toyLater = (.ok none, st'') ∧ ¬ Spec.ReadableMembers toyPrims st'' ∧
    unmarshalAndProcessMessage toyPrims st'' (toyClaim st''.group.groupContext.groupID st''.group.groupContext.epoch) toyLater = (.panic, st'') := by
  have key : toyPoints.holds (fun (a, _) => toyPointed a &&
      let s1 := unmarshalAndProcessMessage toyPrims a (toyPublic a 1 1 (.proposal (.update (toyUnread a))) []) toyLater
      decide (s1.1 = .ok none) &&
      let s2 := unmarshalAndProcessMessage toyPrims s1.2 (toyCommitPending s1.2 2 2 (List.replicate 32 9)) toyLater
      decide (s2.1 = .ok none) && toyPointless s2.2 &&
      decide (unmarshalAndProcessMessage toyPrims s2.2 (toyClaim s2.2.group.groupContext.groupID s2.2.group.groupContext.epoch) toyLater =
        (.panic, s2.2))) = true := by decide +kernel
  obtain ⟨⟨a, w⟩, h, key⟩ := Res.holds_ok key
  have hr := toyPoints_reachable h
  clear h
  dsimp only at key
  generalize toyPublic a 1 1 (.proposal (.update (toyUnread a))) [] = p at key
  obtain ⟨k1, key⟩ := Bool.and_eq_true_iff.1 key
  obtain ⟨k2, key⟩ := Bool.and_eq_true_iff.1 key
  generalize h1 : unmarshalAndProcessMessage toyPrims a p toyLater = s1 at k2 key
  obtain ⟨r1, a1⟩ := s1
  obtain rfl := of_decide_eq_true k2
  dsimp only at key
  generalize toyCommitPending a1 2 2 (List.replicate 32 9) = c at key
  generalize h2 : unmarshalAndProcessMessage toyPrims a1 c toyLater = s2 at key
  obtain ⟨r2, a2⟩ := s2
  obtain ⟨key, k5⟩ := Bool.and_eq_true_iff.1 key
  obtain ⟨k3, k4⟩ := Bool.and_eq_true_iff.1 key
  obtain rfl := of_decide_eq_true k3
  exact ⟨a, a1, a2, p, c, hr, toyPointed_spec k1, .message (.message hr h1 (Res.fine_ok _)) h2 (Res.fine_ok _),
    h1, h2, toyPointless_spec k4, of_decide_eq_true k5⟩

/-- In the same group, a commit of a member that adds a key package whose key cannot be read makes another member panic. -/
theorem C80_add : ∃ st raw, Reachable toyPrims st ∧ Spec.ReadableMembers toyPrims st ∧
    (unmarshalAndProcessMessage toyPrims st raw toyLater).1 = .panic := by
  have key : toyPoints.holds (fun (a, w) => (groupFromWelcome toyPrims w (toyPoint 1) toyLater).holds fun b =>
      decide ((unmarshalAndProcessMessage toyPrims b (toyPublic a 0 0 (.commit ⟨[.proposal (.add { (toyPoint 3).pub with
        leafNode := { (toyPoint 3).pub.leafNode with signatureKey := [] } })], none⟩) []) toyLater).1 = .panic)) = true := by decide +kernel
  obtain ⟨⟨a, w⟩, h, key⟩ := Res.holds_ok key
  obtain ⟨b, hb, k⟩ := Res.holds_ok key
  exact ⟨b, _, .join hb, C80_join toyPrims_correct hb, of_decide_eq_true k⟩

/-- And a welcome for a key package of suite 1 (Ed25519), about a group of suite 2 whose signer has such a key, makes the receiver panic. -/
theorem C80_receiver : ∃ w, (toyMember 3).pub.cipherSuite = 1 ∧ w.cipherSuite = 1 ∧
    groupFromWelcome toyPrims w (toyMember 3) toyLater = .panic := by
  have key : toyPoints.holds (fun (a, _) =>
      let a' := { a with group := { a.group with tree := a.group.tree.set 0 (some (.leaf (toyUnread a))) } }
      (toyWelcome a a' 0 0 [] [] 3).holds fun w => decide ((toyMember 3).pub.cipherSuite = 1) && decide (w.cipherSuite = 1) &&
        decide (groupFromWelcome toyPrims w (toyMember 3) toyLater = .panic)) = true := by decide +kernel
  obtain ⟨⟨a, w⟩, _, key⟩ := Res.holds_ok key
  obtain ⟨w, _, k⟩ := Res.holds_ok key
  rw [Bool.and_eq_true, Bool.and_eq_true] at k
  exact ⟨w, of_decide_eq_true k.1.1, of_decide_eq_true k.1.2, of_decide_eq_true k.2⟩

/-- The hypotheses of C80_create, C80_join and C80_message are met: in a group of suite 2, where an update path is processed. -/
example : ∃ kp st w st1 st2 raw st', createGroup toyPrims [7] kp (fun _ => 3) = .ok st ∧ kp.pub.cipherSuite = 2 ∧
    Spec.Readable toyPrims kp.pub.cipherSuite kp.pub.leafNode.signatureKey ∧
    groupFromWelcome toyPrims w (toyPoint 1) toyLater = .ok st1 ∧ Reachable toyPrims st2 ∧ Spec.ReadableMembers toyPrims st2 ∧
    unmarshalAndProcessMessage toyPrims st2 raw toyLater = (.ok none, st') ∧
    (∀ a e c, Carries toyPrims st2 raw a e → a.content.content = .commit c → ∀ l, Spec.UpdatesTo st2 c l →
      Spec.Readable toyPrims st2.group.groupContext.cipherSuite l.signatureKey) ∧ st2.vtree ≠ st'.vtree := by
  have key0 : (createGroup toyPrims [7] (toyPoint 0) (fun _ => 3)).holds (fun _ => decide ((toyPoint 0).pub.cipherSuite = 2) &&
      !(toyPoint 0).pub.leafNode.signatureKey.isEmpty) = true := by decide +kernel
  have key : toyPoints.holds (fun (a, w) => (groupFromWelcome toyPrims w (toyPoint 1) toyLater).holds (fun _ => true) && (toyPointed a &&
      let raw := toyCommit a 2 2 [] (List.replicate 32 9) []
      let s := unmarshalAndProcessMessage toyPrims a raw toyLater
      decide (s.1 = .ok none) && decide (a.vtree ≠ s.2.vtree) && (unmarshal MlsMessage.dec raw).holds fun m => match m.body with
        | .publicMessage pm => (verifyPublicMessage toyPrims a pm).holds fun ac => match ac.content.content with
          | .commit c => c.proposals.isEmpty
          | _ => false
        | _ => false)) = true := by decide +kernel
  obtain ⟨st, hst, k⟩ := Res.holds_ok key0
  obtain ⟨⟨a, w⟩, h, key⟩ := Res.holds_ok key
  have hr := toyPoints_reachable h
  clear h key0
  dsimp only at key
  obtain ⟨k0, k0'⟩ := Bool.and_eq_true_iff.1 k
  obtain ⟨k1, key⟩ := Bool.and_eq_true_iff.1 key
  obtain ⟨k2, key⟩ := Bool.and_eq_true_iff.1 key
  obtain ⟨st1, h1, -⟩ := Res.holds_ok k1
  generalize toyCommit a 2 2 [] (List.replicate 32 9) [] = raw at key
  obtain ⟨key, k5⟩ := Bool.and_eq_true_iff.1 key
  obtain ⟨k3, k4⟩ := Bool.and_eq_true_iff.1 key
  generalize h2 : unmarshalAndProcessMessage toyPrims a raw toyLater = s at k3 k4
  obtain ⟨r, a1⟩ := s
  obtain rfl := of_decide_eq_true k3
  obtain ⟨⟨v, b⟩, hm, k6⟩ := Res.holds_ok k5
  refine ⟨toyPoint 0, st, w, st1, a, raw, a1, hst, of_decide_eq_true k0, ?_, h1, hr, toyPointed_spec k2, h2, ?_, of_decide_eq_true k4⟩
  · intro d _ _ m s hn
    simp only [toyPrims] at hn
    split at hn
    · rename_i h
      rw [Bool.and_eq_true] at h
      rw [h.2] at k0'
      cases k0'
    · cases hn
  · intro ac e c hca hc l hl
    cases b with
    | publicMessage pm =>
      obtain ⟨ac', hv, k7⟩ := Res.holds_ok k6
      obtain ⟨rfl, -⟩ := hca.unique (.pub hm hv)
      rw [hc] at k7
      have := List.isEmpty_iff.1 k7
      unfold Spec.UpdatesTo at hl
      rw [this] at hl
      rcases hl with h | ⟨_, _, h, _⟩ <;> cases h
    | _ => cases k6

end Mls
