import Verif.Props.Full
import Verif.Props.Confirmation
import Verif.Props.Invitation
import Verif.Props.Commit
import Verif.Props.Invariant
import Verif.Props.Joinable
import Verif.Props.Accept
import Verif.Props.Keys
import Verif.Props.NoncesExact
import Verif.Props.Sender
import Verif.Props.Forget
import Verif.Props.Memory
import Verif.Props.Work
import Verif.Props.Requirements
import Verif.Props.Suites
import Verif.Props.Library
import Verif.Props.Copies
/-
The full statements of the properties that the code does not have, and that it does not have them: messages and
invitations in groups that calls of the API lead to.
-/
namespace Mls.Full

open Spec (Ratchet nodeAt)

variable {pr : Prims}

/-- What a message carries. -/
def toyReads (st : GroupState) (raw : Bytes) : Res AuthenticatedContent := do
  let m ← unmarshal MlsMessage.dec raw
  match m with
  | ⟨_, .publicMessage m⟩ => verifyPublicMessage toyPrims st m
  | ⟨_, .privateMessage m⟩ => decryptPrivateMessage toyPrims st m
  | _ => .err

theorem toyReads_ok {st : GroupState} {raw : Bytes} {a : AuthenticatedContent} (h : toyReads st raw = .ok a) : ∃ e, Carries toyPrims st raw a e := by
  unfold toyReads at h
  simp only [Res.bind_ok_iff] at h
  obtain ⟨m, h1, h⟩ := h
  split at h
  · exact ⟨_, .pub h1 h⟩
  · exact ⟨_, .priv h1 h⟩
  · cases h

/-! ### Messages -/

/-- The full statement of C43. -/
def C43 (pr : Prims) : Prop := ∀ st raw now st', Reachable pr st → unmarshalAndProcessMessage pr st raw now = (.err, st') → st' = st

/-- In a group of three, in which `1` has made a commit with a path, `1` makes another that adds a member and has an empty path. -/
theorem C43_false : ¬ C43 toyPrims := fun h => by
  have key : toyThree.holds (fun (a, _, _) => (a.after (toyCommit a 1 1 [] (List.replicate 32 9) [])).holds fun a =>
      let r := unmarshalAndProcessMessage toyPrims a
        (toyPublic a 1 1 (.commit ⟨[.proposal (.add (toyMember 3).pub)], some ⟨toyLeaf 0, []⟩⟩) [1]) toyLater
      decide (r.1 = .err) && decide (r.2.vtree ≠ a.vtree)) = true := by decide +kernel
  obtain ⟨⟨a, b, c⟩, ht, key⟩ := Res.holds_ok key
  obtain ⟨a1, h1, key⟩ := Res.holds_ok key
  simp only [Bool.and_eq_true, decide_eq_true_eq] at key
  exact key.2 (congrArg GroupState.vtree (h a1 _ _ _ ((toyThree_reachable ht).1.after h1) (Prod.ext key.1 rfl)))

/-- The full statement of C47. -/
def C47 (pr : Prims) : Prop := ∀ st raw now, Reachable pr st →
  ((∃ d, (unmarshalAndProcessMessage pr st raw now).1 = .ok d) ∨ (unmarshalAndProcessMessage pr st raw now).2 ≠ st) →
  ∃ a e li leaf tbs, Carries pr st raw a e ∧ a.content.sender = .member li ∧ nodeAt st.vtree (2 * li.toNat) = some (.leaf leaf) ∧
    (Spec.Rfc.framedContentTBS a.wireFormat a.content st.group.groupContext).bytes = some tbs ∧
    Spec.ValidSig pr st.group.groupContext.cipherSuite leaf.signatureKey "FramedContentTBS" tbs a.auth.signature

theorem C47_false : ¬ C47 toyPrims := fun h => by
  have key : toyTwo.holds (fun (a, _) =>
      let raw := toyPublic a 2147483649 1 (.proposal (.remove 0)) []
      decide ((unmarshalAndProcessMessage toyPrims a raw toyLater).1 = .ok none) && decide (a.vtree.length ≤ 3) &&
        (toyReads a raw).holds fun x => decide (x.content.sender = .member 2147483649)) = true := by decide +kernel
  obtain ⟨⟨a, b⟩, ht, key⟩ := Res.holds_ok key
  simp only [Bool.and_eq_true, decide_eq_true_eq] at key
  obtain ⟨x, hx, hs⟩ := Res.holds_ok key.2
  rw [decide_eq_true_eq] at hs
  obtain ⟨e, hca⟩ := toyReads_ok hx
  obtain ⟨x', e', li, leaf, tbs, hca', hs', hn, _⟩ := h a _ _ (toyTwo_reachable ht).1 (.inl ⟨_, key.1.1⟩)
  obtain ⟨rfl, _⟩ := hca.unique hca'
  rw [hs] at hs'
  cases hs'
  have hl := (List.getElem?_eq_some_iff.1 (show a.vtree[2 * (2147483649 : UInt32).toNat]? = some (some (.leaf leaf)) by
    unfold nodeAt at hn
    cases hg : a.vtree[2 * (2147483649 : UInt32).toNat]? with
    | none => rw [hg] at hn; cases hn
    | some y => rw [hg] at hn; exact congrArg some hn)).1
  have : (2147483649 : UInt32).toNat = 2147483649 := rfl
  omega

/-- The full statement of C48. -/
def C48 (pr : Prims) : Prop := ∀ st raw now r st' a e c sd, Reachable pr st → Carries pr st raw a e → a.content.content = .commit c →
  unmarshalAndProcessMessage pr st raw now = (.ok r, st') → suite st.group.groupContext.cipherSuite = .ok sd →
  a.auth.confirmationTag = Spec.confirmationTag pr sd st'.group.epochSecret st'.group.groupContext.confirmedTranscriptHash

theorem C48_false : ¬ C48 toyPrims := fun h => by
  have key : toyTwo.holds (fun (a, _) =>
      let raw := toyPublic a 1 1 (.commit ⟨[.proposal (.add (toyMember 2).pub)], none⟩) [99]
      decide ((unmarshalAndProcessMessage toyPrims a raw toyLater).1 = .ok none) &&
        (toyReads a raw).holds fun x => decide (x.auth.confirmationTag = [99]) && decide (x.content.content =
          .commit ⟨[.proposal (.add (toyMember 2).pub)], none⟩)) = true := by decide +kernel
  obtain ⟨⟨a, b⟩, ht, key⟩ := Res.holds_ok key
  simp only [Bool.and_eq_true, decide_eq_true_eq] at key
  obtain ⟨x, hx, hs⟩ := Res.holds_ok key.2
  simp only [Bool.and_eq_true, decide_eq_true_eq] at hs
  obtain ⟨e, hca⟩ := toyReads_ok hx
  have hr := (toyTwo_reachable ht).1
  obtain ⟨sd, hsd⟩ := (hr.inv toyPrims_correct).suite
  have := h a _ _ _ _ x e _ sd hr hca hs.2 (Prod.ext key.1 rfl) hsd
  rw [hs.1] at this
  have hl := congrArg List.length this
  unfold Spec.confirmationTag at hl
  rw [toyPrims_correct.mac_length] at hl
  revert hl
  cases sd.hash <;> decide

/-- The full statement of C49. -/
def C49 (pr : Prims) : Prop := ∀ st raw now, Reachable pr st → (unmarshalAndProcessMessage pr st raw now).1.Fine

theorem C49_false : ¬ C49 toyPrims := fun h => by
  have key : toyTwo.holds (fun (a, _) =>
      decide ((unmarshalAndProcessMessage toyPrims a (toyPublic a 9 1 (.proposal (.remove 0)) []) toyLater).1 = .panic)) = true := by decide +kernel
  obtain ⟨⟨a, b⟩, ht, key⟩ := Res.holds_ok key
  exact (h a _ _ (toyTwo_reachable ht).1).1 (of_decide_eq_true key)

/-- The full statement of C54. -/
def C54 (pr : Prims) : Prop := ∀ st raw now r st' a e c l, Reachable pr st → Carries pr st raw a e → a.content.content = .commit c →
  unmarshalAndProcessMessage pr st raw now = (.ok r, st') →
  Spec.resolve a.content.sender.leafIndex st.group.pendingProposals c.proposals = some l →
  (∀ exts, .groupContextExtensions exts ∈ l.map (·.1) → st'.group.groupContext.extensions = exts) ∧
  (∀ id, .psk id ∈ l.map (·.1) → ∃ b ∈ st'.group.pskSecret, b ≠ 0) ∧
  ∀ ri, .reInit ri ∈ l.map (·.1) → ∀ raw' now', (unmarshalAndProcessMessage pr st' raw' now').2.group.groupContext.epoch = st'.group.groupContext.epoch

theorem C54_false : ¬ C54 toyPrims := fun h => by
  have key : toyTwo.holds (fun (a, _) =>
      let raw := toyCommit a 1 1 [toyExts] (List.replicate 32 9) []
      decide ((unmarshalAndProcessMessage toyPrims a raw toyLater).1 = .ok none) &&
        decide ((unmarshalAndProcessMessage toyPrims a raw toyLater).2.group.groupContext.extensions = []) &&
        (toyReads a raw).holds fun x => match x.content.content with
          | .commit c => decide ((Spec.resolve x.content.sender.leafIndex a.group.pendingProposals c.proposals) = some [(toyExts, 1)])
          | _ => false) = true := by decide +kernel
  obtain ⟨⟨a, b⟩, ht, key⟩ := Res.holds_ok key
  simp only [Bool.and_eq_true, decide_eq_true_eq] at key
  obtain ⟨x, hx, hs⟩ := Res.holds_ok key.2
  obtain ⟨e, hca⟩ := toyReads_ok hx
  split at hs
  · next c hcm =>
    rw [decide_eq_true_eq] at hs
    have := (h a _ _ _ _ x e c _ (toyTwo_reachable ht).1 hca hcm (Prod.ext key.1.1 rfl) hs).1 [⟨9, [1]⟩] (by simp [toyExts])
    rw [key.1.2] at this
    cases this
  · cases hs

/-- The full statement of C55. -/
def C55 (pr : Prims) : Prop := ∀ st raw now a e c l, Reachable pr st → Carries pr st raw a e → a.content.content = .commit c →
  Spec.resolve a.content.sender.leafIndex st.group.pendingProposals c.proposals = some l → .remove st.group.myLeafIndex ∈ l.map (·.1) →
  (∀ r, (unmarshalAndProcessMessage pr st raw now).1 ≠ .ok r) ∧ (unmarshalAndProcessMessage pr st raw now).2.group = st.group

theorem C55_false : ¬ C55 toyPrims := fun h => by
  have key : toyTwo.holds (fun (a, _) =>
      let raw := toyRemoval a true
      decide ((unmarshalAndProcessMessage toyPrims a raw toyLater).1 = .ok none) &&
        (toyReads a raw).holds fun x => match x.content.content with
          | .commit c => (match Spec.resolve x.content.sender.leafIndex a.group.pendingProposals c.proposals with
            | some l => decide (.remove a.group.myLeafIndex ∈ l.map (·.1))
            | none => false)
          | _ => false) = true := by decide +kernel
  obtain ⟨⟨a, b⟩, ht, key⟩ := Res.holds_ok key
  simp only [Bool.and_eq_true, decide_eq_true_eq] at key
  obtain ⟨x, hx, hs⟩ := Res.holds_ok key.2
  obtain ⟨e, hca⟩ := toyReads_ok hx
  split at hs
  · next c hcm =>
    split at hs
    · next l hl => exact (h a _ toyLater x e c l (toyTwo_reachable ht).1 hca hcm hl (of_decide_eq_true hs)).1 _ key.1
    · cases hs
  · cases hs

/-- The full statement of C67. -/
def C67 (pr : Prims) : Prop := ∀ st raw now r st' i l, Reachable pr st → unmarshalAndProcessMessage pr st raw now = (.ok r, st') →
  nodeAt st'.vtree (2 * i) = some (.leaf l) → nodeAt st.vtree (2 * i) ≠ some (.leaf l) →
  Spec.LeafValid pr st.group.groupContext now i l ∧
    ∀ j m, j ≠ i → nodeAt st'.vtree (2 * j) = some (.leaf m) → m.encryptionKey ≠ l.encryptionKey ∧ m.signatureKey ≠ l.signatureKey

theorem C67_false : ¬ C67 toyPrims := fun h => by
  have key : toyTwo.holds (fun (a, _) =>
      let r := unmarshalAndProcessMessage toyPrims a (toyPublic a 1 1 (.commit ⟨[.proposal (.add (toyKeyPackage 5))], none⟩) [99]) toyLater
      decide (r.1 = .ok none) && decide (nodeAt r.2.vtree 4 = some (.leaf (toyLeaf 5))) && decide (nodeAt a.vtree 4 = none) &&
        decide ((toyLeaf 5).verifySignature toyPrims a.group.groupContext.cipherSuite a.group.groupContext.groupID 2 ≠ .ok true)) = true := by decide +kernel
  obtain ⟨⟨a, b⟩, ht, key⟩ := Res.holds_ok key
  simp only [Bool.and_eq_true, decide_eq_true_eq] at key
  obtain ⟨⟨⟨k1, k2⟩, k3⟩, k4⟩ := key
  have := (h a _ _ _ _ 2 (toyLeaf 5) (toyTwo_reachable ht).1 (Prod.ext k1 rfl) k2 (by rw [k3]; exact fun h => by cases h)).1
  exact k4 (leaf_verifySignature_iff.2 this.signature)

/-- The full statement of C71. -/
def C71 (pr : Prims) : Prop := ∀ st st2 st' raw now now2 r new, Reachable pr st → Reachable pr st2 → SameView st st2 → Keyed pr st → Keyed pr st2 →
  unmarshalAndProcessMessage pr st raw now = (.ok r, st') → HonestCommit pr st st' raw new → LeafKept st st' st.group.myLeafIndex.toNat →
  LeafKept st st' st2.group.myLeafIndex.toNat →
  (∀ a e c path, Carries pr st raw a e → a.content.content = .commit c → c.path = some path →
    a.content.sender.leafIndex.toNat % 2 ^ 31 ≠ st2.group.myLeafIndex.toNat) →
  ∃ st2', unmarshalAndProcessMessage pr st2 raw now2 = (.ok r, st2') ∧ SameView st' st2' ∧ Keyed pr st' ∧ Keyed pr st2'

theorem C71_false : ¬ C71 toyPrims := fun h => by
  have key : toyThree.holds (fun (_, b, c) =>
      let m := toyCommit b 0 0 [.add (toyMember 3).pub] (List.replicate 32 9) [6]
      (b.after m).holds fun b' => decide (SameView b c) && (toyKeyed b 2 && (toyKeyed c 2 &&
        (toyHonest b b' m [6] 2 (List.replicate 32 9) && ((toyReads b m).holds (fun x =>
            decide (x.content.sender.leafIndex.toNat % 2 ^ 31 ≠ c.group.myLeafIndex.toNat)) && decide (
          nodeAt b'.vtree (2 * b.group.myLeafIndex.toNat) = nodeAt b.vtree (2 * b.group.myLeafIndex.toNat) ∧
          nodeAt b'.vtree (2 * c.group.myLeafIndex.toNat) = nodeAt b.vtree (2 * c.group.myLeafIndex.toNat) ∧
          (unmarshalAndProcessMessage toyPrims b m toyLater).1 = .ok none ∧
          (unmarshalAndProcessMessage toyPrims c m toyLater).1 = .err)))))) = true := by decide +kernel
  obtain ⟨⟨a, b, c⟩, ht, key⟩ := Res.holds_ok key
  obtain ⟨hr1, hr2, hr3⟩ := toyThree_reachable ht
  simp only at key
  clear ht
  generalize toyCommit b 0 0 [.add (toyMember 3).pub] (List.replicate 32 9) [6] = m at key
  obtain ⟨b', hb', key⟩ := Res.holds_ok key
  rw [Bool.and_eq_true, Bool.and_eq_true, Bool.and_eq_true, Bool.and_eq_true, Bool.and_eq_true, decide_eq_true_eq, decide_eq_true_eq] at key
  obtain ⟨k1, k2, k3, k4, k5, k7, k8, k9, k10⟩ := key
  obtain ⟨x, hx, k5⟩ := Res.holds_ok k5
  obtain ⟨e, hca⟩ := toyReads_ok hx
  have hb : unmarshalAndProcessMessage toyPrims b m toyLater = (.ok none, b') := by
    unfold GroupState.after at hb'
    split at hb' <;> try cases hb'
    next r _ hm =>
    rw [hm] at k9 ⊢
    cases k9
    rfl
  obtain ⟨c', hc', -⟩ := h b c b' m toyLater toyLater none [6] hr2 hr3 k1 (toyKeyed_true k2) (toyKeyed_true k3) hb (toyHonest_true k4) k7 k8
    fun y e' _ _ hy _ _ => by
      obtain ⟨rfl, _⟩ := hca.unique hy
      exact of_decide_eq_true k5
  rw [hc'] at k10
  cases k10

/-- The full statement of C86, of its first part: the result tells who sent the message. -/
def C86 (pr : Prims) : Prop := ∀ st raw raw' now r st' a e a' e', Reachable pr st → Carries pr st raw a e → Carries pr st raw' a' e' →
  unmarshalAndProcessMessage pr st raw now = (.ok r, st') → unmarshalAndProcessMessage pr st raw' now = (.ok r, st') →
  a.content.sender = a'.content.sender

theorem C86_false : ¬ C86 toyPrims := fun h => by
  have key : toyThree.holds (fun (a, b, c) =>
      (createApplicationMessage toyPrims a [1, 2] [] ⟨1, 2, 3, 4⟩).holds (fun raw =>
        (createApplicationMessage toyPrims b [1, 2] [] ⟨1, 2, 3, 4⟩).holds (fun raw' =>
          decide (unmarshalAndProcessMessage toyPrims c raw toyLater = (.ok (some [1, 2]), c)) &&
          decide (unmarshalAndProcessMessage toyPrims c raw' toyLater = (.ok (some [1, 2]), c)) &&
          (toyReads c raw).holds fun x => (toyReads c raw').holds fun x' => decide (x.content.sender ≠ x'.content.sender)))) = true := by
    decide +kernel
  obtain ⟨⟨a, b, c⟩, ht, key⟩ := Res.holds_ok key
  obtain ⟨raw, -, key⟩ := Res.holds_ok key
  obtain ⟨raw', -, key⟩ := Res.holds_ok key
  simp only [Bool.and_eq_true, decide_eq_true_eq] at key
  obtain ⟨⟨k1, k2⟩, key⟩ := key
  obtain ⟨x, hx, key⟩ := Res.holds_ok key
  obtain ⟨x', hx', key⟩ := Res.holds_ok key
  obtain ⟨e, he⟩ := toyReads_ok hx
  obtain ⟨e', he'⟩ := toyReads_ok hx'
  exact of_decide_eq_true key (h c raw raw' toyLater _ _ x e x' e' (toyThree_reachable ht).2.2 he he' k1 k2)

/-- The full statement of C87, of its second part: private keys are of nodes in the tree. Its first part is C87_forgotten. -/
def C87 (pr : Prims) : Prop := ∀ st x k, Reachable pr st → st.group.privTree[x]? = some (some k) → nodeAt st.vtree x ≠ none

theorem C87_false : ¬ C87 toyPrims := fun h => by
  obtain ⟨st, hr, x, k, h1, h2⟩ := C87_refuted
  exact h st x k hr h1 h2

/-- The full statement of C89, for messages. -/
def C89 : Prop := ∀ raw, MlsMessage.decM.asked raw ≤ raw.length

theorem C89_false : ¬ C89 := C89_refuted

/-- The full statement of C90. -/
def C90 (pr : Prims) : Prop := ∀ st raw, Reachable pr st → messageSteps pr st raw ≤ raw.length

theorem C90_false : ¬ C90 toyPrims := fun h => by
  have key : (toyTwo.holds fun (a, b) => decide (SameView a b) &&
      (createApplicationMessage toyPrims a [7, 8, 9] [] ⟨1, 2, 3, 4⟩).holds fun raw => decide (raw.length < 4294967295)) = true := by decide +kernel
  obtain ⟨⟨a, b⟩, h1, h2⟩ := Res.holds_ok key
  simp only [Bool.and_eq_true, decide_eq_true_eq] at h2
  obtain ⟨raw, h5, h6⟩ := Res.holds_ok h2.2
  rw [decide_eq_true_eq] at h6
  obtain ⟨-, raw', h7, h8⟩ := C90_refuted toyPrims_correct (by
    intro _ k n p p' ad c c' hp hs hs'
    simp only [toyPrims] at hs hs'
    split at hs
    · next hk =>
      rw [if_pos hk] at hs'
      cases hs; cases hs'
      simp [hp]
    · cases hs) (toyTwo_reachable h1).1 h2.1 _ _ _ _ h5 4294967295
  have := h b raw' (toyTwo_reachable h1).2
  have : (4294967295 : UInt32).toNat = 4294967295 := rfl
  omega

/-! ### Invitations -/

/-- The full statement of C50. -/
def C50 (pr : Prims) : Prop := ∀ st st2 st1 kps rand w raw now r r2 a b, Reachable pr st → Reachable pr st2 → SameView st st2 →
  createWelcome pr st kps rand = (.ok (w, raw), st1) → unmarshalAndProcessMessage pr st1 raw now = (.ok r, a) →
  unmarshalAndProcessMessage pr st2 raw now = (.ok r2, b) →
  SameView a b ∧ ∀ kp j, kp.pub ∈ kps → groupFromWelcome pr w kp now = .ok j → SameView a j

theorem C50_false : ¬ C50 toyPrims := fun h => by
  obtain ⟨st, st2, st1, a, b, j, w, raw, h1, h2, h3, h4, h5, h6, h7, h8, h9, _⟩ := C50_refuted
  exact h9 (h st st2 st1 _ _ w raw _ _ _ a b h1 h2 h3 h4 h5 h6).1.tree

/-- The full statement of C51. -/
def C51 (pr : Prims) : Prop := ∀ st kps rand, Reachable pr st → (createWelcome pr st kps rand).2 = st

theorem C51_false : ¬ C51 toyPrims := fun h => by
  have key : toyThree.holds (fun (a, _, _) => (a.after (toyCommit a 1 1 [] (List.replicate 32 9) [])).holds fun a =>
      decide ((createWelcome toyPrims a [(toyMember 3).pub] default).2.vtree ≠ a.vtree)) = true := by decide +kernel
  obtain ⟨⟨a, b, c⟩, ht, key⟩ := Res.holds_ok key
  obtain ⟨a1, h1, key⟩ := Res.holds_ok key
  exact of_decide_eq_true key (congrArg GroupState.vtree (h a1 _ _ ((toyThree_reachable ht).1.after h1)))

/-- The full statement of C56. -/
def C56 (pr : Prims) : Prop := ∀ (cs : UInt16) (sd : SuiteDesc) (d i r e x : Nat) (s : Ratchet ParentNode d) (ps ek : Bytes) (signer : UInt32),
  suite cs = .ok sd → supported cs = .ok true → d ≤ 31 → i < 2 ^ d → r < 2 ^ d → i ≠ r → Spec.WelcomePath pr sd s i r e x ps → signer.toNat = i →
  ∃ keys, joinerPrivTree pr cs (s.flat .leaf .parent) r signer ek (some ps) = .ok keys ∧ keys[2 * r]? = some (some ek) ∧
    ∀ n y, (s.filteredPath 0 i)[e + n]? = some y → keys[y]? = some (some (Spec.nodeKeys pr sd (Spec.pathSecret pr sd ps n)).2)

/-- The `n`-th node of a path. -/
def toyOnPath (n : Nat) : ParentNode :=
  { toyParent 0 with encryptionKey := match suite 1 with
    | .ok sd => (Spec.nodeKeys toyPrims sd (Spec.pathSecret toyPrims sd (List.replicate 32 9) n)).1
    | _ => [] }

/-- A tree in which the first two leaves meet three levels below the root. -/
def toyDeep : Ratchet ParentNode 3 :=
  .node (some (toyOnPath 2)) (.node (some (toyOnPath 1)) (.node (some (toyOnPath 0)) (.leaf (some (toyLeaf 0))) (.leaf (some (toyLeaf 1))))
    (.node none (.leaf (some (toyLeaf 2))) (.leaf none))) (.node none (.node none (.leaf (some (toyLeaf 4))) (.leaf none)) (.node none (.leaf none) (.leaf none)))

theorem C56_false : ¬ C56 toyPrims := fun h => by
  obtain ⟨sd, hsd⟩ : ∃ sd, suite 1 = .ok sd := ⟨_, rfl⟩
  have hF : toyDeep.filteredPath 0 0 = [1, 3, 7] := by decide +kernel
  have hon : ∀ n, (toyOnPath n).encryptionKey = (Spec.nodeKeys toyPrims sd (Spec.pathSecret toyPrims sd (List.replicate 32 9) n)).1 := by
    intro n
    unfold toyOnPath
    rw [hsd]
  obtain ⟨keys, hk, -⟩ := h 1 sd 3 0 1 0 1 toyDeep (List.replicate 32 9) [10, 1] 0 hsd (by decide +kernel) (by decide) (by decide) (by decide) (by decide)
    ⟨⟨_, rfl⟩, by rw [hF]; rfl, fun n y hy => by
      rw [hF, Nat.zero_add] at hy
      match n, hy with
      | 0, hy => cases hy; exact ⟨_, rfl, hon 0⟩
      | 1, hy => cases hy; exact ⟨_, rfl, hon 1⟩
      | 2, hy => cases hy; exact ⟨_, rfl, hon 2⟩⟩ rfl
  have : joinerPrivTree toyPrims 1 (toyDeep.flat .leaf .parent) 1 0 [10, 1] (some (List.replicate 32 9)) = .err := by decide +kernel
  rw [this] at hk
  cases hk

/-- The full statement of C73. -/
def C73 (pr : Prims) : Prop := ∀ st, Reachable pr st → (∀ data rand guard, (createApplicationMessage pr st data rand guard).Fine) ∧
  ∀ kps rand, (createWelcome pr st kps rand).1.Fine

theorem C73_false : ¬ C73 toyPrims := fun h => by
  obtain ⟨st, kps, rand, hr, _, hp⟩ := C73_suite
  exact ((h st hr).2 kps rand).1 hp

/-- The full statement of C75: valid at the time is what the leaf of the invited is then, and the key package is for the group. -/
def C75 (pr : Prims) : Prop := ∀ st kp rand now w raw, Reachable pr st → kp.pub.verify pr st.group.groupContext = .ok () →
  (∀ lt, kp.pub.leafNode.source = .keyPackage lt → lt.verify now = true) → (∃ cs cred r, generateKeyPairPackage pr cs cred r = .ok kp) →
  (createWelcome pr st [kp.pub] rand).1 = .ok (w, raw) → ∃ j, groupFromWelcome pr w kp now = .ok j

theorem C75_false : ¬ C75 toyPrims := fun h => by
  obtain ⟨a, b, kp, rand, w, raw, lt, -, -, h1, -, h2, ⟨r, hg⟩, h3, h4, -, -, -, hw, -, hj, -⟩ := C75_refuted
  obtain ⟨j, hj'⟩ := h a kp _ toyLateNow w raw h1 h2 (fun lt' hl => by rw [h3] at hl; cases hl; exact h4) ⟨_, _, _, hg⟩ hw
  rw [hj] at hj'
  cases hj'

/-- C75 holds in groups whose members all use this library and have keys of their own, as long as the key packages of all of them are in date. Missing: later,
see C75_closed. -/
theorem C75_partial (hc : pr.Correct) {cs : UInt16} {st : GroupState} (hl : Spec.Library pr cs st) {kp : KeyPairPackage} (hg : Spec.Generated pr cs kp)
    {rand : WelcomeRand} {w : Welcome} {raw : Bytes} (h : (createWelcome pr st [kp.pub] rand).1 = .ok (w, raw))
    (hown : Spec.OwnKeys (Spec.members st.vtree ++ [kp.pub.leafNode])) (hinit : kp.pub.leafNode.encryptionKey ≠ kp.pub.initKey) {now : GoTime}
    (hkp : Spec.InDate now kp.pub.leafNode) (hm : ∀ l ∈ Spec.members st.vtree, Spec.InDate now l) : ∃ j, groupFromWelcome pr w kp now = .ok j := by
  have hsing : ∀ k ∈ [kp], k = kp := fun k hk => List.mem_singleton.1 hk
  refine ((C79_invite hc hl (ks := [kp]) (fun k hk => by rw [hsing k hk]; exact hg) (Prod.ext h rfl) hown
    (fun k hk => by rw [hsing k hk]; exact hinit) (fun k hk k' hk' hne => by rw [hsing k hk, hsing k' hk'] at hne; exact absurd rfl hne)).2 kp
    List.mem_cons_self now).2 fun l hl => ?_
  rcases List.mem_append.1 hl with hl | hl
  · exact hm l hl
  · obtain rfl := List.mem_singleton.1 hl
    exact hkp

/-- Its hypotheses are met. -/
example : ∃ a w raw, Spec.Library toyPrims 1 a ∧ Spec.Generated toyPrims 1 (toyMember 2) ∧ (createWelcome toyPrims a [(toyMember 2).pub] default).1 = .ok (w, raw) ∧
    Spec.OwnKeys (Spec.members a.vtree ++ [(toyMember 2).pub.leafNode]) ∧ (toyMember 2).pub.leafNode.encryptionKey ≠ (toyMember 2).pub.initKey ∧
    (Spec.members a.vtree).length = 2 ∧ ∀ l ∈ Spec.members a.vtree ++ [(toyMember 2).pub.leafNode], Spec.InDate toyLater l := by
  have key : toyTwo.holds (fun (a, _) => decide ((Spec.members a.vtree).length = 2) &&
      decide (((Spec.members a.vtree ++ [(toyMember 2).pub.leafNode]).map fun l => l.encryptionKey).Nodup) &&
      decide (((Spec.members a.vtree ++ [(toyMember 2).pub.leafNode]).map fun l => l.signatureKey).Nodup) &&
      ((Spec.members a.vtree ++ [(toyMember 2).pub.leafNode]).all fun l => match l.source with
        | .keyPackage lt => lt.verify toyLater
        | _ => false) &&
      (createWelcome toyPrims a [(toyMember 2).pub] default).1.holds fun _ => true) = true := by decide +kernel
  have hi : (toyMember 2).pub.leafNode.encryptionKey ≠ (toyMember 2).pub.initKey := by decide +kernel
  have hv : (toyMember 2).pub.version = 1 := by decide +kernel
  obtain ⟨⟨a, b⟩, ht, key⟩ := Res.holds_ok key
  obtain ⟨r, hr⟩ := toyMember_generated 2 hv
  simp only [Bool.and_eq_true, decide_eq_true_eq] at key
  obtain ⟨⟨⟨⟨k1, k2⟩, k3⟩, k4⟩, k5⟩ := key
  obtain ⟨⟨w, raw⟩, hw, -⟩ := Res.holds_ok k5
  refine ⟨a, w, raw, (toyTwo_library ht).1, ⟨_, r, hr⟩, hw, ⟨k2, k3⟩, hi, k1, fun l hl lt hs => .inr ?_⟩
  have := List.all_eq_true.1 k4 l hl
  rw [hs] at this
  exact this

/-- The full statement of C78. -/
def C78 (pr : Prims) : Prop := ∀ st st2 st1 kps rand w raw now, Reachable pr st → Reachable pr st2 → SameView st st2 → Spec.OwnLeaf pr st →
  createWelcome pr st kps rand = (.ok (w, raw), st1) → ∃ r st2', unmarshalAndProcessMessage pr st2 raw now = (.ok r, st2')

theorem C78_false : ¬ C78 toyPrims := fun h => by
  obtain ⟨st, st2, st1, w, raw, kp, j, h1, h2, h3, h4, h5, -, -, h6, -⟩ := C78_refuted
  obtain ⟨r, st2', hr⟩ := h st st2 st1 _ _ w raw toyLater h1 h2 h3 h4 h5
  rw [hr] at h6
  cases h6

/-- C78 holds when the key packages are valid for the group and have signature keys of their own. Missing: other key packages, see C78_follows. -/
theorem C78_partial (hc : pr.Correct) {st st1 st2 : GroupState} (hr : Reachable pr st) (hr2 : Reachable pr st2) (hv : SameView st st2)
    (hown : Spec.OwnLeaf pr st) {kps : List KeyPackage} (hw : ∀ k ∈ kps, k.version = 1) {rand : WelcomeRand} {w : Welcome} {raw : Bytes}
    (h : createWelcome pr st kps rand = (.ok (w, raw), st1)) (hk : ∀ k ∈ kps, Spec.PackageValid pr st.group.groupContext k)
    (hn : (kps.map fun k => k.leafNode.signatureKey).Nodup) (now : GoTime) :
    ∃ r st2', unmarshalAndProcessMessage pr st2 raw now = (.ok r, st2') :=
  (C78_follows hc hr hr2 hv hown hw h now).2 ⟨hk, hn⟩

/-- The full statement of C80, for messages. Those who join and who invite: C80_join, C80_invite. -/
def C80 (pr : Prims) : Prop := ∀ st raw now r st', Reachable pr st → Spec.ReadableMembers pr st →
  unmarshalAndProcessMessage pr st raw now = (.ok r, st') → Spec.ReadableMembers pr st'

theorem C80_false : ¬ C80 toyPrims := fun h => by
  obtain ⟨st, st', st'', p, c, h1, h2, -, h3, h4, h5, -⟩ := C80_refuted
  exact h5 (h st' c _ _ st'' (.message h1 h3 (Res.fine_ok _)) (h st p _ _ st' h1 h2 h3) h4)

/-- C80 holds of messages without Update proposals that bring such a key. Missing: those. -/
theorem C80_partial (hc : pr.Correct) {st st' : GroupState} (hr : Reachable pr st) (hkeys : Spec.ReadableMembers pr st) {raw : Bytes} {now : GoTime}
    {r : Option Bytes} (h : unmarshalAndProcessMessage pr st raw now = (.ok r, st'))
    (hup : ∀ a e c, Carries pr st raw a e → a.content.content = .commit c → ∀ l, Spec.UpdatesTo st c l →
      Spec.Readable pr st.group.groupContext.cipherSuite l.signatureKey) : Spec.ReadableMembers pr st' :=
  C80_message hc hr hkeys h hup

/-- The full statement of C81. -/
def C81 (pr : Prims) : Prop := ∀ s1 s2 d depth data1 data2 rand1 rand2 guard1 guard2 raw1 raw2, Reachable pr s1 → Reachable pr s2 → SameView s1 s2 →
  suite s1.group.groupContext.cipherSuite = .ok d → s1.vtree.length = 2 ^ (depth + 1) - 1 →
  createApplicationMessage pr s1 data1 rand1 guard1 = .ok raw1 → createApplicationMessage pr s2 data2 rand2 guard2 = .ok raw2 → data1 ≠ data2 →
  ¬ (Spec.messageKey pr d s1.group.epochSecret depth s1.group.myLeafIndex.toNat .application 0 =
      Spec.messageKey pr d s2.group.epochSecret depth s2.group.myLeafIndex.toNat .application 0 ∧
    Spec.messageNonce pr d s1.group.epochSecret depth s1.group.myLeafIndex.toNat .application 0 guard1.toBytes =
      Spec.messageNonce pr d s2.group.epochSecret depth s2.group.myLeafIndex.toNat .application 0 guard2.toBytes)

theorem C81_false : ¬ C81 toyPrims := fun h => by
  have key : toyTwo.holds (fun (a, _) => decide (SameView a a) && decide (a.vtree.length = 3) &&
      (createApplicationMessage toyPrims a [7] [] ⟨1, 2, 3, 4⟩).holds (fun _ => true) &&
      (createApplicationMessage toyPrims a [8] [] ⟨1, 2, 3, 4⟩).holds fun _ => true) = true := by decide +kernel
  obtain ⟨⟨a, b⟩, ht, key⟩ := Res.holds_ok key
  simp only [Bool.and_eq_true, decide_eq_true_eq] at key
  obtain ⟨⟨⟨k1, k2⟩, k3⟩, k4⟩ := key
  obtain ⟨raw1, h1, -⟩ := Res.holds_ok k3
  obtain ⟨raw2, h2, -⟩ := Res.holds_ok k4
  have hr := (toyTwo_reachable ht).1
  obtain ⟨d, hd⟩ := (hr.inv toyPrims_correct).suite
  exact h a a d 1 _ _ _ _ _ _ raw1 raw2 hr hr k1 hd k2 h1 h2 (by decide) ⟨rfl, rfl⟩

/-- C81 holds of messages of different members and of messages with different reuse guards, unless key derivations collide. Missing: messages of one member for
which the same guard is drawn, see C81_same. -/
theorem C81_partial (hc : pr.Correct) {s1 s2 : GroupState} {d : SuiteDesc} {depth : Nat} {data1 data2 rand1 rand2 : Bytes} {guard1 guard2 : Bytes4}
    {raw1 raw2 : Bytes} (hr1 : Reachable pr s1) (hr2 : Reachable pr s2) (hv : SameView s1 s2) (hd : suite s1.group.groupContext.cipherSuite = .ok d)
    (hlen : s1.vtree.length = 2 ^ (depth + 1) - 1) (h1 : createApplicationMessage pr s1 data1 rand1 guard1 = .ok raw1)
    (h2 : createApplicationMessage pr s2 data2 rand2 guard2 = .ok raw2)
    (hne : s1.group.myLeafIndex ≠ s2.group.myLeafIndex ∨ guard1 ≠ guard2) (hcol : ¬ Spec.MessageCollision pr d s1.group.epochSecret depth) :
    ¬ (Spec.messageKey pr d s1.group.epochSecret depth s1.group.myLeafIndex.toNat .application 0 =
        Spec.messageKey pr d s2.group.epochSecret depth s2.group.myLeafIndex.toNat .application 0 ∧
      Spec.messageNonce pr d s1.group.epochSecret depth s1.group.myLeafIndex.toNat .application 0 guard1.toBytes =
        Spec.messageNonce pr d s2.group.epochSecret depth s2.group.myLeafIndex.toNat .application 0 guard2.toBytes) := by
  obtain ⟨d', depth', k1, n1, p1, ad1, m1, k2, n2, p2, ad2, m2, hd', hlen', u1, u2, rfl, rfl, rfl, rfl, -, -, -, hex⟩ :=
    C81_exact hc hr1 (c1 := .message s1 data1 rand1 guard1) (c2 := .message s2 data2 rand2 guard2) ⟨hr1, ⟨rfl, rfl, rfl⟩⟩
      ⟨hr2, ⟨hv.context.symm, hv.epochSecret.symm, hv.tree.symm⟩⟩ (.message ..) (.message ..) h1 h2
  rw [hd] at hd'
  cases hd'
  have : depth' = depth := by
    have := Nat.two_pow_pos (depth + 1)
    have := Nat.two_pow_pos (depth' + 1)
    have := Nat.pow_right_injective (Nat.le_refl 2) (show 2 ^ (depth' + 1) = 2 ^ (depth + 1) by omega)
    omega
  subst this
  have hin : ∀ {s : GroupState}, Reachable pr s → s.vtree.length = 2 ^ (depth' + 1) - 1 → depth' ≤ 31 ∧ s.group.tree.length = 2 ^ (depth' + 1) - 1 ∧
      s.group.myLeafIndex.toNat < 2 ^ depth' := by
    intro s hr hl
    have hl : s.group.tree.length = 2 ^ (depth' + 1) - 1 := by
      unfold GroupState.vtree at hl
      rwa [derefTree_length] at hl
    obtain ⟨k, hk, hk'⟩ := (hr.inv hc).tree.complete
    have e : k = depth' := by
      have := Nat.two_pow_pos (k + 1)
      have := Nat.two_pow_pos (depth' + 1)
      have := Nat.pow_right_injective (Nat.le_refl 2) (show 2 ^ (k + 1) = 2 ^ (depth' + 1) by omega)
      omega
    have ho := (hr.inv hc).own
    rw [hl, Nat.pow_succ] at ho
    exact ⟨by omega, hl, by omega⟩
  obtain ⟨a1, a2, a3⟩ := hin hr1 hlen
  obtain ⟨b1, b2, b3⟩ := hin hr2 (by rw [← hv.tree]; exact hlen)
  obtain ⟨m1', _, _, _, e1, t1, -⟩ := C62_sent_application pr hc s1 d hd depth' a1 a2 a3 _ _ _ _ h1
  obtain ⟨m2', _, _, _, e2, t2, -⟩ := C62_sent_application pr hc s2 d (by rw [← hv.context]; exact hd) depth' b1 b2 b3 _ _ _ _ h2
  rw [u1] at e1
  rw [u2] at e2
  cases e1
  cases e2
  rw [t1, t2] at hex
  rw [← hv.epochSecret]
  intro hkn
  rcases hex hkn with ⟨x, -, y⟩ | hx
  · rcases hne with h | h
    · exact h x
    · exact h y
  · exact hcol hx

/-- The full statement of C92. -/
def C92 (pr : Prims) : Prop := ∀ st, Reachable pr st → Spec.RequirementsMet st

theorem C92_false : ¬ C92 toyPrims := fun h => by
  obtain ⟨w, st, l, w2, raw2, st2, h1, -, -, -, -, h2, -⟩ := C92_refuted
  exact h2 (h st (.join h1))

/-- The full statement of C98. -/
def C98 (pr : Prims) : Prop :=
  (∀ id kp rand st st', createGroup pr id kp rand = .ok st → Spec.Since pr st st' → st'.group.groupContext.cipherSuite = kp.pub.cipherSuite) ∧
    ∀ w kp now st st', groupFromWelcome pr w kp now = .ok st → Spec.Since pr st st' → st'.group.groupContext.cipherSuite = kp.pub.cipherSuite

theorem C98_false : ¬ C98 toyPrims := fun h => by
  obtain ⟨st, st1, w, raw, j, -, -, -, h1, -, h2, h3, -⟩ := C98_refuted
  have := h.2 w _ _ j j h1 .refl
  rw [h2, h3] at this
  cases this

/-- The full statement of C104. -/
def C104 (pr : Prims) (grow : Nat → Nat) : Prop :=
  ∀ w, Copied pr grow w → ∀ i j g k, i ≠ j → w.groups[i]? = some g → w.groups[j]? = some k →
    (∀ raw now r w', w.message pr grow i g raw now = (r, w') → (w'.read k).vtree = (w.read k).vtree ∧ (w'.read k).group = (w.read k).group) ∧
    ∀ kps rnd o w', w.invite pr grow i g kps rnd = (o, w') → (w'.read k).vtree = (w.read k).vtree ∧ (w'.read k).group = (w.read k).group

theorem C104_false : ¬ C104 toyPrims goGrow := fun h => by
  obtain ⟨w, w', i, j, g, k, raw, now, r, h1, h2, h3, h4, h5, h6⟩ := C104_tree
  exact h6 ((h w h1 i j g k h2 h3 h4).1 raw now _ w' h5).1

end Mls.Full
