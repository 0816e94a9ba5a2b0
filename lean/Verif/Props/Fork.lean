import Verif.Props.Authorship
import Verif.Props.Transcript
/-
C85: members that follow different commits in one epoch are apart for ever.
-/
namespace Mls

open Spec (Ratchet nodeAt)

variable {pr : Prims}

theorem SameView.trans {a b c : GroupState} (h : SameView a b) (h' : SameView b c) : SameView a c :=
  ⟨h.tree.trans h'.tree, h.keys.trans h'.keys, h.pending.trans h'.pending⟩

theorem Trace.reachable {st st' : GroupState} {as : List AuthenticatedContent} (h : Trace pr st as st') (hr : Reachable pr st) : Reachable pr st' := by
  induction h with
  | nil => exact hr
  | accept _ _ h ih => exact .message ih h ⟨by simp, by simp⟩
  | refuse _ h ih => exact .message ih h ⟨by simp, by simp⟩
  | invite _ h hf ih => exact .invite ih h hf

/-- The first of the commits. -/
def Spec.firstCommit (as : List AuthenticatedContent) : Option (WireFormat × FramedContent × Bytes) :=
  ((as.filter (·.isCommit)).map (·.committed)).head?

/-- The two histories have one collision at least among what is hashed for their transcripts. -/
def HistoryCollision (hash : Bytes → Bytes) (i : Bytes) (as bs : List AuthenticatedContent) : Prop :=
  ∃ l l2, List.Forall₂ EntryOf (as.filter (·.isCommit)).reverse l ∧ List.Forall₂ EntryOf (bs.filter (·.isCommit)).reverse l2 ∧
    TranscriptCollision hash i l l2

/-- **C85.** Two members in one epoch with one transcript accept different commits. Whatever each of them accepts afterwards, they never have the same group context
again, unless the hash function collides. -/
theorem C85_apart (hc : pr.Correct) {st st2 st' st2' : GroupState} {as bs : List AuthenticatedContent} (h : Trace pr st as st')
    (h2 : Trace pr st2 bs st2') {sd : SuiteDesc} (hsd : suite st.group.groupContext.cipherSuite = .ok sd)
    (hctx : st.group.groupContext = st2.group.groupContext) (hi : st.group.interimTranscriptHash = st2.group.interimTranscriptHash)
    {a b : WireFormat × FramedContent × Bytes} (ha : Spec.firstCommit as = some a) (hb : Spec.firstCommit bs = some b) (hab : a ≠ b)
    (hn : as.length < 2 ^ 64) (hn2 : bs.length < 2 ^ 64) :
    st'.group.groupContext ≠ st2'.group.groupContext ∨ HistoryCollision (pr.hash sd.hash) st.group.interimTranscriptHash as bs := by
  by_cases he : st'.group.groupContext = st2'.group.groupContext
  · right
    have e1 := (C44_history pr st st' as h).2
    have e2 := (C44_history pr st2 st2' bs h2).2
    rw [he, e2, hctx] at e1
    have e3 : UInt64.ofNat (bs.countP (·.isCommit)) = UInt64.ofNat (as.countP (·.isCommit)) := by
      have := congrArg (fun x => x - st2.group.groupContext.epoch) e1
      simpa using this
    have e4 := congrArg UInt64.toNat e3
    have l1 : as.countP (·.isCommit) ≤ as.length := List.countP_le_length
    have l2 : bs.countP (·.isCommit) ≤ bs.length := List.countP_le_length
    rw [UInt64.toNat_ofNat', UInt64.toNat_ofNat', Nat.mod_eq_of_lt (by omega), Nat.mod_eq_of_lt (by omega)] at e4
    rcases C39_history hc h h2 hsd (by rw [hctx]) hi e4.symm (by rw [he]) with ⟨k, _⟩ | k
    · unfold Spec.firstCommit at ha hb
      rw [k, hb] at ha
      exact absurd (Option.some.inj ha).symm hab
    · exact k
  · exact .inl he

/-- **C85.** So what a member on one side sends, none on the other side accepts: if a member accepts anything, the sender of which uses their key with this
library only and in contexts of the other side only, the hash function collides. -/
theorem C85_deaf (hc : pr.Correct) {st st2 st' st'' : GroupState} {as : List AuthenticatedContent} (hr : Reachable pr st) (h : Trace pr st as st')
    {sd : SuiteDesc} (hsd : suite st.group.groupContext.cipherSuite = .ok sd)
    (hctx : st.group.groupContext = st2.group.groupContext) (hi : st.group.interimTranscriptHash = st2.group.interimTranscriptHash)
    {a b : WireFormat × FramedContent × Bytes} (ha : Spec.firstCommit as = some a) (hab : a ≠ b) (hn : as.length < 2 ^ 64)
    {raw : Bytes} {now : GoTime} {d : Option Bytes} (hacc : unmarshalAndProcessMessage pr st' raw now = (.ok d, st'')) :
    ∃ (li : UInt32) (leaf : LeafNode), st'.vtree[2 * li.toNat % 2 ^ 32]? = some (some (.leaf leaf)) ∧
      ∀ calls key, Spec.Unforgeable pr calls sd.sig key leaf.signatureKey →
        (∀ sa, ((∃ data rand guard, calls (.message sa data rand guard)) ∨ ∃ kps r, calls (.invite sa kps r)) →
          ∃ bs st2', Trace pr st2 bs st2' ∧ bs.length < 2 ^ 64 ∧ Spec.firstCommit bs = some b ∧ sa.group.groupContext = st2'.group.groupContext) →
        ∃ bs st2', Trace pr st2 bs st2' ∧ Spec.firstCommit bs = some b ∧
          HistoryCollision (pr.hash sd.hash) st.group.interimTranscriptHash as bs := by
  have hcs := (C44_history pr st st' as h).1.cipherSuite
  obtain ⟨li, leaf, sd', g1, g2, g3⟩ := C83_message hc (h.reachable hr) hacc
  rw [hcs, hsd] at g2
  cases g2
  refine ⟨li, leaf, g1, fun calls key hu hside => ?_⟩
  obtain ⟨sa, k1, _, _, k4⟩ := g3 calls key hu
  obtain ⟨bs, st2', q1, q2, q3, q4⟩ := hside sa (by
    rcases k4 with ⟨data, rand, guard, k, _⟩ | ⟨kps, r, k, _⟩
    · exact .inl ⟨_, _, _, k⟩
    · exact .inr ⟨_, _, k⟩)
  rcases C85_apart hc h q1 hsd hctx hi ha q3 hab hn q2 with e | e
  · exact absurd (k1.symm.trans q4) e
  · exact ⟨bs, st2', q1, q3, e⟩

/-- **C85.** It happens whenever two members invite in one epoch and others process these invitations in different orders. -/
theorem C85_concurrent (hc : pr.Correct) {sa sb : GroupState} (hra : Reachable pr sa) (hrb : Reachable pr sb) (hab : SameView sa sb)
    (hne : sa.group.myLeafIndex ≠ sb.group.myLeafIndex) {kps kps2 : List KeyPackage} (hw : ∀ k ∈ kps, k.version = 1) (hw2 : ∀ k ∈ kps2, k.version = 1)
    {r r2 : WelcomeRand} {w w2 : Welcome} {raw raw2 : Bytes} {sa' sb' : GroupState} (h : createWelcome pr sa kps r = (.ok (w, raw), sa'))
    (h2 : createWelcome pr sb kps2 r2 = (.ok (w2, raw2), sb')) {st st2 st' st2' : GroupState} {now now2 : GoTime} {d d2 : Option Bytes}
    (hst : SameView sa st) (hst2 : SameView sa st2) (hacc : unmarshalAndProcessMessage pr st raw now = (.ok d, st'))
    (hacc2 : unmarshalAndProcessMessage pr st2 raw2 now2 = (.ok d2, st2')) :
    ∃ a b, Trace pr st [a] st' ∧ Trace pr st2 [b] st2' ∧ ∃ x y, Spec.firstCommit [a] = some x ∧ Spec.firstCommit [b] = some y ∧ x ≠ y := by
  obtain ⟨hp, t, sd, th, psk, sig, cth, js, es, tag, rawTree, isig, ctx, run, -⟩ := createWelcome_run h
  obtain ⟨hp2, t2, sd2, th2, psk2, sig2, cth2, js2, es2, tag2, rawTree2, isig2, ctx2, run2, -⟩ := createWelcome_run h2
  obtain ⟨a, e, hca, _⟩ := accepted_cases hacc
  obtain ⟨b, e2, hcb, _⟩ := accepted_cases hacc2
  have ka := run.carried hc (hra.inv hc) hst hw hca
  have kb := run2.carried hc (hrb.inv hc) (hab.symm.trans hst2) hw2 hcb
  refine ⟨a, b, .accept (.nil _) hca hacc, .accept (.nil _) hcb hacc2, a.committed, b.committed, ?_, ?_, ?_⟩
  · rw [ka]; rfl
  · rw [kb]; rfl
  · rw [ka, kb]
    intro e
    simp only [AuthenticatedContent.committed, Prod.mk.injEq] at e
    have e := congrArg (·.sender) e.2.1
    simp only [Group.framedContent, Sender.member.injEq] at e
    exact hne e

/-! ### An example -/

/-- The two members of the example group invite one more each in the same epoch, and each follows their own invitation. They started with one view of the group, and
the second refuses what the first sends from then on. -/
theorem toyFork : ∃ st st2 st' st2' m as bs a b, Reachable toyPrims st ∧ Reachable toyPrims st2 ∧ SameView st st2 ∧ Trace toyPrims st as st' ∧
    Trace toyPrims st2 bs st2' ∧ Spec.firstCommit as = some a ∧ Spec.firstCommit bs = some b ∧ a ≠ b ∧ as.length = 1 ∧ bs.length = 1 ∧
    createApplicationMessage toyPrims st' [1, 2] [] ⟨1, 2, 3, 4⟩ = .ok m ∧
    (unmarshalAndProcessMessage toyPrims st2' m toyLater).1 = .err := by
  have key : toyTwo.holds (fun (a, b) => decide (a.vtree = b.vtree) && decide (a.group.keyState = b.group.keyState) &&
      decide (a.group.pendingProposals = b.group.pendingProposals) && decide (a.group.myLeafIndex ≠ b.group.myLeafIndex) &&
      (createWelcome toyPrims a [(toyMember 2).pub] default).1.holds (fun (_, raw) =>
        (createWelcome toyPrims b [(toyMember 3).pub] default).1.holds (fun (_, raw2) =>
          decide ((unmarshalAndProcessMessage toyPrims a raw toyLater).1 = .ok none) &&
          decide ((unmarshalAndProcessMessage toyPrims b raw2 toyLater).1 = .ok none) &&
          (createApplicationMessage toyPrims (unmarshalAndProcessMessage toyPrims a raw toyLater).2 [1, 2] [] ⟨1, 2, 3, 4⟩).holds fun m =>
            decide ((unmarshalAndProcessMessage toyPrims (unmarshalAndProcessMessage toyPrims b raw2 toyLater).2 m toyLater).1 = .err)))) = true := by
    decide +kernel
  have hv2 : (toyMember 2).pub.version = 1 := by decide +kernel
  have hv3 : (toyMember 3).pub.version = 1 := by decide +kernel
  obtain ⟨⟨a, b⟩, h, key⟩ := Res.holds_ok key
  simp only [Bool.and_eq_true, decide_eq_true_eq] at key
  obtain ⟨⟨⟨⟨k1, k2⟩, k3⟩, k4⟩, key⟩ := key
  obtain ⟨⟨w, raw⟩, h1, key⟩ := Res.holds_ok key
  obtain ⟨⟨w2, raw2⟩, h2, key⟩ := Res.holds_ok key
  simp only [Bool.and_eq_true, decide_eq_true_eq] at key
  obtain ⟨⟨k5, k6⟩, key⟩ := key
  obtain ⟨m, h3, key⟩ := Res.holds_ok key
  rw [decide_eq_true_eq] at key
  obtain ⟨ra, rb⟩ := toyTwo_reachable h
  obtain ⟨x, y, t1, t2, u, v, f1, f2, hne⟩ := C85_concurrent toyPrims_correct ra rb ⟨k1, k2, k3⟩ k4
    (kps := [(toyMember 2).pub]) (kps2 := [(toyMember 3).pub]) (by simpa using hv2) (by simpa using hv3) (Prod.ext h1 rfl) (Prod.ext h2 rfl)
    ⟨rfl, rfl, rfl⟩ ⟨k1, k2, k3⟩ (Prod.ext k5 rfl) (Prod.ext k6 rfl)
  exact ⟨a, b, _, _, m, _, _, u, v, ra, rb, ⟨k1, k2, k3⟩, t1, t2, f1, f2, hne, rfl, rfl, h3, key⟩

end Mls
