import Verif.Spec.Transcript
import Verif.Props.Commit
import Verif.Props.Signing
/-
C39: the transcript hash commits to the whole history.
-/
namespace Mls

variable {pr : Prims}

/-- Two sequences of transcript entries with one collision at least among what is hashed for them. -/
def TranscriptCollision (hash : Bytes → Bytes) (i : Bytes) (l l2 : List Spec.TranscriptEntry) : Prop :=
  ∃ x ∈ Spec.hashedInputs hash i l, ∃ y ∈ Spec.hashedInputs hash i l2, x ≠ y ∧ hash x = hash y

theorem TranscriptCollision.cons {hash : Bytes → Bytes} {i : Bytes} {l l2 : List Spec.TranscriptEntry}
    (h : TranscriptCollision hash i l l2) (e e2 : Spec.TranscriptEntry) : TranscriptCollision hash i (e :: l) (e2 :: l2) := by
  obtain ⟨x, hx, y, hy, h⟩ := h
  exact ⟨x, by simp [Spec.hashedInputs, hx], y, by simp [Spec.hashedInputs, hy], h⟩

theorem vec_inj {a b : Bytes} (ha : a.length < 2 ^ 30) (hb : b.length < 2 ^ 30) (h : Spec.vec a = Spec.vec b) : a = b :=
  (uOpaque _ _ _ _ [] [] (writeOpaqueVec_vec ha) (writeOpaqueVec_vec hb) (by rw [h])).1

theorem interimAfter_length {hash : Bytes → Bytes} {n : Nat} (hl : ∀ x, (hash x).length = n) {i : Bytes} :
    ∀ {l l2 : List Spec.TranscriptEntry}, l.length = l2.length →
      (Spec.interimAfter hash i l).length = (Spec.interimAfter hash i l2).length
  | [], [], _ => rfl
  | (_, _) :: _, (_, _) :: _, _ => by rw [Spec.interimAfter, Spec.interimAfter, hl, hl]
  | [], _ :: _, h => by simp at h
  | _ :: _, [], h => by simp at h

/-- Equal interim hashes: the same entries, or a collision. -/
theorem interimAfter_inj {hash : Bytes → Bytes} {n : Nat} (hl : ∀ x, (hash x).length = n) {i : Bytes} :
    ∀ {l l2 : List Spec.TranscriptEntry}, l.length = l2.length → (∀ e ∈ l, e.2.length < 2 ^ 30) →
      (∀ e ∈ l2, e.2.length < 2 ^ 30) → Spec.interimAfter hash i l = Spec.interimAfter hash i l2 →
      l = l2 ∨ TranscriptCollision hash i l l2
  | [], [], _, _, _, _ => .inl rfl
  | (a, t) :: l, (b, u) :: l2, h, ht, hu, he => by
    rw [Spec.interimAfter, Spec.interimAfter] at he
    by_cases h1 : hash (Spec.interimAfter hash i l ++ a) ++ Spec.vec t = hash (Spec.interimAfter hash i l2 ++ b) ++ Spec.vec u
    · obtain ⟨h2, h3⟩ := List.append_inj h1 (by rw [hl, hl])
      obtain rfl := vec_inj (ht _ List.mem_cons_self) (hu _ List.mem_cons_self) h3
      by_cases h4 : Spec.interimAfter hash i l ++ a = Spec.interimAfter hash i l2 ++ b
      · obtain ⟨h5, rfl⟩ := List.append_inj h4 (interimAfter_length hl (by simpa using h))
        rcases interimAfter_inj hl (by simpa using h) (fun e he => ht e (List.mem_cons_of_mem _ he))
          (fun e he => hu e (List.mem_cons_of_mem _ he)) h5 with rfl | hcol
        · exact .inl rfl
        · exact .inr (hcol.cons _ _)
      · exact .inr ⟨_, by simp [Spec.hashedInputs], _, by simp [Spec.hashedInputs], h4, h2⟩
    · exact .inr ⟨_, by simp [Spec.hashedInputs], _, by simp [Spec.hashedInputs], h1, he⟩
  | [], _ :: _, h, _, _, _ => by simp at h
  | _ :: _, [], h, _, _, _ => by simp at h

/-- What a commit contributes to the transcript. -/
def EntryOf (a : AuthenticatedContent) (e : Spec.TranscriptEntry) : Prop :=
  encConfirmedTranscriptHashInput a.wireFormat a.content a.auth.signature = .ok e.1 ∧ e.2 = a.auth.confirmationTag ∧
    e.2.length < 2 ^ 30

/-- The transcript hashes of a group after any history are those of the commits it has accepted. -/
theorem trace_transcript {st st' : GroupState} {as : List AuthenticatedContent} (h : Trace pr st as st') {sd : SuiteDesc}
    (hsd : suite st.group.groupContext.cipherSuite = .ok sd) :
    ∃ l, List.Forall₂ EntryOf (as.filter (·.isCommit)).reverse l ∧
      st'.group.interimTranscriptHash = Spec.interimAfter (pr.hash sd.hash) st.group.interimTranscriptHash l ∧
      st'.group.groupContext.confirmedTranscriptHash = Spec.confirmedAfter (pr.hash sd.hash)
        st.group.groupContext.confirmedTranscriptHash st.group.interimTranscriptHash l := by
  induction h with
  | nil => exact ⟨[], .nil, rfl, rfl⟩
  | @accept st1 st2 as raw now a e d h hc hr ih =>
    obtain ⟨l, h1, h2, h3⟩ := ih
    have heff := message_effect (pr := pr) st1 raw now
    rw [hr, accepted_commit_iff hc hr] at heff
    rw [List.filter_append, List.reverse_append]
    by_cases hk : a.isCommit = true
    · have hcm : ∃ c, a.content.content = .commit c := by
        unfold AuthenticatedContent.isCommit Content.ty at hk
        split at hk <;> first | exact ⟨_, by assumption⟩ | simp at hk
      obtain ⟨c, hcm⟩ := hcm
      obtain ⟨_, _, _, _, _, _, hf⟩ := accepted_commit hc hcm hr
      have hsd1 : suite st1.group.groupContext.cipherSuite = .ok sd := by
        rw [(C44_history pr _ _ _ h).1.cipherSuite]; exact hsd
      obtain ⟨th, sec, input, ctx, _, g2, _, g4, _⟩ := finishCommit_next hsd1 hf
      have hcth : st2.group.groupContext.confirmedTranscriptHash =
          Spec.confirmedHash pr sd st1.group.interimTranscriptHash input := by
        have := congrArg GroupContext.confirmedTranscriptHash g4.context
        exact this
      have hint : st2.group.interimTranscriptHash = Spec.interimHash pr sd st2.group.groupContext.confirmedTranscriptHash
          a.auth.confirmationTag := g4.interim
      refine ⟨(input, a.auth.confirmationTag) :: l, ?_, ?_, ?_⟩
      · simp only [List.filter_cons, hk, if_true, List.filter_nil, List.reverse_cons, List.reverse_nil, List.nil_append,
          List.singleton_append]
        exact .cons ⟨g2, rfl, g4.tag⟩ h1
      · rw [hint, hcth, Spec.interimAfter, ← h2]; rfl
      · rw [hcth, Spec.confirmedAfter, ← h2]; rfl
    · rcases heff.2 with ⟨h4, _⟩ | ⟨_, h4⟩
      · exact absurd h4 hk
      · refine ⟨l, ?_, ?_, ?_⟩
        · simpa [hk] using h1
        · rw [h4]; exact h2
        · rw [h4]; exact h3
  | refuse h hr ih => rw [refuse_group hr]; exact ih
  | @invite st1 st2 as kps r o h hr ho ih =>
    have := createWelcome_group (pr := pr) st1 kps r
    rw [hr] at this
    rw [this]; exact ih

/-- A commit without its confirmation tag. -/
def AuthenticatedContent.committed (a : AuthenticatedContent) : WireFormat × FramedContent × Bytes :=
  (a.wireFormat, a.content, a.auth.signature)

theorem EntryOf.inj {a b : AuthenticatedContent} {e e2 : Spec.TranscriptEntry} (h : EntryOf a e) (h2 : EntryOf b e2) (he : e.1 = e2.1) :
    a.committed = b.committed := by
  have k1 := h.1
  have k2 := h2.1
  unfold encConfirmedTranscriptHashInput at k1 k2
  split at k1 <;> try cases k1
  split at k2 <;> try cases k2
  simp only [Enc.append_assoc, Enc.append_ok_iff] at k1 k2
  obtain ⟨x, _, e0, ⟨y, z, e1, e2', rfl⟩, ex⟩ := k1
  obtain ⟨x', _, f0, ⟨y', z', f1, f2', rfl⟩, fx⟩ := k2
  rw [ex, fx] at he
  obtain ⟨h0, he⟩ := uWireFormat _ _ _ _ _ _ e0 f0 he
  obtain ⟨h1, he⟩ := uFramedContent _ _ _ _ _ _ e1 f1 he
  obtain ⟨h2, _⟩ := uOpaque _ _ _ _ [] [] e2' f2' (by rw [he])
  unfold AuthenticatedContent.committed
  rw [h0, h1, h2]

theorem entries_committed {as bs : List AuthenticatedContent} {l l2 : List Spec.TranscriptEntry} (h : List.Forall₂ EntryOf as l) (h2 : List.Forall₂ EntryOf bs l2)
    (he : l.map (·.1) = l2.map (·.1)) : as.map (·.committed) = bs.map (·.committed) := by
  induction h generalizing bs l2 with
  | nil =>
    cases h2 with
    | nil => rfl
    | cons => simp at he
  | cons h hs ih =>
    cases h2 with
    | nil => simp at he
    | cons h' hs' =>
      simp only [List.map_cons, List.cons.injEq] at he ⊢
      exact ⟨h.inj h' he.1, ih hs' he.2⟩

theorem entries_tags {as : List AuthenticatedContent} {l : List Spec.TranscriptEntry} (h : List.Forall₂ EntryOf as l) :
    as.map (·.auth.confirmationTag) = l.map (·.2) := by
  induction h with
  | nil => rfl
  | cons h hs ih => simp only [List.map_cons, ih, h.2.1]

theorem entries_length {as : List AuthenticatedContent} {l : List Spec.TranscriptEntry} (h : List.Forall₂ EntryOf as l) :
    as.length = l.length := by
  have := congrArg List.length (entries_tags h)
  simpa using this

theorem entries_bound {as : List AuthenticatedContent} {l : List Spec.TranscriptEntry} (h : List.Forall₂ EntryOf as l) :
    ∀ e ∈ l, e.2.length < 2 ^ 30 := by
  induction h with
  | nil => simp
  | cons h hs ih =>
    intro e he
    rcases List.mem_cons.1 he with rfl | he
    · exact h.2.2
    · exact ih e he

/-- **C39.** Two groups of one cipher suite with equal interim transcript hashes that then go through any histories with the same number of
commits and end with equal confirmed transcript hashes have accepted the same commits in the same order: wire
format, framed content and signature of each are equal, and so are the confirmation tags of all but the last; and if the interim
transcript hashes are equal at the end, so is the last tag. Otherwise there is a collision among what was hashed
for the two transcripts. -/
theorem C39_history (hc : pr.Correct) {st st2 st' st2' : GroupState} {as bs : List AuthenticatedContent}
    (h : Trace pr st as st') (h2 : Trace pr st2 bs st2') {sd : SuiteDesc}
    (hsd : suite st.group.groupContext.cipherSuite = .ok sd) (hcs : st2.group.groupContext.cipherSuite = st.group.groupContext.cipherSuite)
    (hi : st.group.interimTranscriptHash = st2.group.interimTranscriptHash)
    (hn : as.countP (·.isCommit) = bs.countP (·.isCommit))
    (he : st'.group.groupContext.confirmedTranscriptHash = st2'.group.groupContext.confirmedTranscriptHash) :
    ((as.filter (·.isCommit)).map (·.committed) = (bs.filter (·.isCommit)).map (·.committed) ∧
      ((as.filter (·.isCommit)).map (·.auth.confirmationTag)).dropLast =
        ((bs.filter (·.isCommit)).map (·.auth.confirmationTag)).dropLast ∧
      (st'.group.interimTranscriptHash = st2'.group.interimTranscriptHash →
        (as.filter (·.isCommit)).map (·.auth.confirmationTag) = (bs.filter (·.isCommit)).map (·.auth.confirmationTag))) ∨
    ∃ l l2, List.Forall₂ EntryOf (as.filter (·.isCommit)).reverse l ∧ List.Forall₂ EntryOf (bs.filter (·.isCommit)).reverse l2 ∧
      TranscriptCollision (pr.hash sd.hash) st.group.interimTranscriptHash l l2 := by
  obtain ⟨l, k1, k2, k3⟩ := trace_transcript h hsd
  obtain ⟨l2, j1, j2, j3⟩ := trace_transcript h2 (sd := sd) (by rw [hcs]; exact hsd)
  rw [← hi] at j2 j3
  have hlen : l.length = l2.length := by
    rw [← entries_length k1, ← entries_length j1]
    simp only [List.length_reverse, ← List.countP_eq_length_filter]
    exact hn
  have b1 := entries_bound k1
  have b2 := entries_bound j1
  have hl : ∀ x, (pr.hash sd.hash x).length = sd.hash.size := hc.hash_length sd.hash
  rw [k3, j3] at he
  clear k3 j3
  generalize hA : as.filter (·.isCommit) = A at *
  generalize hB : bs.filter (·.isCommit) = B at *
  -- the last commits
  cases l with
  | nil =>
    cases l2 with
    | cons => simp at hlen
    | nil =>
      have eA : A = [] := by simpa using entries_length k1
      have eB : B = [] := by simpa using entries_length j1
      rw [eA, eB]
      exact .inl ⟨rfl, rfl, fun _ => rfl⟩
  | cons e l =>
    obtain ⟨a, t⟩ := e
    cases l2 with
    | nil => simp at hlen
    | cons e2 l2 =>
      obtain ⟨b, u⟩ := e2
      rw [Spec.confirmedAfter, Spec.confirmedAfter] at he
      by_cases h4 : Spec.interimAfter (pr.hash sd.hash) st.group.interimTranscriptHash l ++ a =
          Spec.interimAfter (pr.hash sd.hash) st.group.interimTranscriptHash l2 ++ b
      · obtain ⟨h5, rfl⟩ := List.append_inj h4 (interimAfter_length hl (by simpa using hlen))
        rcases interimAfter_inj hl (by simpa using hlen) (fun e he => b1 e (List.mem_cons_of_mem _ he))
          (fun e he => b2 e (List.mem_cons_of_mem _ he)) h5 with rfl | hcol
        · have hcm := entries_committed k1 j1 rfl
          have ht1 := entries_tags k1
          have ht2 := entries_tags j1
          have rA : A.map (·.auth.confirmationTag) = (l.map (·.2)).reverse ++ [t] := by
            have := congrArg List.reverse ht1
            simpa [List.map_reverse] using this
          have rB : B.map (·.auth.confirmationTag) = (l.map (·.2)).reverse ++ [u] := by
            have := congrArg List.reverse ht2
            simpa [List.map_reverse] using this
          by_cases hx : st'.group.interimTranscriptHash = st2'.group.interimTranscriptHash ∧ t ≠ u
          · obtain ⟨hx, htu⟩ := hx
            rw [k2, j2, Spec.interimAfter, Spec.interimAfter] at hx
            refine .inr ⟨_, _, k1, j1, _, by simp [Spec.hashedInputs], _, by simp [Spec.hashedInputs], ?_, hx⟩
            intro hcon
            exact htu (vec_inj (b1 _ List.mem_cons_self) (b2 _ List.mem_cons_self) (List.append_cancel_left hcon))
          · refine .inl ⟨by simpa [List.map_reverse] using congrArg List.reverse hcm, ?_, ?_⟩
            · rw [rA, rB, List.dropLast_concat, List.dropLast_concat]
            · intro hy
              have htu : t = u := by
                by_contra hne
                exact hx ⟨hy, hne⟩
              rw [rA, rB, htu]
        · exact .inr ⟨_, _, k1, j1, hcol.cons _ _⟩
      · exact .inr ⟨_, _, k1, j1, _, by simp [Spec.hashedInputs], _, by simp [Spec.hashedInputs], h4, he⟩

/-- A history with a commit, of a group that can be reached: `0` accepts a commit of `1`. -/
example : ∃ st as st', Reachable toyPrims st ∧ Trace toyPrims st as st' ∧ as.countP (·.isCommit) = 1 ∧
    st'.group.groupContext.confirmedTranscriptHash ≠ st.group.groupContext.confirmedTranscriptHash := by
  have key : (match toyTwo with
    | .ok (a, _) =>
      let x := unmarshalAndProcessMessage toyPrims a (toyCommit a 1 1 [] (List.replicate 32 9) []) toyLater
      decide (x.1 = .ok none ∧ x.2.group.groupContext.epoch = a.group.groupContext.epoch + 1 ∧
        x.2.group.groupContext.confirmedTranscriptHash ≠ a.group.groupContext.confirmedTranscriptHash)
    | _ => false) = true := by decide +kernel
  split at key <;> try cases key
  next a b ht =>
  have ha := (toyTwo_reachable ht).1
  obtain ⟨k1, k2, k3⟩ := of_decide_eq_true key
  clear ht key
  generalize toyCommit a 1 1 [] (List.replicate 32 9) [] = m at *
  rcases hx : unmarshalAndProcessMessage toyPrims a m toyLater with ⟨r, st'⟩
  rw [hx] at k1 k2 k3
  obtain rfl : r = .ok none := k1
  obtain ⟨c, e, hc, _⟩ := accepted_cases hx
  have hacc := ((C44_message toyPrims a m toyLater).2.1.2 (by rw [hx]; exact k2))
  have hk := (accepted_commit_iff hc hx).1 hacc
  exact ⟨a, _, st', ha, .accept (.nil a) hc hx, by simp [hk], k3⟩

end Mls
