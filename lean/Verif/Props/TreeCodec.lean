import Verif.Props.TreeRead
import Verif.Proofs.TreeOps
/-
C26, C64: the ratchet tree extension.
-/
namespace Mls

open Spec (Ratchet ITree nodeAt)

theorem padLoop_spec {e : Nat} (he : e ≤ 30) (n fuel : Nat) (t : VTree) (h1 : 2 ^ e < t.length + 1)
    (hn : t.length + 1 + n = 2 ^ (e + 1)) (hf : n ≤ fuel) :
    padLoop fuel t = .ok (t ++ List.replicate n none) := by
  have hb : 2 ^ (e + 1) ≤ 2 ^ 31 := Nat.pow_le_pow_right (by decide) (by omega)
  have hb' : 2 ^ (e + 1) < 2 ^ 32 := Nat.lt_of_le_of_lt hb (by decide)
  induction n generalizing fuel t with
  | zero =>
    have hp : isPowerOf2 ((t.length + 1) % 2 ^ 32) = true := by
      rw [Nat.mod_eq_of_lt (by omega), show t.length + 1 = 2 ^ (e + 1) by omega]
      exact isPowerOf2_pow _
    cases fuel with
    | zero => rw [padLoop, if_pos hp]; simp
    | succ fuel => rw [padLoop, if_pos hp]; simp
  | succ n ih =>
    obtain ⟨fuel, rfl⟩ : ∃ f, fuel = f + 1 := ⟨fuel - 1, by omega⟩
    have hp : isPowerOf2 ((t.length + 1) % 2 ^ 32) = false := by
      rw [Nat.mod_eq_of_lt (by omega)]
      exact isPowerOf2_between h1 (by omega)
    rw [padLoop, if_neg (by rw [hp]; decide), ih fuel (t ++ [none]) (by simp; omega) (by simp; omega) (by omega),
      List.append_assoc, List.replicate_succ]
    rfl

theorem between_pow (n : Nat) (h : 2 ≤ n) : ∃ e, 2 ^ e < n ∧ n ≤ 2 ^ (e + 1) := by
  induction n with
  | zero => omega
  | succ n ih =>
    rcases Nat.lt_or_ge n 2 with hn | hn
    · obtain rfl : n = 1 := by omega
      exact ⟨0, by decide, by decide⟩
    · obtain ⟨e, h1, h2⟩ := ih hn
      rcases Nat.lt_or_ge n (2 ^ (e + 1)) with h3 | h3
      · exact ⟨e, by omega, by omega⟩
      · exact ⟨e + 1, by omega, by rw [Nat.pow_succ 2 (e + 1)]; have := Nat.two_pow_pos (e + 1); omega⟩

/-- Filling up: nothing for the empty tree, otherwise up to the next power of two. -/
theorem padLoop_total (t : VTree) (ht : t.length < 2 ^ 30) :
    ∃ n k, padLoop (t.length + 1) t = .ok (t ++ List.replicate n none) ∧ k ≤ 31 ∧ t.length + n = 2 ^ k - 1 ∧
      (t.length = 0 ∨ 2 ^ (k - 1) ≤ t.length) := by
  rcases Nat.eq_zero_or_pos t.length with h0 | h0
  · refine ⟨0, 0, ?_, by decide, by omega, .inl h0⟩
    rw [h0, padLoop, if_pos (by rw [h0]; decide)]
    simp
  · obtain ⟨e, h1, h2⟩ := between_pow (t.length + 1) (by omega)
    have he : e ≤ 30 := by
      have : 2 ^ e < 2 ^ 31 := by
        have : (2 : Nat) ^ 31 = 2 * 2 ^ 30 := by decide
        omega
      have := (Nat.pow_lt_pow_iff_right (by decide : 1 < 2)).1 this
      omega
    refine ⟨2 ^ (e + 1) - (t.length + 1), e + 1, padLoop_spec he _ _ t h1 (by omega) ?_, by omega, by omega, .inr ?_⟩
    · rw [Nat.pow_succ] at h2 ⊢; omega
    · simp only [Nat.add_sub_cancel]; omega

theorem stripBlanks_spec (t : VTree) : ∃ n, t = stripBlanks t ++ List.replicate n none ∧
    (stripBlanks t = [] ∨ ∃ a, (stripBlanks t).getLast? = some (some a)) := by
  unfold stripBlanks
  refine ⟨(t.reverse.takeWhile Option.isNone).length, ?_, ?_⟩
  · conv => lhs; rw [← List.reverse_reverse t, ← List.takeWhile_append_dropWhile (p := Option.isNone) (l := t.reverse),
      List.reverse_append]
    congr 1
    rw [List.eq_replicate_iff]
    refine ⟨by simp, fun b hb => ?_⟩
    rw [List.mem_reverse] at hb
    simpa using List.all_eq_true.1 (List.all_takeWhile (p := Option.isNone) (l := t.reverse)) b hb
  · rw [List.getLast?_reverse]
    cases hd : t.reverse.dropWhile Option.isNone with
    | nil => exact .inl rfl
    | cons a l =>
      right
      have := List.head?_dropWhile_not (p := Option.isNone) (l := t.reverse)
      rw [hd] at this
      cases a with
      | none => simp at this
      | some a => exact ⟨a, rfl⟩

theorem nodeAt_pad (t : VTree) (n x : Nat) : nodeAt (t ++ List.replicate n none) x = nodeAt t x := by
  unfold nodeAt
  rcases Nat.lt_or_ge x t.length with h | h
  · rw [List.getElem?_append_left h]
  · rw [List.getElem?_append_right h, List.getElem?_eq_none h, List.getElem?_replicate]
    split <;> rfl

theorem encOptNode_length {o : Option Node} {b : Bytes} (h : encOptNode o = .ok b) : 1 ≤ b.length := by
  unfold encOptNode at h
  cases o with
  | none =>
    simp only [writeOptional, addU8_eq, Res.ok.injEq] at h
    subst h; simp
  | some n =>
    simp only [Enc.append_ok_iff, writeOptional, addU8_eq, Res.ok.injEq] at h
    obtain ⟨_, _, rfl, _, rfl⟩ := h
    simp

theorem concat_length {l : List (Option Node)} {raw : Bytes} (h : Enc.concat (l.map encOptNode) = .ok raw) :
    l.length ≤ raw.length := by
  induction l generalizing raw with
  | nil => simp
  | cons a l ih =>
    simp only [List.map_cons, Enc.concat, Enc.append_ok_iff] at h
    obtain ⟨x, y, h1, h2, rfl⟩ := h
    have := encOptNode_length h1
    have := ih h2
    simp only [List.length_cons, List.length_append]
    omega

theorem writeVector_count {l : List (Option Node)} {raw : Bytes} (h : writeVector encOptNode l = .ok raw) :
    l.length < 2 ^ 30 := by
  unfold writeVector at h
  split at h
  · next b hb =>
    have := concat_length hb
    have : b.length < 2 ^ 30 := by
      by_contra hn
      rw [writeOpaqueVec_long hn] at h
      cases h
    omega
  all_goals cases h

theorem decTree_run (s : Bytes) {l : VTree} {rest : Bytes} (h : (readVector decOptNode).run s = (.ok l, rest)) :
    decTree.run s = (padLoop (l.length + 1) l, rest) := by
  unfold decTree
  rw [P.bind_eq h]

/-- **C26.** Decoding an encoded array gives a complete tree with the same nodes at the same
places: only blanks at the end can differ. For every array of nodes. -/
theorem C26_nodes {t : VTree} {raw : Bytes} (h : encTree t = .ok raw) :
    ∃ t', unmarshal decTree raw = .ok t' ∧ (∀ x, nodeAt t' x = nodeAt t x) ∧ ∃ k, t'.length = 2 ^ k - 1 := by
  have hrt := vecOptNode_rt _ raw [] h trivial
  rw [List.append_nil] at hrt
  obtain ⟨n, k, hp, _, hk, _⟩ := padLoop_total _ (writeVector_count h)
  obtain ⟨m, hm, _⟩ := stripBlanks_spec t
  refine ⟨_, unmarshal_ok_iff.2 ((decTree_run _ hrt).trans (by rw [hp])), fun x => ?_, k, ?_⟩
  · conv => rhs; rw [hm]
    rw [nodeAt_pad, nodeAt_pad]
  · rw [List.length_append, List.length_replicate, hk]

/-- Two arrays of the same length with the same nodes are equal. -/
theorem eq_of_nodeAt {t t' : VTree} (hl : t.length = t'.length) (h : ∀ x, nodeAt t x = nodeAt t' x) : t = t' := by
  apply List.ext_getElem hl
  intro x h1 h2
  have := h x
  unfold nodeAt at this
  rw [List.getElem?_eq_getElem h1, List.getElem?_eq_getElem h2] at this
  exact this

/-- **C26.** Decoding an encoded ratchet tree gives the same tree, for every complete tree with a
node at the root or in the right half. -/
theorem C26_roundtrip {t : VTree} {raw : Bytes} {d : Nat} (hl : t.length = 2 ^ (d + 1) - 1) {x : Nat}
    (hx : 2 ^ d - 1 ≤ x) (hn : nodeAt t x ≠ none) (h : encTree t = .ok raw) : unmarshal decTree raw = .ok t := by
  have hrt := vecOptNode_rt _ raw [] h trivial
  rw [List.append_nil] at hrt
  obtain ⟨n, k, hp, _, hk, hk2⟩ := padLoop_total _ (writeVector_count h)
  obtain ⟨m, hm, _⟩ := stripBlanks_spec t
  have hxl : x < (stripBlanks t).length := by
    by_contra hge
    apply hn
    rw [hm, nodeAt_pad]
    unfold nodeAt
    rw [List.getElem?_eq_none (by omega)]
    rfl
  rw [unmarshal_ok_iff, decTree_run _ hrt, hp]
  congr 2
  apply eq_of_nodeAt
  · have hlen : (stripBlanks t).length ≤ t.length := by
      conv => rhs; rw [hm]
      simp
    have e1 : 2 ^ (d + 1) = 2 * 2 ^ d := by rw [Nat.pow_succ]; omega
    have e2 : 0 < 2 ^ d := Nat.two_pow_pos d
    have hkd : k = d + 1 := by
      have hk0 : 0 < k := by
        rcases Nat.eq_zero_or_pos k with rfl | h
        · omega
        · exact h
      have e3 : 2 ^ k = 2 * 2 ^ (k - 1) := by
        conv => lhs; rw [show k = (k - 1) + 1 by omega, Nat.pow_succ]
        omega
      have a1 : 2 ^ (k - 1) < 2 ^ (d + 1) := by omega
      have a2 : 2 ^ d < 2 ^ k := by omega
      have b1 := (Nat.pow_lt_pow_iff_right (by decide : 1 < 2)).1 a1
      have b2 := (Nat.pow_lt_pow_iff_right (by decide : 1 < 2)).1 a2
      omega
    rw [List.length_append, List.length_replicate, hk, hl, hkd]
  · intro y
    conv => rhs; rw [hm]
    rw [nodeAt_pad, nodeAt_pad]

/-- **C26.** The condition of `C26_roundtrip` is needed: a complete tree whose root and right half are
blank comes back smaller. The code never keeps such a tree (C22). -/
theorem C26_roundtrip_only {t : VTree} {raw : Bytes} {d : Nat} (hl : t.length = 2 ^ (d + 1) - 1)
    (h : encTree t = .ok raw) (hr : unmarshal decTree raw = .ok t) : ∃ x, 2 ^ d - 1 ≤ x ∧ nodeAt t x ≠ none := by
  have hrt := vecOptNode_rt _ raw [] h trivial
  rw [List.append_nil] at hrt
  obtain ⟨n, k, hp, _, hk, hk2⟩ := padLoop_total _ (writeVector_count h)
  obtain ⟨m, hm, hlast⟩ := stripBlanks_spec t
  rw [unmarshal_ok_iff, decTree_run _ hrt, hp] at hr
  simp only [Prod.mk.injEq, Res.ok.injEq, and_true] at hr
  have e2 : 0 < 2 ^ d := Nat.two_pow_pos d
  have e1 : 2 ^ (d + 1) = 2 * 2 ^ d := by rw [Nat.pow_succ]; omega
  have hlen : 2 ^ k - 1 = 2 ^ (d + 1) - 1 := by
    rw [← hl, ← hk]
    have := congrArg List.length hr
    simpa using this
  have hkd : k = d + 1 := by
    have h1 : 0 < 2 ^ k := Nat.two_pow_pos _
    exact Nat.pow_right_injective (Nat.le_refl 2) (by show 2 ^ k = 2 ^ (d + 1); omega)
  rcases hlast with h0 | ⟨a, ha⟩
  · exfalso
    rw [h0] at hrt hp hk
    rw [padLoop, if_pos (by decide), Res.ok.injEq, eq_comm, List.nil_append] at hp
    have : n = 0 := by simpa using congrArg List.length hp
    subst this
    simp only [List.length_nil] at hk
    omega
  · have hpos : 0 < (stripBlanks t).length := by
      cases hs : stripBlanks t with
      | nil => rw [hs] at ha; cases ha
      | cons _ _ => simp
    refine ⟨(stripBlanks t).length - 1, ?_, ?_⟩
    · rw [hkd, Nat.add_sub_cancel] at hk2
      omega
    · have : nodeAt t ((stripBlanks t).length - 1) = nodeAt (stripBlanks t) ((stripBlanks t).length - 1) := by
        conv => lhs; rw [hm, nodeAt_pad]
        rw [← hm]
      rw [this]
      unfold nodeAt
      rw [List.getLast?_eq_getElem?] at ha
      rw [ha]
      simp

/-- **C26.** Whatever bytes are decoded, the result has the length of a complete tree. -/
theorem C26_decoded_length {raw : Bytes} {t : VTree} (h : unmarshal decTree raw = .ok t) :
    ∃ k, k ≤ 31 ∧ t.length = 2 ^ k - 1 := by
  rw [unmarshal_ok_iff] at h
  unfold decTree at h
  rw [P.bind_ok_iff] at h
  obtain ⟨l, s, h1, h2⟩ := h
  obtain ⟨bs, hb, _⟩ := vecOptNode_canon _ _ _ h1 trivial
  obtain ⟨n, k, hp, hk, hlen, _⟩ := padLoop_total l (writeVector_count hb)
  simp only [hp, Prod.mk.injEq, Res.ok.injEq] at h2
  rw [← h2.1]
  exact ⟨k, hk, by rw [List.length_append, List.length_replicate, hlen]⟩

/-- **C26.** Decoding a ratchet tree neither panics nor loops forever. -/
theorem C26_safe (raw : Bytes) : unmarshal decTree raw ≠ .panic ∧ unmarshal decTree raw ≠ .hang := by
  unfold unmarshal
  have h := vecOptNode_safe raw
  unfold decTree
  rw [P.bind_run]
  rcases hr : (readVector decOptNode).run raw with ⟨r, s⟩
  rw [hr] at h
  cases r with
  | ok l =>
    obtain ⟨bs, hb, _⟩ := vecOptNode_canon _ _ _ hr trivial
    obtain ⟨n, k, hp, _⟩ := padLoop_total l (writeVector_count hb)
    simp only [hp]
    cases s <;> simp
  | err => simp
  | panic => simp at h
  | hang => simp at h

/-- The hypotheses hold of a tree of four leaves. -/
example : ∃ raw, encTree toyVTree = .ok raw ∧ unmarshal decTree raw = .ok toyVTree := by
  have : ∃ raw, encTree toyVTree = .ok raw := by
    cases h : encTree toyVTree with
    | ok raw => exact ⟨raw, rfl⟩
    | _ => exact absurd h (by decide +kernel)
  obtain ⟨raw, h⟩ := this
  exact ⟨raw, h, C26_roundtrip (d := 2) rfl (x := 4) (by decide) (by decide +kernel) h⟩

/-- **C26 fails for the kinds of nodes.** A vector with a parent node at an even position decodes:
the result is not a ratchet tree. -/
theorem C26_kinds_refuted : ∃ raw t, unmarshal decTree raw = .ok t ∧ ¬ Spec.IsTree t := by
  refine ⟨[6, 1, 2, 1, 9, 0, 0], [some (.parent ⟨[9], [], []⟩)], by decide +kernel, ?_⟩
  rintro ⟨_, _, h⟩
  exact absurd (h 0 _ rfl) (by decide)

/-! ### C64 -/

/-- **C64 fails.** A ratchet tree has more than one accepted encoding: blanks at the end of the
vector are accepted. -/
theorem C64_refuted : ∃ raw raw' t, raw ≠ raw' ∧ unmarshal decTree raw = .ok t ∧ unmarshal decTree raw' = .ok t ∧
    encTree t = .ok raw := by
  have h1 : ∃ raw, encTree toyVTree = .ok raw := by
    cases h : encTree toyVTree with
    | ok raw => exact ⟨raw, rfl⟩
    | _ => exact absurd h (by decide +kernel)
  have h2 : ∃ raw, writeVector encOptNode toyVTree = .ok raw := by
    cases h : writeVector encOptNode toyVTree with
    | ok raw => exact ⟨raw, rfl⟩
    | _ => exact absurd h (by decide +kernel)
  obtain ⟨raw, h1⟩ := h1
  obtain ⟨raw', h2⟩ := h2
  refine ⟨raw, raw', toyVTree, ?_, C26_roundtrip (d := 2) rfl (x := 4) (by decide) (by decide +kernel) h1, ?_, h1⟩
  · rintro rfl
    rw [← h1] at h2
    exact absurd h2 (by decide +kernel)
  · have := vecOptNode_rt _ raw' [] h2 trivial
    rw [List.append_nil] at this
    rw [unmarshal_ok_iff, decTree_run _ this]
    rfl

end Mls
