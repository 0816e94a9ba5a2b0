import Verif.Proofs.Effort
import Verif.Props.Integrity
/-
What the verification of a ratchet tree costs, in terms of the bytes that the tree was read from.
-/
namespace Mls

open Spec (nodeAt)

variable {pr : Prims} {pc : Prices}

theorem optNode_size {n : Option Node} {bs : Bytes} (h : encOptNode n = .ok bs) :
    nodeSize n ≤ bs.length + 9 ∧ 2 * nodeEntries n ≤ bs.length := by
  cases n with
  | none => exact ⟨Nat.zero_le _, Nat.zero_le _⟩
  | some n =>
    simp only [encOptNode, Enc.append_ok_iff] at h
    obtain ⟨a, b, _, hb, rfl⟩ := h
    rw [List.length_append]
    cases n with
    | leaf l =>
      simp only [Node.enc, Enc.append_ok_iff] at hb
      obtain ⟨c, e, _, he, rfl⟩ := hb
      refine ⟨by simp only [nodeSize, he, List.length_append]; omega, ?_⟩
      simp only [LeafNode.enc, LeafNode.encBase, Capabilities.enc, Enc.append_ok_iff] at he
      obtain ⟨_, _, ⟨_, _, ⟨_, _, ⟨_, _, _, ⟨_, v, _, hv, rfl⟩, rfl⟩, _, rfl⟩, _, rfl⟩, _, rfl⟩ := he
      have := vector_le addU16_size hv
      simp only [nodeEntries, List.length_append]
      omega
    | parent p =>
      simp only [Node.enc, Enc.append_ok_iff] at hb
      obtain ⟨c, e, _, he, rfl⟩ := hb
      have := parentEnc_le he
      simp only [nodeSize, nodeEntries, List.length_append]
      omega

theorem concat_size : ∀ {l : VTree} {bs : Bytes}, Enc.concat (l.map encOptNode) = .ok bs →
    (l.map nodeSize).sum ≤ bs.length + 9 * l.length ∧ 2 * treeEntries l ≤ bs.length := by
  intro l
  induction l with
  | nil => intro bs _; exact ⟨Nat.zero_le _, Nat.zero_le _⟩
  | cons a l ih =>
    intro bs h
    simp only [List.map_cons, Enc.concat, Enc.append_ok_iff] at h
    obtain ⟨x, y, h1, h2, rfl⟩ := h
    have e1 := optNode_size h1
    have e2 := ih h2
    unfold treeEntries at *
    simp only [List.map_cons, List.sum_cons, List.length_append, List.length_cons]
    omega

theorem sum_blank {f : Option Node → Nat} (h : f none = 0) (n : Nat) : ((List.replicate n none).map f).sum = 0 := by
  induction n with
  | zero => rfl
  | succ n ih => rw [List.replicate_succ, List.map_cons, List.sum_cons, ih, h]

theorem sum_work (t : VTree) : (t.map (nodeWork pc)).sum =
    3 * (pc.step * (t.length + treeEntries t)) + (pc.call * t.length + pc.byte * (138 * t.length + (t.map nodeSize).sum)) := by
  unfold treeEntries
  induction t with
  | nil => rfl
  | cons a t ih =>
    simp only [List.map_cons, List.sum_cons, List.length_cons, ih]
    unfold nodeWork stepWork hashWork
    ring

theorem sum_nodes (t : VTree) (f : Option Node → Nat) : ((List.range t.length).map fun i => f (nodeAt t i)).sum = (t.map f).sum := by
  congr 1
  refine List.ext_getElem (by simp) fun i h1 h2 => ?_
  have : i < t.length := by simpa using h2
  simp [nodeAt, this]

/-- **C123.** Forgetting what it costs gives the function that the rest of the model is about. -/
theorem C123_same (t : VTree) (ctx : GroupContext) (now : GoTime) :
    (verifyIntegrityE pr pc t ctx now).result = verifyIntegrity pr t ctx now := verifyIntegrityE_result t ctx now

/-- **C123.** Whatever the bytes are that a ratchet tree was read from, and whatever comes of its verification: the hash function is called at most
2(d+4) times for each byte, over at most 286(d+4) bytes for each, where 2^d is at most the number of bytes; at most one signature for each is verified; and the number of steps grows
with the square of the number of bytes, at most. -/
theorem C123_work (hc : pr.Correct) {raw : Bytes} {t : VTree} (h : unmarshal decTree raw = .ok t) :
    ∃ d, d ≤ 30 ∧ 2 ^ d ≤ raw.length ∧ ∀ pc ctx now, (verifyIntegrityE pr pc t ctx now).cost ≤
      (d + 4) * raw.length * (2 * pc.call + 286 * pc.byte + 9 * pc.step) + raw.length * pc.verification +
        raw.length * (3 + 64 * (1 + raw.length)) * pc.step := by
  rw [unmarshal_ok_iff] at h
  unfold decTree at h
  rw [P.bind_ok_iff] at h
  obtain ⟨l, s, h1, h2⟩ := h
  obtain ⟨bs, hb, hraw⟩ := vecOptNode_canon _ _ _ h1 trivial
  obtain ⟨n, k, hp, hk, hlen, hpow⟩ := padLoop_total l (writeVector_count hb)
  simp only [hp, Prod.mk.injEq, Res.ok.injEq] at h2
  obtain ⟨ht, rfl⟩ := h2
  rw [List.append_nil] at hraw
  subst hraw
  unfold writeVector at hb
  split at hb
  rotate_left
  · cases hb
  · cases hb
  · cases hb
  next cs hcs =>
  have hle := (opaqueVec_le hb).1
  have hlt := (writeOpaqueVec_length hb).2
  obtain ⟨hsize, hent⟩ := concat_size hcs
  have hcount := concat_length hcs
  generalize raw.length = r at *
  have hlen' : t.length = 2 ^ k - 1 := by rw [← ht, List.length_append, List.length_replicate, hlen]
  cases k with
  | zero =>
    have : t = [] := List.eq_nil_of_length_eq_zero (by simpa using hlen')
    subst this
    refine ⟨0, by decide, by simp; omega, fun pc ctx now => ?_⟩
    have e : (verifyIntegrityE pr pc [] ctx now).cost = pc.step := rfl
    rw [e]
    have : pc.step ≤ r * (3 + 64 * (1 + r)) * pc.step := Nat.le_mul_of_pos_left _ (Nat.mul_pos (by omega) (by omega))
    omega
  | succ d =>
    have hd : 2 ^ d ≤ l.length := by
      rcases hpow with h0 | h0
      · have hl0 : l = [] := List.eq_nil_of_length_eq_zero h0
        subst hl0
        rw [List.length_nil, padLoop, if_pos (by decide)] at hp
        have := Res.ok.inj hp
        rw [List.nil_append] at this
        have hn : n = 0 := by have := congrArg List.length this; simpa using this.symm
        rw [hn] at hlen
        have := Nat.two_pow_pos d
        rw [Nat.pow_succ] at hlen
        simp only [List.length_nil] at hlen
        omega
      · simpa using h0
    have e30 : d ≤ 30 := by omega
    have hN : t.length + 1 ≤ 2 * l.length := by
      have := Nat.two_pow_pos d
      rw [hlen', Nat.pow_succ]
      omega
    have hE : treeEntries t = treeEntries l := by
      unfold treeEntries
      rw [← ht, List.map_append, List.sum_append, sum_blank rfl, Nat.add_zero]
    have hS : (t.map nodeSize).sum = (l.map nodeSize).sum := by
      rw [← ht, List.map_append, List.sum_append, sum_blank rfl, Nat.add_zero]
    refine ⟨d, e30, by omega, fun pc ctx now => ?_⟩
    have hcost := verifyIntegrity_cost (pc := pc) hc (by omega) hlen' ctx now
    rw [sum_nodes, sum_work, hE, hS] at hcost
    refine Nat.le_trans hcost ?_
    have a1 : 3 * (pc.step * (t.length + treeEntries l)) ≤ r * (9 * pc.step) := by
      have := Nat.mul_le_mul_left (3 * pc.step) (show t.length + treeEntries l ≤ 3 * r by omega)
      calc _ = 3 * pc.step * (t.length + treeEntries l) := by ring
        _ ≤ _ := this
        _ = _ := by ring
    have a2 : pc.call * t.length ≤ r * (2 * pc.call) := by
      have := Nat.mul_le_mul_left pc.call (show t.length ≤ 2 * r by omega)
      calc _ ≤ _ := this
        _ = _ := by ring
    have a3 : pc.byte * (138 * t.length + (l.map nodeSize).sum) ≤ r * (286 * pc.byte) := by
      have := Nat.mul_le_mul_left pc.byte (show 138 * t.length + (l.map nodeSize).sum ≤ 286 * r by omega)
      calc _ ≤ _ := this
        _ = _ := by ring
    have a4 : 2 ^ d * (pc.step + pc.verification) ≤ r * pc.step + r * pc.verification := by
      have := Nat.mul_le_mul_right (pc.step + pc.verification) (show 2 ^ d ≤ r by omega)
      rwa [Nat.mul_add r] at this
    have a5 : t.length * pc.step ≤ 2 * r * pc.step := Nat.mul_le_mul_right _ (by omega)
    have a6 : treeEntries l * (64 * (pc.step * (1 + treeEntries l))) ≤ r * (64 * (1 + r)) * pc.step := by
      have := Nat.mul_le_mul (show treeEntries l ≤ r by omega) (Nat.mul_le_mul_left (64 * pc.step) (show 1 + treeEntries l ≤ 1 + r by omega))
      calc _ = treeEntries l * (64 * pc.step * (1 + treeEntries l)) := by ring
        _ ≤ _ := this
        _ = _ := by ring
    have b1 := Nat.mul_le_mul_left (d + 4) (Nat.add_le_add a1 (Nat.add_le_add a2 a3))
    calc _ ≤ (d + 4) * (r * (9 * pc.step) + (r * (2 * pc.call) + r * (286 * pc.byte))) + (r * pc.step + r * pc.verification) +
          (2 * r * pc.step + r * (64 * (1 + r)) * pc.step) := by omega
      _ = _ := by ring

/-- **C123.** At most 68 calls of the hash function for each byte of the tree. -/
theorem C123_hashes (hc : pr.Correct) {raw : Bytes} {t : VTree} (h : unmarshal decTree raw = .ok t) (ctx : GroupContext) (now : GoTime) :
    (verifyIntegrityE pr { call := 1, byte := 0, verification := 0, step := 0 } t ctx now).cost ≤ 68 * raw.length := by
  obtain ⟨d, hd, _, hw⟩ := C123_work hc h
  have := hw { call := 1, byte := 0, verification := 0, step := 0 } ctx now
  have := Nat.mul_le_mul_right raw.length (show d + 4 ≤ 34 by omega)
  simp only at *
  omega

/-- **C123.** At most 9724 bytes are hashed for each byte of the tree. -/
theorem C123_bytes (hc : pr.Correct) {raw : Bytes} {t : VTree} (h : unmarshal decTree raw = .ok t) (ctx : GroupContext) (now : GoTime) :
    (verifyIntegrityE pr { call := 0, byte := 1, verification := 0, step := 0 } t ctx now).cost ≤ 9724 * raw.length := by
  obtain ⟨d, hd, _, hw⟩ := C123_work hc h
  have := hw { call := 0, byte := 1, verification := 0, step := 0 } ctx now
  have := Nat.mul_le_mul_right raw.length (show d + 4 ≤ 34 by omega)
  simp only at *
  omega

/-- **C123.** At most one signature for each byte of the tree is verified. -/
theorem C123_signatures (hc : pr.Correct) {raw : Bytes} {t : VTree} (h : unmarshal decTree raw = .ok t) (ctx : GroupContext) (now : GoTime) :
    (verifyIntegrityE pr { call := 0, byte := 0, verification := 1, step := 0 } t ctx now).cost ≤ raw.length := by
  obtain ⟨d, hd, _, hw⟩ := C123_work hc h
  have := hw { call := 0, byte := 0, verification := 1, step := 0 } ctx now
  simpa using this

/-- A tree with a parent node that is accepted: seven calls of the hash function, two signatures. -/
example : ∃ raw, unmarshal decTree raw = .ok toyGoodTree ∧
    (verifyIntegrityE toyPrims { call := 1, byte := 0, verification := 0, step := 0 } toyGoodTree (toyContext toyGoodTree) toyNow).result = .ok () ∧
    (verifyIntegrityE toyPrims { call := 1, byte := 0, verification := 0, step := 0 } toyGoodTree (toyContext toyGoodTree) toyNow).cost = 7 ∧
    (verifyIntegrityE toyPrims { call := 0, byte := 0, verification := 1, step := 0 } toyGoodTree (toyContext toyGoodTree) toyNow).cost = 2 := by
  have : ∃ raw, encTree toyGoodTree = .ok raw := by
    cases h : encTree toyGoodTree with
    | ok raw => exact ⟨raw, rfl⟩
    | _ => exact absurd h (by decide +kernel)
  obtain ⟨raw, h⟩ := this
  refine ⟨raw, C26_roundtrip (d := 1) rfl (x := 2) (by decide) (by decide +kernel) h, by decide +kernel, by decide +kernel, by decide +kernel⟩

end Mls
