import Verif.Proofs.Agreement
/-
Update paths: what a receiver gets, against the structural specification.
-/
namespace Mls

open Spec (Ratchet nodeAt IsAncestor)

variable {pr : Prims}

theorem node_keyOf (n : Node) : n.encryptionKey = Spec.keyOf n := by cases n <;> rfl

theorem lblUpdatePathNode_name : lblPrefix ++ lblUpdatePathNode = Spec.ascii ("MLS 1.0 " ++ "UpdatePathNode") := by decide

/-- Where two leaves meet. -/
theorem meet_spec {t : VTree} (hlen : t.length < 2 ^ 32) {k j : Nat} {s : Ratchet ParentNode k} (hs : VAt t j s) (hk : k ≤ 31)
    {i r : Nat} (hi : i / 2 ^ k = j) (hr : r / 2 ^ k = j) (hne : i ≠ r) :
    ∃ m res, 0 < m ∧ m ≤ k ∧ i / 2 ^ m = r / 2 ^ m ∧ i / 2 ^ (m - 1) ≠ r / 2 ^ (m - 1) ∧
      s.meet (j * 2 ^ (k + 1)) (i - j * 2 ^ k) (r - j * 2 ^ k) = some (idx m (i / 2 ^ m), res) ∧
      resolve t (idx (m - 1) (r / 2 ^ (m - 1))) = .ok res := by
  induction s generalizing j with
  | leaf n =>
    simp at hi hr
    omega
  | @node k p l b ihl ihb =>
    obtain ⟨_, hl, hb⟩ := hs
    have htop : j * 2 ^ (k + 1 + 1) + 2 ^ (k + 1) - 1 = idx (k + 1) (i / 2 ^ (k + 1)) := by rw [hi, idx_off]
    rw [Ratchet.meet]
    rcases path_split hi with ⟨h1, h2, h3⟩ | ⟨h1, h2, h3⟩ <;> rcases path_split hr with ⟨g1, g2, g3⟩ | ⟨g1, g2, g3⟩
    · obtain ⟨m, res, e1, e2, e3⟩ := ihl hl (by omega) h1 g1
      rw [if_pos h2, if_pos g2, h3, g3, ← off_succ_left]
      exact ⟨m, res, e1, by omega, e3⟩
    · rw [if_pos h2, if_neg g2, htop]
      refine ⟨k + 1, _, by omega, by omega, by rw [hi, hr], by rw [Nat.add_sub_cancel]; omega, rfl, ?_⟩
      rw [Nat.add_sub_cancel, g1, resolve_spec hlen hb (by omega), off_succ_right]
    · rw [if_neg h2, if_pos g2, htop]
      refine ⟨k + 1, _, by omega, by omega, by rw [hi, hr], by rw [Nat.add_sub_cancel]; omega, rfl, ?_⟩
      rw [Nat.add_sub_cancel, g1, resolve_spec hlen hl (by omega), off_succ_left]
    · obtain ⟨m, res, e1, e2, e3⟩ := ihb hb (by omega) h1 g1
      rw [if_neg h2, if_neg g2, h3, g3, ← off_succ_right]
      exact ⟨m, res, e1, by omega, e3⟩

theorem meet_level {i r m m' : Nat} (h1 : i / 2 ^ m = r / 2 ^ m) (h2 : 0 < m ∧ i / 2 ^ (m - 1) ≠ r / 2 ^ (m - 1))
    (g1 : i / 2 ^ m' = r / 2 ^ m') (g2 : 0 < m' ∧ i / 2 ^ (m' - 1) ≠ r / 2 ^ (m' - 1)) : m = m' := by
  rcases Nat.lt_trichotomy m m' with h | h | h
  · exact absurd (div_pow_congr h1 (by omega)) g2.2
  · exact h
  · exact absurd (div_pow_congr g1 (by omega)) h2.2

/-- What decryptWithLabel opens. -/
theorem decryptPathSecret_ok {ctx : GroupContext} {sd : SuiteDesc} {cs : UInt16} (hsd : suite cs = .ok sd) {k ps : Bytes}
    {ct : HpkeCiphertext} (h : decryptPathSecret pr cs k ctx ct = .ok ps) :
    ∃ raw, ctx.enc = .ok raw ∧
      pr.hpkeOpen sd k (Spec.encryptContext "UpdatePathNode" raw) ct.kemOutput ct.ciphertext = some ps := by
  unfold decryptPathSecret decryptWithLabel at h
  simp only [Res.bind_ok_iff, hsd, orErr_ok_iff, Res.ok.injEq] at h
  obtain ⟨raw, h1, ec, h2, sd', rfl, h3⟩ := h
  refine ⟨raw, h1, ?_⟩
  unfold encEncryptContext at h2
  have h2' := h2
  rw [Enc.append_ok_iff] at h2'
  obtain ⟨x, y, h4, h5, rfl⟩ := h2'
  rw [writeOpaqueVec_vec (by decide), lblUpdatePathNode_name] at h4
  rw [writeOpaqueVec_vec (writeOpaqueVec_bound h5)] at h5
  cases h4
  cases h5
  exact h3

/-- What a receiver gets, in terms of the tree. -/
theorem PathSecrets.received {sd : SuiteDesc} {ctx : GroupContext} (hsd : suite ctx.cipherSuite = .ok sd) {d : Nat} (hd : d ≤ 31)
    {s : Ratchet ParentNode d} {i r : Nat} (hi : i < 2 ^ d) (hr : r < 2 ^ d) {path : UpdatePath}
    {pt pt' : List (Option Bytes)} {sec : Bytes} {m e : Nat} {ps : Bytes}
    (h : PathSecrets pr sd (s.flat .leaf .parent) ctx (s.filteredPath 0 i) i r path pt pt' sec m e ps) :
    ∃ raw, ctx.enc = .ok raw ∧ Spec.Received pr sd s raw i r path pt pt' sec e ps := by
  obtain ⟨res, pn, j, x, k, ct, h1, h2, h3, h4, h5, _, h6, h7⟩ := h.opened
  obtain ⟨raw, hraw, hopen⟩ := decryptPathSecret_ok hsd h7
  refine ⟨raw, hraw, h.length, ?_, fun n x hx => ?_, h.commit⟩
  · have hne : i ≠ r := fun he => h.apart.2 (by rw [he])
    obtain ⟨m', res', g1, g2, g3, g4, g5, g6⟩ := meet_spec (t := s.flat .leaf .parent) (vflat_lt hd s) (at_flat _ _ s) hd
      (Nat.div_eq_of_lt hi) (Nat.div_eq_of_lt hr) hne
    obtain rfl := meet_level h.meet h.apart g3 ⟨g1, g4⟩
    rw [h1] at g6
    cases g6
    rw [Nat.zero_mul, Nat.zero_mul, Nat.sub_zero, Nat.sub_zero] at g5
    exact ⟨_, res, pn, j, x, k, ct, g5, h.pos, h2, h3, h4, h5, h6, hopen⟩
  · obtain ⟨q, e1, e2⟩ := h.node n x hx
    obtain ⟨e3, e4⟩ := Prod.mk.inj e2
    exact ⟨q, e1, by rw [← node_keyOf]; exact e3, e4⟩

/-- The facts about the commit secret of an accepted commit. -/
theorem commit_secret (hc : pr.Correct) {st st' : GroupState} (hi : GroupInv pr st) {sd : SuiteDesc}
    (hsd : suite st.group.groupContext.cipherSuite = .ok sd) {sender : UInt32} {path : UpdatePath} {pt : List (Option Bytes)}
    {h : Heap} {t : RTree} {ctx' newCtx : GroupContext} {sec : Bytes} {now : GoTime} {ps : List Proposal} {ss : List UInt32}
    (ht : treeApply st.heap st.group.tree ps ss = .ok (h, t))
    (hn : newCtx.cipherSuite = st.group.groupContext.cipherSuite)
    (hp : commitPath pr st.group.groupContext newCtx h t sender st.group.myLeafIndex pt path now =
      .ok (st'.heap, st'.group.tree, ctx', st'.group.privTree, sec)) :
    ∃ (d : Nat) (s' : Ratchet ParentNode d) (m e : Nat) (ps : Bytes), d ≤ 31 ∧ sender.toNat % 2 ^ 31 < 2 ^ d ∧ st.group.myLeafIndex.toNat < 2 ^ d ∧ st'.vtree = s'.flat .leaf .parent ∧
      PathSecrets pr sd st'.vtree ctx' (s'.filteredPath 0 (sender.toNat % 2 ^ 31)) (sender.toNat % 2 ^ 31)
        st.group.myLeafIndex.toNat path pt st'.group.privTree sec m e ps := by
  obtain ⟨d, s, s', m, hpc⟩ := committed_path hc hi ht hp
  obtain ⟨leaf, th, g1, g2, _, hctx, g3⟩ := commitPath_ok hp
  have hcs : ctx'.cipherSuite = st.group.groupContext.cipherSuite := by rw [hctx, ← hn]
  rw [decryptPathSecrets_mod, hpc.after.flat, ← hcs] at g3
  obtain ⟨m, e, ps, hps⟩ := decryptPathSecrets_secrets hc (by rw [hcs]; exact hsd) hpc.depth hpc.sender hi.own_lt g3
  have hv : st'.vtree = s'.flat .leaf .parent := hpc.after.flat
  exact ⟨d, s', m, e, ps, hpc.depth, hpc.sender, hpc.own, hv, by rw [hv]; exact hps⟩

end Mls
