import Verif.Proofs.Path
import Verif.Props.Invariant
import Verif.Props.Commit
/-
C56: what a joiner gets from the path secret of a welcome.
-/
namespace Mls

open Spec (Ratchet nodeAt IsAncestor)

variable {pr : Prims}

theorem nodeKey_of {t : VTree} {x : Nat} {n : Node} (h : nodeAt t x = some n) : nodeKey t x = .ok n.encryptionKey := by
  unfold nodeKey
  have h1 : t[x]? = some (some n) := by
    unfold nodeAt at h
    rw [Option.join_eq_some_iff] at h
    exact h
  rw [Res.idx_ok_iff.2 h1]
  rfl

theorem idx_lt_tree {d k r : Nat} (hk : k ≤ d) (hr : r < 2 ^ d) : idx k (r / 2 ^ k) < 2 ^ (d + 1) - 1 := by
  have hz : r / 2 ^ k / 2 ^ (d - k) = 0 := by
    rw [Nat.div_div_eq_div_mul, ← Nat.pow_add, show k + (d - k) = d from by omega]; exact Nat.div_eq_of_lt hr
  have h1 := (mem_perfect d 0 (idx k (r / 2 ^ k))).2 ⟨k, _, hk, hz, rfl⟩
  have h2 := ((mem_perfect_range d 0 _).1 h1).2
  omega

/-- One step of the derivation: the node has the public key of the path secret. -/
theorem nodePriv_of (hc : pr.Correct) {cs : UInt16} {sd : SuiteDesc} (hsd : suite cs = .ok sd) (hs : sd.kem.seedSize = sd.kdf.size)
    {ps pub : Bytes} (h : pub = (Spec.nodeKeys pr sd ps).1) :
    nodePrivFromPathSecret pr cs ps pub = .ok (Spec.nodeKeys pr sd ps).2 :=
  (nodePriv_iff hc hsd).2 ⟨hs, by rw [h]⟩

/-- The loop of processPathSecret: every node above must have the key of the first path secret. -/
theorem processPathSecretLoop_exact (hc : pr.Correct) {cs : UInt16} {sd : SuiteDesc} (hsd : suite cs = .ok sd) {v : VTree} {ps : Bytes} {d i : Nat}
    (hd : d ≤ 31) (hi : i < 2 ^ d) (hn : treeNumLeaves v = 2 ^ d) :
    ∀ (fuel k : Nat) (pt pt' : List (Option Bytes)), k ≤ d →
    processPathSecretLoop pr cs v ps fuel (idx k (i / 2 ^ k)) pt = .ok pt' →
    (∀ j, k < j → j ≤ d → ∃ q, nodeAt v (idx j (i / 2 ^ j)) = some q ∧
      q.encryptionKey = (Spec.nodeKeys pr sd (Spec.pathSecret pr sd ps 1)).1 ∧
      pt'[idx j (i / 2 ^ j)]? = some (some (Spec.nodeKeys pr sd (Spec.pathSecret pr sd ps 1)).2)) ∧
    (∀ x, (∀ j, k < j → j ≤ d → x ≠ idx j (i / 2 ^ j)) → pt'[x]? = pt[x]?) := by
  intro fuel
  induction fuel with
  | zero => intro k pt pt' _ h; simp [processPathSecretLoop] at h
  | succ fuel ih =>
    intro k pt pt' hk h
    unfold processPathSecretLoop at h
    rw [hn] at h
    rcases Nat.lt_or_ge k d with hkd | hkd
    · have hz : i / 2 ^ k / 2 ^ (d - k) = 0 := by
        rw [Nat.div_div_eq_div_mul, ← Nat.pow_add, show k + (d - k) = d from by omega]
        exact Nat.div_eq_of_lt hi
      have hpar := parent_idx hd hkd hz
      rw [Nat.div_div_eq_div_mul, ← Nat.pow_succ] at hpar
      rw [hpar] at h
      simp only [Res.bind_ok_iff] at h
      obtain ⟨inner, hin, pub, h2, priv, h3, pt1, h4, h⟩ := h
      rw [deriveSecret_eq hsd _ lblPath_name (by decide)] at hin
      obtain rfl := Res.ok.inj hin
      rw [nodePriv_iff hc hsd] at h3
      rw [Res.setIdx_ok_iff] at h4
      obtain ⟨hlt, rfl⟩ := h4
      obtain ⟨e1, e2⟩ := ih _ _ _ (by omega) h
      obtain ⟨n, hn, rfl⟩ := nodeKey_ok h2
      refine ⟨fun j hj hjd => ?_, fun x hx => ?_⟩
      · rcases Nat.eq_or_lt_of_le (Nat.succ_le_of_lt hj) with rfl | hlt'
        · refine ⟨n, hn, ?_, ?_⟩
          · exact (congrArg Prod.fst h3.2).symm
          · rw [e2, List.getElem?_set_self hlt]
            · exact congrArg (fun p => some (some p)) (congrArg Prod.snd h3.2).symm
            · intro j' hj' _ he
              have := (idx_inj he).1
              omega
        · exact e1 j hlt' hjd
      · rw [e2 x fun j hj hjd => hx j (by omega) hjd, List.getElem?_set_ne]
        exact fun he => hx (k + 1) (by omega) (by omega) he.symm
    · obtain rfl : k = d := by omega
      rw [Nat.div_eq_of_lt hi, parent_root hd] at h
      cases h
      exact ⟨fun j hj hjd => by omega, fun _ _ => rfl⟩

/-- And it succeeds if they do. -/
theorem processPathSecretLoop_of (hc : pr.Correct) {cs : UInt16} {sd : SuiteDesc} (hsd : suite cs = .ok sd)
    (hs : sd.kem.seedSize = sd.kdf.size) {v : VTree} {ps : Bytes} {d i : Nat}
    (hd : d ≤ 31) (hi : i < 2 ^ d) (hl : v.length = 2 ^ (d + 1) - 1) :
    ∀ (fuel k : Nat) (pt : List (Option Bytes)), k ≤ d → d - k < fuel → pt.length = v.length →
    (∀ j, k < j → j ≤ d → ∃ q, nodeAt v (idx j (i / 2 ^ j)) = some q ∧
      q.encryptionKey = (Spec.nodeKeys pr sd (Spec.pathSecret pr sd ps 1)).1) →
    ∃ pt', processPathSecretLoop pr cs v ps fuel (idx k (i / 2 ^ k)) pt = .ok pt' := by
  intro fuel
  induction fuel with
  | zero => intro k pt _ h; omega
  | succ fuel ih =>
    intro k pt hk hf hp hq
    unfold processPathSecretLoop
    rw [numLeaves_pow hd hl]
    rcases Nat.lt_or_ge k d with hkd | hkd
    · have hz : i / 2 ^ k / 2 ^ (d - k) = 0 := by
        rw [Nat.div_div_eq_div_mul, ← Nat.pow_add, show k + (d - k) = d from by omega]
        exact Nat.div_eq_of_lt hi
      have hpar := parent_idx hd hkd hz
      rw [Nat.div_div_eq_div_mul, ← Nat.pow_succ] at hpar
      rw [hpar]
      obtain ⟨q, h1, h2⟩ := hq (k + 1) (by omega) (by omega)
      have hlt : idx (k + 1) (i / 2 ^ (k + 1)) < pt.length := by
        rw [hp]
        unfold nodeAt at h1
        rw [Option.join_eq_some_iff] at h1
        exact (List.getElem?_eq_some_iff.1 h1).1
      simp only [deriveSecret_eq hsd _ lblPath_name (by decide), Res.ok_bind, nodeKey_of h1]
      have h3 := nodePriv_of hc hsd hs h2
      rw [Spec.pathSecret, Spec.pathSecret] at h3
      rw [h3]
      simp only [Res.ok_bind]
      rw [Res.setIdx_of_lt _ hlt]
      exact ih _ _ (by omega) (by omega) (by rw [List.length_set, hp]) fun j hj hjd => hq j (by omega) hjd
    · obtain rfl : k = d := by omega
      rw [Nat.div_eq_of_lt hi, parent_root hd]
      exact ⟨pt, rfl⟩

/-- The nodes above both leaves, by level. -/
theorem common_ancestors {d i r y m : Nat} (hi : i < 2 ^ d) (hr : r < 2 ^ d) (hm : i / 2 ^ m = r / 2 ^ m)
    (hmin : 0 < m ∧ i / 2 ^ (m - 1) ≠ r / 2 ^ (m - 1)) :
    (IsAncestor d i y ∧ IsAncestor d r y) ↔ ∃ j, m ≤ j ∧ j ≤ d ∧ y = idx j (r / 2 ^ j) := by
  rw [isAncestor_iff hi, isAncestor_iff hr, mem_path, mem_path]
  constructor
  · rintro ⟨⟨a, _, had, rfl⟩, b, _, hbd, he⟩
    obtain ⟨rfl, h2⟩ := idx_inj he
    refine ⟨a, ?_, had, by rw [h2]⟩
    by_contra hlt
    exact hmin.2 (div_pow_congr h2 (by omega))
  · rintro ⟨j, hj, hjd, rfl⟩
    refine ⟨⟨j, by omega, hjd, ?_⟩, j, by omega, hjd, rfl⟩
    rw [div_pow_congr hm hj]

/-- What processing the path secret of a welcome comes to, exactly. For a joiner at leaf `r` and an inviter at leaf `i` that meet at
the node `x`: it succeeds exactly when no node from `x` to the root is blank, `x` has the public key of the path
secret, and **all** nodes above have that of the next path secret. And then the joiner has the keys of them. -/
theorem C56_exact (hc : pr.Correct) {cs : UInt16} {sd : SuiteDesc} (hsd : suite cs = .ok sd) (hsup : supported cs = .ok true)
    {d i r x : Nat} {res : List Nat} {s : Ratchet ParentNode d} (hd : d ≤ 31) (hi : i < 2 ^ d) (hr : r < 2 ^ d) (hne : i ≠ r)
    (hx : s.meet 0 i r = some (x, res)) {signer : UInt32} (hsg : signer.toNat = i) (ek ps : Bytes) :
    ((∃ keys, joinerPrivTree pr cs (s.flat .leaf .parent) r signer ek (some ps) = .ok keys) ↔
      ∀ y, IsAncestor d i y → IsAncestor d r y → ∃ q, nodeAt (s.flat Node.leaf Node.parent) y = some q ∧
        q.encryptionKey = (Spec.nodeKeys pr sd (Spec.pathSecret pr sd ps (if y = x then 0 else 1))).1) ∧
    ∀ keys, joinerPrivTree pr cs (s.flat .leaf .parent) r signer ek (some ps) = .ok keys →
      keys[2 * r]? = some (some ek) ∧
      ∀ y, IsAncestor d i y → IsAncestor d r y →
        keys[y]? = some (some (Spec.nodeKeys pr sd (Spec.pathSecret pr sd ps (if y = x then 0 else 1))).2) := by
  have hs : sd.kem.seedSize = sd.kdf.size := by
    unfold supported at hsup
    rw [suite_ok_iff.1 hsd] at hsup
    simp only [hsd, Res.ok_bind] at hsup
    by_contra hne
    rw [if_pos hne] at hsup
    cases hsup
  generalize hv : s.flat Node.leaf Node.parent = v at *
  have hl : v.length = 2 ^ (d + 1) - 1 := by rw [← hv, flat_length]
  have h31 : 2 ^ d ≤ 2 ^ 31 := Nat.pow_le_pow_right (by decide) hd
  obtain ⟨m', res', g1, g2, g3, g4, g5, _⟩ := meet_spec (t := s.flat .leaf .parent) (vflat_lt hd s) (at_flat _ _ s) hd
    (Nat.div_eq_of_lt hi) (Nat.div_eq_of_lt hr) hne
  rw [Nat.zero_mul, Nat.zero_mul, Nat.sub_zero, Nat.sub_zero, hx] at g5
  obtain rfl := (Prod.mk.inj (Option.some.inj g5)).1
  have hi31 : i < 2 ^ 31 := by omega
  have hr31 : r < 2 ^ 31 := by omega
  obtain ⟨m, hmeet, hmin, hca⟩ := commonAncestor_leaves hr31 hi31
  have hmm : m = m' := by
    have h1 := hmin m' g3.symm
    rcases Nat.lt_or_ge m m' with hlt | hge
    · exact absurd (div_pow_congr hmeet.symm (by omega)) g4
    · omega
  subst hmm
  have hlow : ∀ j, (idx j (r / 2 ^ j) = idx m (i / 2 ^ m)) ↔ j = m := by
    intro j
    constructor
    · exact fun he => (idx_inj he).1
    · rintro rfl; rw [hmeet]
  have hjoin : ∀ keys, joinerPrivTree pr cs v r signer ek (some ps) = .ok keys ↔
      ∃ priv, nodeKey v (idx m (r / 2 ^ m)) >>= nodePrivFromPathSecret pr cs ps = .ok priv ∧
        processPathSecretLoop pr cs v ps 64 (idx m (r / 2 ^ m))
          (((List.replicate v.length none).set (idx 0 r) (some ek)).set (idx m (r / 2 ^ m)) (some priv)) = .ok keys := by
    intro keys
    have hlt : idx 0 r < (List.replicate v.length (none : Option Bytes)).length := by
      rw [idx_zero, List.length_replicate, hl, Nat.pow_succ]; omega
    have hlt2 : idx m (r / 2 ^ m) < v.length := by
      rw [hl]
      exact idx_lt_tree g2 hr
    unfold joinerPrivTree processPathSecret
    simp only [hsg, nodeOfLeaf_idx hr31, nodeOfLeaf_idx hi31, hca, Res.setIdx_of_lt _ hlt, Res.ok_bind, Res.bind_ok_iff]
    constructor
    · rintro ⟨pub, h1, priv, h2, pt, h3, h4⟩
      rw [Res.setIdx_ok_iff] at h3
      obtain ⟨_, rfl⟩ := h3
      exact ⟨priv, ⟨pub, h1, h2⟩, h4⟩
    · rintro ⟨priv, ⟨pub, h1, h2⟩, h4⟩
      exact ⟨pub, h1, priv, h2, _, Res.setIdx_of_lt _ (by simpa using hlt2), h4⟩
  have hlt0 : idx 0 r < (List.replicate v.length (none : Option Bytes)).length := by
    rw [idx_zero, List.length_replicate, hl, Nat.pow_succ]; omega
  refine ⟨⟨?_, fun h => ?_⟩, ?_⟩
  · rintro ⟨keys, hk⟩ y hyi hyr
    obtain ⟨priv, hp, hlp⟩ := (hjoin keys).1 hk
    obtain ⟨j, hj, hjd, rfl⟩ := (common_ancestors hi hr g3 ⟨g1, g4⟩).1 ⟨hyi, hyr⟩
    simp only [hlow]
    rcases Nat.eq_or_lt_of_le hj with rfl | hlt
    · rw [if_pos rfl]
      rw [Res.bind_ok_iff] at hp
      obtain ⟨pub, h1, h2⟩ := hp
      obtain ⟨n, hn, rfl⟩ := nodeKey_ok h1
      rw [nodePriv_iff hc hsd] at h2
      exact ⟨n, hn, (congrArg Prod.fst h2.2).symm⟩
    · rw [if_neg (by omega)]
      obtain ⟨q, h1, h2, _⟩ := (processPathSecretLoop_exact hc hsd hd hr (numLeaves_pow hd hl) _ _ _ _ g2 hlp).1 j hlt hjd
      exact ⟨q, h1, h2⟩
  · have hq : ∀ j, m ≤ j → j ≤ d → ∃ q, nodeAt v (idx j (r / 2 ^ j)) = some q ∧
        q.encryptionKey = (Spec.nodeKeys pr sd (Spec.pathSecret pr sd ps (if j = m then 0 else 1))).1 := by
      intro j hj hjd
      obtain ⟨hyi, hyr⟩ := (common_ancestors hi hr g3 ⟨g1, g4⟩).2 ⟨j, hj, hjd, rfl⟩
      have := h _ hyi hyr
      simpa only [hlow] using this
    obtain ⟨q, h1, h2⟩ := hq m (Nat.le_refl _) g2
    rw [if_pos rfl] at h2
    obtain ⟨keys, hk⟩ := processPathSecretLoop_of hc hsd hs hd hr hl 64 m
      (((List.replicate v.length none).set (idx 0 r) (some ek)).set (idx m (r / 2 ^ m)) (some (Spec.nodeKeys pr sd ps).2)) g2 (by omega)
      (by simp) (ps := ps) fun j hj hjd => by
        have := hq j (by omega) hjd
        rwa [if_neg (by omega)] at this
    refine ⟨keys, (hjoin keys).2 ⟨_, ?_, hk⟩⟩
    rw [nodeKey_of h1]
    exact nodePriv_of hc hsd hs h2
  · intro keys hk
    obtain ⟨priv, hp, hlp⟩ := (hjoin keys).1 hk
    obtain ⟨e1, e2⟩ := processPathSecretLoop_exact hc hsd hd hr (numLeaves_pow hd hl) _ _ _ _ g2 hlp
    refine ⟨?_, fun y hyi hyr => ?_⟩
    · rw [← idx_zero, e2, List.getElem?_set_ne, List.getElem?_set_self hlt0]
      · intro he; have := (idx_inj he).1; omega
      · intro j hj _ he; have := (idx_inj he).1; omega
    · obtain ⟨j, hj, hjd, rfl⟩ := (common_ancestors hi hr g3 ⟨g1, g4⟩).1 ⟨hyi, hyr⟩
      simp only [hlow]
      rcases Nat.eq_or_lt_of_le hj with rfl | hlt
      · rw [if_pos rfl, e2, List.getElem?_set_self]
        · rw [Res.bind_ok_iff] at hp
          obtain ⟨pub, h1, h2⟩ := hp
          rw [nodePriv_iff hc hsd] at h2
          exact congrArg (fun p => some (some p)) (congrArg Prod.snd h2.2).symm
        · rw [List.length_set, List.length_replicate, hl]
          exact idx_lt_tree g2 hr
        · intro j' hj' _ he; have := (idx_inj he).1; omega
      · rw [if_neg (by omega)]
        exact (e1 j hlt hjd).choose_spec.2.2

/-- What RFC 9420 (section 12.4.3.1) has in the path secret of a welcome: the joiner at leaf `r` and the inviter at leaf `i` meet at the node `x`, the `e`-th of the
filtered direct path of the inviter, and from there on each node of that path has the public key of its path secret. -/
structure Spec.WelcomePath (pr : Prims) (sd : SuiteDesc) {d : Nat} (s : Ratchet ParentNode d) (i r e x : Nat) (ps : Bytes) : Prop where
  meet : ∃ res, s.meet 0 i r = some (x, res)
  pos : (s.filteredPath 0 i)[e]? = some x
  node : ∀ n y, (s.filteredPath 0 i)[e + n]? = some y → ∃ q, nodeAt (s.flat Node.leaf Node.parent) y = some q ∧
    q.encryptionKey = (Spec.nodeKeys pr sd (Spec.pathSecret pr sd ps n)).1

/-- **C56**, what is true of it: a joiner given the path secret of the node where it meets the inviter obtains the private keys of
all nodes of the inviter's filtered direct path from there to the root, if they meet at the root, or at a child of the root with
the root not filtered out. Missing: joiners that meet the inviter further down, see C56_quarter and C56_refuted. -/
theorem C56_partial (hc : pr.Correct) {cs : UInt16} {sd : SuiteDesc} (hsd : suite cs = .ok sd) (hsup : supported cs = .ok true)
    {d i r e x : Nat} {s : Ratchet ParentNode d} (hd : d ≤ 31) (hi : i < 2 ^ d) (hr : r < 2 ^ d) (hne : i ≠ r) {ps : Bytes}
    (hw : Spec.WelcomePath pr sd s i r e x ps) {signer : UInt32} (hsg : signer.toNat = i) (ek : Bytes)
    (hx : x = 2 ^ d - 1 ∨ (x = 2 ^ (d - 1) - 1 ∨ x = 3 * 2 ^ (d - 1) - 1) ∧ (s.filteredPath 0 i)[e + 1]? = some (2 ^ d - 1)) :
    ∃ keys, joinerPrivTree pr cs (s.flat .leaf .parent) r signer ek (some ps) = .ok keys ∧ keys[2 * r]? = some (some ek) ∧
      ∀ n y, (s.filteredPath 0 i)[e + n]? = some y →
        keys[y]? = some (some (Spec.nodeKeys pr sd (Spec.pathSecret pr sd ps n)).2) := by
  obtain ⟨res, hmeet⟩ := hw.meet
  obtain ⟨h1, h2⟩ := C56_exact hc hsd hsup hd hi hr hne hmeet hsg ek ps
  obtain ⟨m, res', g1, g2, g3, g4, g5, _⟩ := meet_spec (t := s.flat .leaf .parent) (vflat_lt hd s) (at_flat _ _ s) hd
    (Nat.div_eq_of_lt hi) (Nat.div_eq_of_lt hr) hne
  rw [Nat.zero_mul, Nat.zero_mul, Nat.sub_zero, Nat.sub_zero, hmeet] at g5
  have hxm := (Prod.mk.inj (Option.some.inj g5)).1
  have hroot : idx d 0 = 2 ^ d - 1 := by unfold idx; omega
  have hrl : ∀ j, idx j (r / 2 ^ j) = idx d 0 ↔ j = d := by
    intro j
    constructor
    · exact fun h => (idx_inj h).1
    · rintro rfl; rw [Nat.div_eq_of_lt hr]
  have hlev : x = 2 ^ d - 1 ∧ m = d ∨ (d = m + 1 ∧ (s.filteredPath 0 i)[e + 1]? = some (2 ^ d - 1)) := by
    rcases hx with hx | ⟨hx, hF⟩
    · refine .inl ⟨hx, ?_⟩
      rw [hxm, ← hroot] at hx
      exact (idx_inj hx).1
    · refine .inr ⟨?_, hF⟩
      have hd1 : 0 < d := by omega
      obtain ⟨c, rfl⟩ : ∃ c, d = c + 1 := ⟨d - 1, by omega⟩
      rw [Nat.add_sub_cancel] at hx
      have hp := Nat.two_pow_pos c
      have e0 : idx c 0 = 2 ^ c - 1 := by unfold idx; omega
      have e1 : idx c 1 = 3 * 2 ^ c - 1 := by unfold idx; rw [Nat.pow_succ]; omega
      rcases hx with hx | hx
      · rw [hxm, ← e0] at hx
        have := (idx_inj hx).1; omega
      · rw [hxm, ← e1] at hx
        have := (idx_inj hx).1; omega
  -- the nodes above both
  have hanc : ∀ y, IsAncestor d i y → IsAncestor d r y → y = x ∨ (y ≠ x ∧ y = 2 ^ d - 1 ∧ (s.filteredPath 0 i)[e + 1]? = some (2 ^ d - 1)) := by
    intro y hyi hyr
    obtain ⟨j, hj, hjd, rfl⟩ := (common_ancestors hi hr g3 ⟨g1, g4⟩).1 ⟨hyi, hyr⟩
    rcases Nat.eq_or_lt_of_le hj with rfl | hlt
    · left; rw [hxm, g3]
    · rcases hlev with ⟨_, hmd⟩ | ⟨hmd, hF⟩
      · omega
      · right
        refine ⟨fun he => ?_, ?_, hF⟩
        · rw [hxm] at he
          have := (idx_inj he).1
          omega
        · rw [← hroot, hrl]; omega
  obtain ⟨keys, hk⟩ := h1.2 (by
    intro y hyi hyr
    rcases hanc y hyi hyr with rfl | ⟨hne', rfl, hF⟩
    · rw [if_pos rfl]; exact hw.node 0 y hw.pos
    · rw [if_neg hne']; exact hw.node 1 _ hF)
  obtain ⟨k1, k2⟩ := h2 keys hk
  refine ⟨keys, hk, k1, fun n y hy => ?_⟩
  -- the nodes of the filtered path from there on
  have hup := filteredPath_up (s := s) (i := i) (j := 0) (Nat.div_eq_of_lt hi)
  rw [Nat.zero_mul, Nat.zero_mul, Nat.sub_zero] at hup
  have hyl := (List.getElem?_eq_some_iff.1 hy).1
  have hmem := List.mem_of_getElem? hy
  obtain ⟨j, hj0, hjd, hyj⟩ := mem_path.1 (mem_filteredPath (s := s) (i := i) (j := 0) (Nat.div_eq_of_lt hi)
        (by rw [Nat.zero_mul, Nat.zero_mul, Nat.sub_zero]; exact hmem))
  have hordered : ∀ (a b xa xb : Nat), a < b → (s.filteredPath 0 i)[a]? = some xa → (s.filteredPath 0 i)[b]? = some xb →
      ∃ ma mb, ma < mb ∧ xa = idx ma (i / 2 ^ ma) ∧ xb = idx mb (i / 2 ^ mb) := by
    intro a b xa xb hab ha hb
    obtain ⟨la, ha⟩ := List.getElem?_eq_some_iff.1 ha
    obtain ⟨lb, hb⟩ := List.getElem?_eq_some_iff.1 hb
    have := List.pairwise_iff_getElem.1 hup a b la lb hab
    rw [ha, hb] at this
    exact this
  have hlevel : ∀ n y, 0 < n → (s.filteredPath 0 i)[e + n]? = some y → ∀ j, y = idx j (i / 2 ^ j) → m < j := by
    intro n y hn hy j hyj
    obtain ⟨ma, mb, hab, e1, e2⟩ := hordered e (e + n) x y (by omega) hw.pos hy
    rw [hxm] at e1
    rw [hyj] at e2
    have := (idx_inj e1).1
    have := (idx_inj e2).1
    omega
  have hcommon : m ≤ j → IsAncestor d i y ∧ IsAncestor d r y := fun hmj =>
    (common_ancestors hi hr g3 ⟨g1, g4⟩).2 ⟨j, hmj, hjd, by rw [hyj, div_pow_congr g3 hmj]⟩
  rcases Nat.eq_zero_or_pos n with rfl | hn
  · have hyx : y = x := by
      have := hw.pos
      rw [Nat.add_zero] at hy
      rw [hy] at this
      exact Option.some.inj this
    subst hyx
    have hjm := (idx_inj (hyj.symm.trans hxm)).1
    obtain ⟨a1, a2⟩ := hcommon (by omega)
    have := k2 y a1 a2
    rwa [if_pos rfl] at this
  · have hmj := hlevel n y hn hy j hyj
    obtain ⟨a1, a2⟩ := hcommon (by omega)
    have hyx : y ≠ x := by
      intro he
      rw [hyj, hxm] at he
      have := (idx_inj he).1
      omega
    have hkey := k2 y a1 a2
    rw [if_neg hyx] at hkey
    rcases hanc y a1 a2 with he | ⟨_, hyr, hF⟩
    · exact absurd he hyx
    · -- the root is the one after the meeting node
      have hn1 : n = 1 := by
        by_contra hne1
        obtain ⟨ma, mb, hab, e1, e2⟩ := hordered (e + 1) (e + n) _ _ (by omega) hF hy
        rw [hyr] at e2
        rw [e1] at e2
        have := (idx_inj e2).1
        omega
      subst hn1
      exact hkey

/-- C56 fails for all other joiners. In a welcome that is accepted with a path secret, the joiner and the inviter are in different quarters of the
tree: of the keys above, all but the lowest are compared with one and the same path secret, but the keys of an
accepted tree are distinct. -/
theorem C56_quarter (hc : pr.Correct) {w : Welcome} {kp : KeyPairPackage} {now : GoTime} {st : GroupState} {ref ps psk : Bytes}
    {gs : GroupSecrets} {info : GroupInfo} (h : groupFromWelcome pr w kp now = .ok st) (href : kp.pub.generateRef pr = .ok ref)
    (hgs : w.decryptGroupSecrets pr ref kp.priv.initKey = .ok gs) (hps : gs.pathSecret = some ps)
    (hpsk : extractPSKSecret pr w.cipherSuite [] [] = .ok psk) (hinfo : w.decryptGroupInfo pr gs.joinerSecret psk = .ok info) :
    ∃ d, st.group.tree.length = 2 ^ (d + 1) - 1 ∧
      (2 ≤ d → st.group.myLeafIndex.toNat / 2 ^ (d - 2) ≠ info.signer.toNat % 2 ^ 31 / 2 ^ (d - 2)) := by
  have hi := (Reachable.join h).inv hc
  unfold groupFromWelcome at h
  simp only [Res.bind_ok_iff] at h
  obtain ⟨ref', hr', gs', hg', _, _, _, hlen0, h⟩ := h
  rw [href] at hr'
  cases hr'
  rw [hgs] at hg'
  cases hg'
  rw [Res.guardErr_ok_iff, beq_iff_eq, List.length_eq_zero_iff] at hlen0
  obtain ⟨psk', info', raw, v, leaf, li, pt, hp', hi', _, hdec, hget, _, _, _, hv, hfind, hjoin, hh, ht, hctx, _, _, _, _, hmy, hpt, _⟩ :=
    groupFromSecrets_ok h
  rw [hlen0, hpsk] at hp'
  cases hp'
  rw [hinfo] at hi'
  cases hi'
  have hvt : st.vtree = v := by
    unfold GroupState.vtree
    rw [hh, ht]
    exact (deref_alloc v []).2
  have hl : st.group.tree.length = v.length := by rw [← hvt]; unfold GroupState.vtree; rw [derefTree_length]
  obtain ⟨d, hd, s, hs⟩ := hi.tree.holds
  have hlen := hs.length
  rw [hl] at hlen
  refine ⟨d, by rw [hl]; exact hlen, fun hd2 hq => ?_⟩
  rw [C29_integrity hc hd hlen] at hv
  obtain ⟨sd, hsd, s', hs'⟩ := hv
  have hown := hi.own
  have hmy' : li < 2 ^ d ∧ st.group.myLeafIndex.toNat = li := by
    have hlt := findLeafLoop_lt _ _ _ hfind
    have hnum := numLeaves_pow hd hlen
    have h31 : 2 ^ d ≤ 2 ^ 31 := Nat.pow_le_pow_right (by decide) hd
    have hlt : li < 2 ^ d := by omega
    refine ⟨hlt, ?_⟩
    rw [hmy, UInt32.toNat_ofNat']
    omega
  obtain ⟨hli, hmy'⟩ := hmy'
  rw [hmy'] at hq
  have h31 : 2 ^ d ≤ 2 ^ 31 := Nat.pow_le_pow_right (by decide) hd
  have hli31 : li < 2 ^ 31 := by omega
  have hs31 : info.signer.toNat % 2 ^ 31 < 2 ^ 31 := Nat.mod_lt _ (by decide)
  unfold joinerPrivTree at hjoin
  simp only [Res.bind_ok_iff, hps] at hjoin
  obtain ⟨pt0, _, hjoin⟩ := hjoin
  obtain ⟨m, hmeet, hmin, hca⟩ := commonAncestor_leaves hli31 hs31
  simp only [nodeOfLeaf_mod info.signer.toNat, nodeOfLeaf_idx hli31, nodeOfLeaf_idx hs31, hca] at hjoin
  unfold processPathSecret at hjoin
  simp only [Res.bind_ok_iff] at hjoin
  obtain ⟨pub, _, priv, _, pt1, _, hloop⟩ := hjoin
  have hm := hmin _ hq
  have hx := (processPathSecretLoop_exact hc hsd hd hli (numLeaves_pow hd hlen) _ _ _ _ (by omega) hloop).1
  obtain ⟨q1, a1, b1, _⟩ := hx (d - 1) (by omega) (by omega)
  obtain ⟨q2, a2, b2, _⟩ := hx d (by omega) (by omega)
  refine hs'.encryptionKeys _ _ q1 q2 (fun he => ?_) a1 a2 (b1.trans b2.symm)
  have := (idx_inj he).1
  omega

/-- The welcome `w` gives the holder of `kp` the group information `info` and the path secret `ps`. -/
def Spec.WelcomeOpens (pr : Prims) (w : Welcome) (kp : KeyPairPackage) (info : GroupInfo) (ps : Bytes) : Prop :=
  ∃ ref gs psk, kp.pub.generateRef pr = .ok ref ∧ w.decryptGroupSecrets pr ref kp.priv.initKey = .ok gs ∧ gs.pathSecret = some ps ∧
    extractPSKSecret pr w.cipherSuite [] [] = .ok psk ∧ w.decryptGroupInfo pr gs.joinerSecret psk = .ok info

def toyOpens (w : Welcome) (kp : KeyPairPackage) (ps : Bytes) : Res GroupInfo := do
  let ref ← kp.pub.generateRef toyPrims
  let gs ← w.decryptGroupSecrets toyPrims ref kp.priv.initKey
  Res.guardErr (gs.pathSecret == some ps)
  let psk ← extractPSKSecret toyPrims w.cipherSuite [] []
  w.decryptGroupInfo toyPrims gs.joinerSecret psk

theorem toyOpens_ok {w : Welcome} {kp : KeyPairPackage} {ps : Bytes} {info : GroupInfo} (h : toyOpens w kp ps = .ok info) :
    Spec.WelcomeOpens toyPrims w kp info ps := by
  unfold toyOpens at h
  simp only [Res.bind_ok_iff] at h
  obtain ⟨ref, h1, gs, h2, _, h3, psk, h4, h5⟩ := h
  rw [Res.guardErr_ok_iff, beq_iff_eq] at h3
  exact ⟨ref, gs, psk, h1, h2, h3, h4, h5⟩

/-- The welcome `w` describes the group `st`, in which the holder of `kp` is at leaf 1 and the inviter at leaf 0; and of
the ancestors of the two, listed from the lowest to the root, those that `st` has are given by the path secret `ps`. -/
structure Spec.Describes (pr : Prims) (w : Welcome) (kp : KeyPairPackage) (info : GroupInfo) (ps : Bytes) (st : GroupState) (path : List Nat) : Prop where
  opens : Spec.WelcomeOpens pr w kp info ps
  context : info.groupContext = st.group.groupContext
  signer : info.signer = 0
  tree : ∃ raw, encTree st.vtree = .ok raw ∧ info.extensions = [⟨2, raw⟩]
  leaf : nodeAt st.vtree 2 = some (.leaf kp.pub.leafNode)
  keys : ∀ n x, path[n]? = some x → ∃ sd q, suite 1 = .ok sd ∧ nodeAt st.vtree x = some (.parent q) ∧
    q.encryptionKey = (Spec.nodeKeys pr sd (Spec.pathSecret pr sd ps n)).1

/-- A check of the above. -/
def toyDescribes (w : Welcome) (kp : KeyPairPackage) (ps : Bytes) (st : GroupState) (path : List Nat) : Bool :=
  match toyOpens w kp ps, encTree st.vtree, suite 1 with
  | .ok info, .ok raw, .ok sd =>
    decide (info.groupContext = st.group.groupContext) && decide (info.signer = 0) && decide (info.extensions = [⟨2, raw⟩]) &&
    decide (nodeAt st.vtree 2 = some (.leaf kp.pub.leafNode)) &&
    (List.range path.length).all fun n => match nodeAt st.vtree (path.getD n 0) with
      | some (.parent q) => decide (q.encryptionKey = (Spec.nodeKeys toyPrims sd (Spec.pathSecret toyPrims sd ps n)).1)
      | _ => false
  | _, _, _ => false

theorem toyDescribes_ok {w : Welcome} {kp : KeyPairPackage} {ps : Bytes} {st : GroupState} {path : List Nat}
    (h : toyDescribes w kp ps st path = true) : ∃ info, Spec.Describes toyPrims w kp info ps st path := by
  unfold toyDescribes at h
  split at h
  next info raw sd h1 h2 h3 =>
    simp only [Bool.and_eq_true, decide_eq_true_eq, List.all_eq_true, List.mem_range] at h
    obtain ⟨⟨⟨⟨a1, a2⟩, a3⟩, a4⟩, a5⟩ := h
    refine ⟨info, toyOpens_ok h1, a1, a2, ⟨raw, h2, a3⟩, a4, fun n x hx => ?_⟩
    have hlt := (List.getElem?_eq_some_iff.1 hx).1
    have hn := a5 n hlt
    rw [List.getD_eq_getElem?_getD, hx, Option.getD_some] at hn
    split at hn
    next q hq => exact ⟨sd, q, h3, hq, of_decide_eq_true hn⟩
    next => cases hn
  next => cases h

theorem toyInvitation_reachable {names : List UInt8} {ps : List Proposal} {n : Nat} {secret : Bytes} {joiner : UInt8}
    {st st' : GroupState} {w : Welcome} (h : toyInvitation names ps n secret joiner = .ok (st, st', w)) : Reachable toyPrims st' := by
  unfold toyInvitation at h
  simp only [Res.bind_ok_iff] at h
  obtain ⟨a, _, ⟨a', w'⟩, _, st1, h1, st2, h2, _, _, _, _, h⟩ := h
  cases h
  exact (Reachable.join h1).after h2

/-- **C56** is false: a joiner three levels below the root is refused, its welcome describing a group as it is, with a valid tree and a path secret as RFC 9420 asks, … -/
theorem C56_refuted : ∃ (st : GroupState) (w : Welcome) (kp : KeyPairPackage) (info : GroupInfo) (ps : Bytes) (now : GoTime),
    Reachable toyPrims st ∧ Spec.Describes toyPrims w kp info ps st [1, 3, 7] ∧ verifyIntegrity toyPrims st.vtree st.group.groupContext now = .ok () ∧
    groupFromWelcome toyPrims w kp now = .err := by
  have key : (toyInvitation [1, 2, 3, 4] [.remove 1, .add (toyMember 5).pub] 3 (List.replicate 32 9) 5).holds (fun x =>
      toyDescribes x.2.2 (toyMember 5) (List.replicate 32 9) x.2.1 [1, 3, 7] &&
        decide (verifyIntegrity toyPrims x.2.1.vtree x.2.1.group.groupContext toyLater = .ok () ∧ groupFromWelcome toyPrims x.2.2 (toyMember 5) toyLater = .err)) = true := by decide +kernel
  obtain ⟨⟨st0, st, w⟩, h, key⟩ := Res.holds_ok key
  rw [Bool.and_eq_true, decide_eq_true_eq] at key
  obtain ⟨k1, k2⟩ := key
  have hr := toyInvitation_reachable h
  obtain ⟨info, hi⟩ := toyDescribes_ok k1
  exact ⟨st, w, _, info, _, _, hr, hi, k2⟩

/-- … and where a node between the two is blank, joining panics. -/
theorem C56_panic : ∃ (st : GroupState) (w : Welcome) (kp : KeyPairPackage) (info : GroupInfo) (ps : Bytes) (now : GoTime),
    Reachable toyPrims st ∧ Spec.Describes toyPrims w kp info ps st [1, 7] ∧
    (nodeAt st.vtree 3 = none ∧ verifyIntegrity toyPrims st.vtree st.group.groupContext now = .ok ()) ∧
    groupFromWelcome toyPrims w kp now = .panic := by
  have key : (toyInvitation [1, 2, 3, 4] [.remove 1, .remove 2, .remove 3, .add (toyMember 5).pub] 2 (List.replicate 32 9) 5).holds (fun x =>
      toyDescribes x.2.2 (toyMember 5) (List.replicate 32 9) x.2.1 [1, 7] && (decide (nodeAt x.2.1.vtree 3 = none ∧ verifyIntegrity toyPrims x.2.1.vtree x.2.1.group.groupContext toyLater = .ok ()) &&
        decide (groupFromWelcome toyPrims x.2.2 (toyMember 5) toyLater = .panic))) = true := by decide +kernel
  obtain ⟨⟨st0, st, w⟩, h, key⟩ := Res.holds_ok key
  rw [Bool.and_eq_true, Bool.and_eq_true, decide_eq_true_eq, decide_eq_true_eq] at key
  obtain ⟨k1, k2, k3⟩ := key
  have hr := toyInvitation_reachable h
  obtain ⟨info, hi⟩ := toyDescribes_ok k1
  exact ⟨st, w, _, info, _, _, hr, hi, k2, k3⟩

/-- A joiner two levels below the root is accepted, and has the view of the others (C56_partial and C56_quarter are not vacuous). -/
example : (toyInvitation [1, 2] [.remove 1, .add (toyMember 5).pub] 2 (List.replicate 32 9) 5).holds (fun x =>
    toyDescribes x.2.2 (toyMember 5) (List.replicate 32 9) x.2.1 [1, 3] &&
      (groupFromWelcome toyPrims x.2.2 (toyMember 5) toyLater).holds fun b =>
        decide (SameView b x.2.1) && (b.group.privTree.getD 1 none).isSome && (b.group.privTree.getD 3 none).isSome) = true := by decide +kernel

end Mls
