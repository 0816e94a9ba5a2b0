import Verif.Proofs.Path
import Verif.Props.PathSecret
import Verif.Spec.Follow
/-
Whoever holds the keys it is meant to hold can follow an update path made for it.
-/
namespace Mls

open Spec (Ratchet nodeAt IsAncestor)

variable {pr : Prims}

/-! ### The tree -/

theorem sends_fst {d : Nat} (s : Ratchet ParentNode d) : ∀ off i, (s.sends off i).map Prod.fst = s.filteredPath off i := by
  induction s with
  | leaf n => intro off i; rfl
  | @node k p a b iha ihb =>
    intro off i
    rw [Ratchet.sends, Ratchet.filteredPath]
    by_cases hi : i < 2 ^ k
    · rw [if_pos hi, if_pos hi, List.map_append, iha]
      congr 1
      split <;> rfl
    · rw [if_neg hi, if_neg hi, List.map_append, ihb]
      congr 1
      split <;> rfl

/-- The path secret of the node where two leaves meet is sent to the resolution on the other side. -/
theorem meet_sends {d : Nat} (s : Ratchet ParentNode d) : ∀ (off i r x : Nat) (res : List Nat),
    s.meet off i r = some (x, res) → res ≠ [] → (x, res) ∈ s.sends off i := by
  induction s with
  | leaf n => intro off i r x res h; simp [Ratchet.meet] at h
  | @node k p a b iha ihb =>
    intro off i r x res h hne
    rw [Ratchet.meet] at h
    rw [Ratchet.sends]
    by_cases hi : i < 2 ^ k
    · rw [if_pos hi] at h ⊢
      by_cases hr : r < 2 ^ k
      · rw [if_pos hr] at h
        exact List.mem_append_left _ (iha _ _ _ _ _ h hne)
      · rw [if_neg hr] at h
        obtain ⟨rfl, rfl⟩ := Prod.mk.inj (Option.some.inj h)
        rw [if_neg hne]
        simp
    · rw [if_neg hi] at h ⊢
      by_cases hr : r < 2 ^ k
      · rw [if_pos hr] at h
        obtain ⟨rfl, rfl⟩ := Prod.mk.inj (Option.some.inj h)
        rw [if_neg hne]
        simp
      · rw [if_neg hr] at h
        exact List.mem_append_left _ (ihb _ _ _ _ _ h hne)

theorem leafNumber_eq (u : UInt32) : Spec.leafNumber u = 2 * (u.toNat % 2 ^ 31) := by
  unfold Spec.leafNumber
  omega

/-- Where a leaf that is not blank finds itself in the resolution of a subtree: itself, or a node above it that
does not have it as an unmerged leaf. -/
theorem resolution_member {t : VTree} {k j : Nat} {s : Ratchet ParentNode k} (hs : VAt t j s) {r : Nat} (hr : r / 2 ^ k = j)
    (hn : nodeAt t (2 * r) ≠ none) :
    2 * r ∈ s.resolution (j * 2 ^ (k + 1)) ∨
    ∃ m q, 0 < m ∧ m ≤ k ∧ idx m (r / 2 ^ m) ∈ s.resolution (j * 2 ^ (k + 1)) ∧
      nodeAt t (idx m (r / 2 ^ m)) = some (.parent q) ∧ ∀ u ∈ q.unmergedLeaves, Spec.leafNumber u ≠ 2 * r := by
  induction s generalizing j with
  | leaf n =>
    have h' : t[idx 0 j]? = some (n.map Node.leaf) := hs
    rw [Nat.pow_zero, Nat.div_one] at hr
    subst hr
    rw [← idx_zero, nodeAt_eq h'] at hn
    cases n with
    | none => exact absurd rfl hn
    | some l =>
      left
      simp [Ratchet.resolution]
      omega
  | @node k p a b iha ihb =>
    obtain ⟨hp, ha, hb⟩ := hs
    cases p with
    | none =>
      simp only [Ratchet.resolution, List.mem_append]
      rcases path_split hr with ⟨h1, _, _⟩ | ⟨h1, _, _⟩
      · rcases iha ha h1 with h | ⟨m, q, e1, e2, e3, e4⟩
        · exact .inl (.inl (by rw [← off_succ_left]; exact h))
        · exact .inr ⟨m, q, e1, by omega, .inl (by rw [← off_succ_left]; exact e3), e4⟩
      · rcases ihb hb h1 with h | ⟨m, q, e1, e2, e3, e4⟩
        · exact .inl (.inr (by rw [← off_succ_right]; exact h))
        · exact .inr ⟨m, q, e1, by omega, .inr (by rw [← off_succ_right]; exact e3), e4⟩
    | some q =>
      simp only [Ratchet.resolution, List.mem_cons, List.mem_map]
      have hq : nodeAt t (idx (k + 1) j) = some (.parent q) := nodeAt_eq hp
      by_cases hu : ∃ u ∈ q.unmergedLeaves, Spec.leafNumber u = 2 * r
      · obtain ⟨u, hu, he⟩ := hu
        exact .inl (.inr ⟨u, hu, he⟩)
      · refine .inr ⟨k + 1, q, by omega, by omega, .inl (by rw [hr, idx_off]), by rw [hr]; exact hq, fun u hm he => hu ⟨u, hm, he⟩⟩

/-! ### The loops -/

theorem findPriv_of {pt : List (Option Bytes)} : ∀ (xs : List Nat) (i : Nat), (∀ x ∈ xs, x < pt.length) →
    (∃ y ∈ xs, ∃ k, pt[y]? = some (some k)) → ∃ j k, findPriv pt i xs = .ok (some (j, k)) := by
  intro xs
  induction xs with
  | nil => intro i _ ⟨y, hy, _⟩; cases hy
  | cons x xs ih =>
    intro i hlt ⟨y, hy, k, hk⟩
    have hx := hlt x List.mem_cons_self
    unfold findPriv
    rw [Res.idx_ok_iff.2 (List.getElem?_eq_getElem hx)]
    simp only [Res.ok_bind]
    cases hp : pt[x] with
    | some p => exact ⟨i, p, rfl⟩
    | none =>
      simp only
      refine ih _ (fun z hz => hlt z (List.mem_cons_of_mem _ hz)) ⟨y, ?_, k, hk⟩
      rcases List.mem_cons.1 hy with rfl | hy
      · rw [List.getElem?_eq_getElem hx, hp] at hk
        cases hk
      · exact hy

theorem pathSecretLoop_of (hc : pr.Correct) {cs : UInt16} {sd : SuiteDesc} (hsd : suite cs = .ok sd)
    (hsz : sd.kem.seedSize = sd.kdf.size) {t : VTree} : ∀ (xs : List Nat) (ps : Bytes) (pt : List (Option Bytes)),
      (∀ (n x : Nat), xs[n]? = some x → x < pt.length ∧ ∃ q, nodeAt t x = some q ∧
        q.encryptionKey = (Spec.nodeKeys pr sd (Spec.pathSecret pr sd ps (n + 1))).1) →
      ∃ pt', pathSecretLoop pr cs t xs ps pt = .ok (Spec.pathSecret pr sd ps xs.length, pt') := by
  intro xs
  induction xs with
  | nil => intro ps pt _; exact ⟨pt, rfl⟩
  | cons x xs ih =>
    intro ps pt h
    obtain ⟨hlt, q, hq, hkey⟩ := h 0 x rfl
    have hnp := (nodePriv_iff hc hsd (ps := Spec.deriveSecret pr sd ps "path") (pub := q.encryptionKey)
      (priv := (Spec.nodeKeys pr sd (Spec.deriveSecret pr sd ps "path")).2)).2 ⟨hsz, by rw [hkey]; rfl⟩
    obtain ⟨pt', hpt⟩ := ih (Spec.deriveSecret pr sd ps "path")
      (pt.set x (some (Spec.nodeKeys pr sd (Spec.deriveSecret pr sd ps "path")).2)) fun n y hy => by
        obtain ⟨h1, h2⟩ := h (n + 1) y (by simpa using hy)
        rw [List.length_set]
        refine ⟨h1, ?_⟩
        rw [pathSecret_succ']
        exact h2
    refine ⟨pt', ?_⟩
    unfold pathSecretLoop
    rw [deriveSecret_eq hsd _ lblPath_name (by decide)]
    simp only [Res.ok_bind]
    rw [nodeKey_of hq]
    simp only [Res.ok_bind]
    rw [hnp]
    simp only [Res.ok_bind]
    rw [Res.setIdx_of_lt _ hlt]
    simp only [Res.ok_bind]
    rw [hpt, pathSecret_succ']
    rfl

theorem decryptPathSecret_of {ctx : GroupContext} {sd : SuiteDesc} {cs : UInt16} (hsd : suite cs = .ok sd) {k ps raw : Bytes}
    {ct : HpkeCiphertext} (hraw : ctx.enc = .ok raw) (hb : raw.length < 2 ^ 30)
    (ho : pr.hpkeOpen sd k (Spec.encryptContext "UpdatePathNode" raw) ct.kemOutput ct.ciphertext = some ps) :
    decryptPathSecret pr cs k ctx ct = .ok ps := by
  have he : encEncryptContext lblUpdatePathNode raw = .ok (Spec.encryptContext "UpdatePathNode" raw) := by
    unfold encEncryptContext
    rw [Enc.append_ok_iff]
    refine ⟨_, _, ?_, ?_, rfl⟩
    · rw [writeOpaqueVec_vec (by decide), lblUpdatePathNode_name]
    · rw [writeOpaqueVec_vec hb]
  unfold decryptPathSecret decryptWithLabel
  rw [hraw]
  simp only [Res.ok_bind]
  rw [he]
  simp only [Res.ok_bind, hsd, ho]
  rfl

theorem Below.trans {a b k j m y : Nat} (h1 : Below a b k j) (h2 : Below k j m y) : Below a b m y := by
  obtain ⟨h1, h3⟩ := h1
  obtain ⟨h2, h4⟩ := h2
  refine ⟨by omega, ?_⟩
  rw [show a - m = k - m + (a - k) from by omega, Nat.pow_add, ← Nat.div_div_eq_div_mul, h4, h3]

/-- The nodes of a resolution are below its node, if the unmerged leaves are below theirs. -/
theorem resolution_below {t : VTree} {k j : Nat} {s : Ratchet ParentNode k} (h : VAt t j s)
    (hu : ∀ x q, nodeAt t x = some (.parent q) → ∀ u ∈ q.unmergedLeaves, Over (u.toNat % 2 ^ 31) x) {x : Nat}
    (hx : x ∈ s.resolution (j * 2 ^ (k + 1))) : ∃ m y, Below k j m y ∧ x = idx m y := by
  rcases mem_resolution h hx with ⟨m, y, hb, e, _⟩ | ⟨m, y, q, u, hb, hq, hm, rfl⟩
  · exact ⟨m, y, hb, e⟩
  · obtain ⟨m', _, he⟩ := hu _ _ hq u hm
    obtain ⟨rfl, rfl⟩ := idx_inj he
    refine ⟨0, u.toNat % 2 ^ 31, hb.trans ⟨Nat.zero_le _, by rw [Nat.sub_zero]⟩, by rw [leafNumber_eq, idx_zero]⟩

theorem below_root {d k r : Nat} (hk : k ≤ d) (hr : r < 2 ^ d) : Below d 0 k (r / 2 ^ k) := by
  refine ⟨hk, ?_⟩
  rw [Nat.div_div_eq_div_mul, ← Nat.pow_add, show k + (d - k) = d from by omega]
  exact Nat.div_eq_of_lt hr

/-- The child of the node where two leaves meet, on the side of the second. -/
theorem copath_child {d e i r : Nat} (hd : d ≤ 31) (hed : e + 1 ≤ d) (hi : i < 2 ^ d) (hmeet : i / 2 ^ (e + 1) = r / 2 ^ (e + 1))
    (hapart : i / 2 ^ e ≠ r / 2 ^ e) :
    (if idx 0 r < idx 0 i then left (idx (e + 1) (i / 2 ^ (e + 1))) else right (idx (e + 1) (i / 2 ^ (e + 1)))) =
      some (idx e (r / 2 ^ e)) := by
  have hb := (below_root hed hi).lt
  have hlt32 : idx (e + 1) (i / 2 ^ (e + 1)) < 2 ^ 32 := by
    have := pow_tree_lt hd
    omega
  have hi2 : i / 2 ^ (e + 1) = i / 2 ^ e / 2 := by rw [Nat.pow_succ, ← Nat.div_div_eq_div_mul]
  have hr2 : r / 2 ^ (e + 1) = r / 2 ^ e / 2 := by rw [Nat.pow_succ, ← Nat.div_div_eq_div_mul]
  rw [left_idx hlt32, right_idx (by omega)]
  by_cases hri : idx 0 r < idx 0 i
  · rw [if_pos hri]
    rw [idx_zero, idx_zero] at hri
    have : r / 2 ^ e ≤ i / 2 ^ e := Nat.div_le_div_right (by omega)
    congr 2
    omega
  · rw [if_neg hri]
    rw [idx_zero, idx_zero] at hri
    have : i / 2 ^ e ≤ r / 2 ^ e := Nat.div_le_div_right (by omega)
    congr 2
    omega

/-- Whoever holds the keys for its leaf, and for the nodes above that it is not an unmerged leaf of, gets the commit secret
off an honest path. -/
theorem decryptPathSecrets_of (hc : pr.Correct) {sd : SuiteDesc} {ctx : GroupContext}
    (hsd : suite ctx.cipherSuite = .ok sd) (hsz : sd.kem.seedSize = sd.kdf.size) {d i r : Nat} (hd : d ≤ 31)
    (hi : i < 2 ^ d) (hr : r < 2 ^ d) (hne : i ≠ r) {s : Ratchet ParentNode d} {path : UpdatePath} {pt : List (Option Bytes)}
    {raw ps : Bytes} (hraw : ctx.enc = .ok raw) (hb : raw.length < 2 ^ 30) (hl : pt.length = 2 ^ (d + 1) - 1)
    {new : List Nat} (hon : Spec.HonestPath pr sd s raw i new path ps)
    (hnew : ∀ x res, s.meet 0 i r = some (x, res) → ∀ y ∈ res, y ∉ new)
    (hkeys : ∀ (n x : Nat) pn, (s.filteredPath 0 i)[n]? = some x → path.nodes[n]? = some pn →
      ∃ q, nodeAt (s.flat Node.leaf Node.parent) x = some q ∧ q.encryptionKey = pn.encryptionKey)
    (hopen : ∀ (y : Nat) k q, y ≠ 2 * i → ¬ IsAncestor d i y → pt[y]? = some (some k) → nodeAt (s.flat Node.leaf Node.parent) y = some q →
      Spec.KeyOpens pr sd q.encryptionKey k)
    (hu : ∀ x q, nodeAt (s.flat Node.leaf Node.parent) x = some (.parent q) → ∀ u ∈ q.unmergedLeaves, Over (u.toNat % 2 ^ 31) x)
    (hleaf : nodeAt (s.flat Node.leaf Node.parent) (2 * r) ≠ none) (hown : ∃ k, pt[2 * r]? = some (some k))
    (habove : ∀ x q, x ≠ 2 * i → ¬ IsAncestor d i x → IsAncestor d r x → nodeAt (s.flat Node.leaf Node.parent) x = some (.parent q) →
      (∀ u ∈ q.unmergedLeaves, Spec.leafNumber u ≠ 2 * r) → ∃ k, pt[x]? = some (some k)) :
    ∃ pt', decryptPathSecrets pr ctx.cipherSuite (s.flat .leaf .parent) ctx i r path pt =
      .ok (Spec.pathSecret pr sd ps (s.filteredPath 0 i).length, pt') := by
  have h31 : i < 2 ^ 31 := Nat.lt_of_lt_of_le hi (Nat.pow_le_pow_right (by decide) hd)
  have hr31 : r < 2 ^ 31 := Nat.lt_of_lt_of_le hr (Nat.pow_le_pow_right (by decide) hd)
  have hlen : (s.sends 0 i).length = (s.filteredPath 0 i).length := by rw [← sends_fst, List.length_map]
  have hroot := at_flat Node.leaf Node.parent s
  obtain ⟨m, res, hm0, hmd, hmeet, hapart, hx, hres⟩ := meet_spec (t := s.flat Node.leaf Node.parent) (vflat_lt hd s) hroot hd
    (Nat.div_eq_of_lt hi) (Nat.div_eq_of_lt hr) hne
  rw [Nat.zero_mul, Nat.zero_mul, Nat.sub_zero, Nat.sub_zero] at hx
  obtain ⟨m', hmeet', hmin, hca⟩ := commonAncestor_leaves h31 hr31
  obtain rfl : m = m' := by
    have h1 := hmin _ hmeet
    rcases Nat.lt_or_ge m' m with hlt | hge
    · exact absurd (div_pow_congr hmeet' (by omega)) hapart
    · omega
  obtain ⟨e, rfl⟩ : ∃ e, m = e + 1 := ⟨m - 1, by omega⟩
  rw [Nat.add_sub_cancel] at hapart hres
  -- the resolution of the receiver's side
  obtain ⟨sub, hsub⟩ := at_sub hroot (below_root (k := e) (by omega) hr)
  have hres' := hres
  rw [resolve_spec (vflat_lt hd s) hsub (by omega)] at hres'
  have hres' := Res.ok.inj hres'
  have hoff : ∀ y ∈ res, y < pt.length ∧ y ≠ 2 * i ∧ ¬ IsAncestor d i y := by
    intro y hy
    rw [← hres'] at hy
    obtain ⟨m', y', hb, rfl⟩ := resolution_below hsub hu hy
    obtain ⟨o1, o2⟩ := off_path (d := d) (i := i) hapart hb
    refine ⟨?_, by rw [← idx_zero]; exact o2, fun ha => o1 ((isAncestor_iff hi).1 ha)⟩
    rw [hl]
    exact ((below_root (k := e) (by omega) hr).trans hb).lt
  -- a key is held for one of them
  have hheld : ∃ y ∈ res, ∃ k, pt[y]? = some (some k) := by
    rcases resolution_member hsub rfl hleaf with h | ⟨m', q, e1, e2, e3, e4, e5⟩
    · exact ⟨_, by rw [← hres']; exact h, hown⟩
    · rw [hres'] at e3
      obtain ⟨_, o2, o3⟩ := hoff _ e3
      exact ⟨_, e3, habove _ q o2 o3 ((isAncestor_iff hr).2 (mem_path.2 ⟨m', e1, by omega, rfl⟩)) e4 e5⟩
  have hresne : res ≠ [] := by
    obtain ⟨y, hy, _⟩ := hheld
    exact List.ne_nil_of_mem hy
  have hmem : idx (e + 1) (i / 2 ^ (e + 1)) ∈ s.filteredPath 0 i := by
    rw [← sends_fst]
    exact List.mem_map.2 ⟨_, meet_sends s _ _ _ _ _ hx hresne, rfl⟩
  obtain ⟨n, hn, hnx⟩ : ∃ n, ∃ hn : n < (s.filteredPath 0 i).length,
      List.idxOf? (idx (e + 1) (i / 2 ^ (e + 1))) (s.filteredPath 0 i) = some n ∧ (s.filteredPath 0 i)[n] = idx (e + 1) (i / 2 ^ (e + 1)) := by
    cases hpos : List.idxOf? (idx (e + 1) (i / 2 ^ (e + 1))) (s.filteredPath 0 i) with
    | none =>
      rw [List.idxOf?_eq_none_iff] at hpos
      exact absurd hmem hpos
    | some n =>
      rw [List.idxOf?, List.findIdx?_eq_some_iff_getElem] at hpos
      obtain ⟨he, heq, _⟩ := hpos
      simp only [beq_iff_eq] at heq
      exact ⟨n, he, rfl, heq⟩
  obtain ⟨hpos, hnx⟩ := hnx
  have hnd := filteredPath_nodup (s := s) (i := i) (j := 0) (Nat.div_eq_of_lt hi)
  rw [Nat.zero_mul, Nat.zero_mul, Nat.sub_zero] at hnd
  have hsend : (s.sends 0 i)[n]? = some (idx (e + 1) (i / 2 ^ (e + 1)), res) := by
    obtain ⟨n', hn', hs'⟩ := List.mem_iff_getElem.1 (meet_sends s _ _ _ _ _ hx hresne)
    have hF : (s.filteredPath 0 i)[n']? = some (idx (e + 1) (i / 2 ^ (e + 1))) := by
      rw [← sends_fst, List.getElem?_map, List.getElem?_eq_getElem hn', hs']
      rfl
    have : n' = n := by
      exact (List.getElem?_inj (List.getElem?_eq_some_iff.1 hF).1 hnd).1 (by rw [hF, List.getElem?_eq_getElem hn, hnx])
    rw [← this, List.getElem?_eq_getElem hn', hs']
  obtain ⟨pn, hpn⟩ : ∃ pn, path.nodes[n]? = some pn :=
    ⟨path.nodes[n]'(by rw [hon.length, hlen]; exact hn), List.getElem?_eq_getElem _⟩
  obtain ⟨_, hcount, hcts⟩ := hon.node n _ res pn hsend hpn
  have hfil : res.filter (· ∉ new) = res := by
    rw [List.filter_eq_self]
    intro y hy
    simpa using hnew _ res hx y hy
  rw [hfil] at hcount hcts
  obtain ⟨j, k, hfind⟩ := findPriv_of res 0 (fun y hy => (hoff y hy).1) hheld
  obtain ⟨j', y, hj, hjy, hky, _⟩ := findPriv_first _ _ _ _ hfind
  rw [Nat.zero_add] at hj
  subst hj
  obtain ⟨ct, hct⟩ : ∃ ct, pn.encryptedPathSecret[j]? = some ct := by
    have := (List.getElem?_eq_some_iff.1 hjy).1
    exact ⟨pn.encryptedPathSecret[j]'(by omega), List.getElem?_eq_getElem _⟩
  obtain ⟨q, rand, hq, hseal⟩ := hcts j y ct hjy hct
  obtain ⟨_, o2, o3⟩ := hoff y (List.mem_of_getElem? hjy)
  rw [← node_keyOf] at hseal
  have hdec := decryptPathSecret_of (pr := pr) hsd hraw hb (hopen y k q o2 o3 hky hq _ _ _ _ _ hseal)
  have hnode : ∀ (n' x : Nat), (s.filteredPath 0 i)[n']? = some x → x < pt.length ∧ ∃ q, nodeAt (s.flat Node.leaf Node.parent) x = some q ∧
      q.encryptionKey = (Spec.nodeKeys pr sd (Spec.pathSecret pr sd ps n')).1 := by
    intro n' x hx'
    have hn' := (List.getElem?_eq_some_iff.1 hx').1
    obtain ⟨pn', hpn'⟩ : ∃ pn, path.nodes[n']? = some pn :=
      ⟨path.nodes[n']'(by rw [hon.length, hlen]; exact hn'), List.getElem?_eq_getElem _⟩
    obtain ⟨q', hq', hk'⟩ := hkeys n' x pn' hx' hpn'
    obtain ⟨p, hp⟩ : ∃ p, (s.sends 0 i)[n']? = some p := ⟨_, List.getElem?_eq_getElem (by rw [hlen]; exact hn')⟩
    obtain ⟨x', res'⟩ := p
    refine ⟨?_, q', hq', by rw [hk']; exact (hon.node n' x' res' pn' hp hpn').1⟩
    rw [nodeAt_some] at hq'
    have := (List.getElem?_eq_some_iff.1 hq').1
    rw [flat_length] at this
    omega
  obtain ⟨hlt, q2, hq2, hk2⟩ := hnode n _ (by rw [List.getElem?_eq_getElem hn, hnx])
  have hnp := (nodePriv_iff hc hsd (ps := Spec.pathSecret pr sd ps n) (pub := q2.encryptionKey)
      (priv := (Spec.nodeKeys pr sd (Spec.pathSecret pr sd ps n)).2)).2 ⟨hsz, by rw [hk2]⟩
  obtain ⟨pt', hloop⟩ := pathSecretLoop_of hc hsd hsz (t := s.flat Node.leaf Node.parent) ((s.filteredPath 0 i).drop (n + 1))
    (Spec.pathSecret pr sd ps n) (pt.set (idx (e + 1) (i / 2 ^ (e + 1))) (some (Spec.nodeKeys pr sd (Spec.pathSecret pr sd ps n)).2))
    fun n' x hx' => by
      rw [List.length_set, pathSecret_add]
      rw [List.getElem?_drop, show n + 1 + n' = n + (n' + 1) from by omega] at hx'
      exact hnode _ x hx'
  refine ⟨pt', ?_⟩
  unfold decryptPathSecrets
  simp only [nodeOfLeaf_idx h31, nodeOfLeaf_idx hr31]
  rw [filteredDirectPath_spec hd hi]
  simp only [Res.ok_bind]
  rw [hon.length, hlen, hca]
  simp only [beq_self_eq_true, Res.guardErr_true, Res.ok_bind]
  rw [hpos]
  simp only
  rw [Res.idx_ok_iff.2 hpn]
  simp only [Res.ok_bind]
  rw [copath_child hd hmd hi hmeet hapart]
  simp only [Res.deref, Res.ok_bind]
  rw [hres]
  simp only [Res.ok_bind]
  rw [hcount]
  simp only [beq_self_eq_true, Res.guardErr_true, Res.ok_bind]
  rw [hfind]
  simp only [Res.ok_bind]
  rw [Res.idx_ok_iff.2 hct]
  simp only [Res.ok_bind]
  rw [hdec]
  simp only [Res.ok_bind]
  rw [nodeKey_of hq2]
  simp only [Res.ok_bind]
  rw [hnp]
  simp only [Res.ok_bind]
  rw [Res.setIdx_of_lt _ hlt]
  simp only [Res.ok_bind]
  rw [hloop]
  simp only [Res.ok_bind]
  rw [deriveSecret_eq hsd _ lblPath_name (by decide)]
  simp only [Res.ok_bind, Res.pure_eq, Res.ok.injEq, Prod.mk.injEq, and_true]
  rw [pathSecret_add, List.length_drop, show (s.filteredPath 0 i).length = n + ((s.filteredPath 0 i).length - (n + 1)) + 1 from by omega]
  rw [Spec.pathSecret]
  congr 2
  omega

/-- Nobody follows a path that leaves out a node of the resolution on its side. -/
theorem honest_path_whole {sd : SuiteDesc} {ctx : GroupContext} (hsd : suite ctx.cipherSuite = .ok sd) {d i r : Nat} (hd : d ≤ 31)
    (hi : i < 2 ^ d) (hr : r < 2 ^ d) {s : Ratchet ParentNode d} {path : UpdatePath} {raw ps ps' sec : Bytes} {pt pt' : List (Option Bytes)}
    {m e : Nat} {new : List Nat} (hon : Spec.HonestPath pr sd s raw i new path ps)
    (h : PathSecrets pr sd (s.flat Node.leaf Node.parent) ctx (s.filteredPath 0 i) i r path pt pt' sec m e ps') :
    ∀ x res, s.meet 0 i r = some (x, res) → ∀ y ∈ res, y ∉ new := by
  obtain ⟨raw', _, hrec⟩ := h.received hsd hd hi hr
  obtain ⟨x, res, pn, j, y, k, ct, h1, h2, h3, h4, h5, _⟩ := hrec.opened
  intro x' res' hm y' hy' hin
  rw [h1] at hm
  cases hm
  have hs := meet_sends s 0 i r x res h1 (List.ne_nil_of_mem hy')
  have hnd := filteredPath_nodup (s := s) (i := i) (j := 0) (Nat.div_eq_of_lt hi)
  rw [Nat.zero_mul, Nat.zero_mul, Nat.sub_zero] at hnd
  obtain ⟨n', hn', hs'⟩ := List.mem_iff_getElem.1 hs
  have hF : (s.filteredPath 0 i)[n']? = some x := by
    rw [← sends_fst, List.getElem?_map, List.getElem?_eq_getElem hn', hs']
    rfl
  have hne : n' = e := (List.getElem?_inj (List.getElem?_eq_some_iff.1 hF).1 hnd).1 (by rw [hF, h2])
  subst hne
  obtain ⟨_, hcount, _⟩ := hon.node n' x res pn (by rw [List.getElem?_eq_getElem hn', hs']) h3
  rw [h4] at hcount
  have := List.length_filter_eq_length_iff.1 hcount.symm y' hy'
  simp at this
  exact this hin

end Mls
