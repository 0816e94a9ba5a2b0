import Verif.Proofs.Integrity
import Verif.Props.Confirmation
import Verif.Props.TreeRead
import Verif.Props.TreeCodec
/-
C29, C30 and C65: what a joiner knows of the ratchet tree it accepts.
-/
namespace Mls

open Spec (Ratchet ITree nodeAt)

/-- Nodes of a tree by position: leaves at the even places, parents at the odd ones. -/
theorem flat_kind {d : Nat} (s : Ratchet ParentNode d) {x : Nat} {n : Node}
    (h : nodeAt (s.flat .leaf .parent) x = some n) :
    (∃ i l, i < 2 ^ d ∧ x = 2 * i ∧ n = .leaf l) ∨ (x % 2 = 1 ∧ ∃ p, n = .parent p) := by
  rw [nodeAt_some] at h
  have hx := (List.getElem?_eq_some_iff.1 h).1
  rw [flat_length] at hx
  obtain ⟨m, y, hb, rfl⟩ := exists_below hx
  obtain ⟨s', hs'⟩ := at_sub (at_flat Node.leaf Node.parent s) hb
  cases s' with
  | leaf o =>
    have h' : (s.flat Node.leaf Node.parent)[idx 0 y]? = some (o.map Node.leaf) := hs'
    rw [h'] at h
    refine .inl ⟨y, ?_⟩
    obtain ⟨_, h2⟩ := hb
    rw [Nat.sub_zero] at h2
    have := (Nat.div_eq_zero_iff).1 h2
    have hp := Nat.two_pow_pos d
    cases o with
    | none => simp at h
    | some l => exact ⟨l, by omega, idx_zero _, by simpa using h.symm⟩
  | @node k o a b =>
    have h' := hs'.1
    rw [h'] at h
    refine .inr ⟨?_, ?_⟩
    · unfold idx
      rw [Nat.pow_succ, Nat.pow_succ]
      have := Nat.two_pow_pos k
      have e : y * (2 ^ k * 2 * 2) = 2 * (y * (2 ^ k * 2)) := by ring
      omega
    · cases o with
      | none => simp at h
      | some p => exact ⟨p, by simpa using h.symm⟩

/-- **C29.** verifyIntegrity accepts a tree exactly when the tree is complete and of the right shape, its
tree hash is that of the group context, its parent hashes are valid, every leaf carries a signature for
its own index, an unexpired lifetime and extensions it supports, signature keys are pairwise distinct,
encryption keys of all nodes are pairwise distinct, the unmerged leaves are below their parent and
recorded on the non-blank nodes between; and credential types are counted as often as there are members
(see C30). -/
theorem C29_integrity {pr : Prims} (hc : pr.Correct) {t : VTree} {d : Nat} (hd : d ≤ 31)
    (hlen : t.length = 2 ^ (d + 1) - 1) (ctx : GroupContext) (now : GoTime) :
    verifyIntegrity pr t ctx now = .ok () ↔
      ∃ sd, suite ctx.cipherSuite = .ok sd ∧ ∃ s : Ratchet ParentNode d,
        Spec.TreeValid pr (pr.hash sd.hash) ctx now t s := by
  have hlt : t.length < 2 ^ 32 := by rw [hlen]; exact pow_tree_lt hd
  have hnum : treeNumLeaves t = 2 ^ d := numLeaves_pow hd hlen
  unfold verifyIntegrity verifyParentHashes supportedCreds
  simp only [hnum, Res.bind_ok_iff, Res.guardErr_ok_iff, exists_const, beq_iff_eq, Res.pure_eq,
    Res.ok.injEq]
  constructor
  · rintro ⟨h, h1, rfl, b, h2, rfl, creds, ⟨ms, hms, rfl⟩, E, h4, h5⟩
    obtain ⟨s, hs⟩ := tree_of_rootHash hd hlen h1
    have hsuite : ∃ sd, suite ctx.cipherSuite = .ok sd := by
      unfold computeRootTreeHash computeTreeHash at h1
      rw [computeTreeHashLoop] at h1
      simp only [Res.bind_ok_iff] at h1
      obtain ⟨_, _, _, _, sd, hsd, _⟩ := h1
      exact ⟨sd, hsd⟩
    obtain ⟨sd, hsd⟩ := hsuite
    rw [verifyParentHashesLoop_iff] at h2
    obtain ⟨hl, hk⟩ := verifyLeavesLoop_sound hd hs (by omega) h4
    rw [verifyParentsLoop_iff hd hs (by omega)] at h5
    rw [members_eq hd hs, Res.ok.injEq] at hms
    subst hms
    have hat : VAt t 0 s := by rw [hs]; exact at_flat _ _ s
    have hleaf : ∀ x l, nodeAt t x = some (.leaf l) → ∃ i, i < 2 ^ d ∧ x = 2 * i := by
      intro x l hx
      rw [hs] at hx
      rcases flat_kind s hx with ⟨i, _, h1, h2, _⟩ | ⟨_, p, hp⟩
      · exact ⟨i, h1, h2⟩
      · cases hp
    refine ⟨sd, hsd, s, hs, ?_, ?_, ?_, ?_, ?_, ?_, ?_⟩
    · rw [hs] at h1
      exact (computeRootTreeHash_iff hc hsd hd s _).1 h1
    · have := parentHashValid_of hc hsd hlt hd hat (fun x n hx => by simpa using h2 x n hx)
      simpa using this
    · intro i l hi hx
      exact (hl i l (Nat.zero_le _) (by omega) hx).1.1
    · intro l hl'
      obtain ⟨i, hi, he⟩ := List.getElem_of_mem hl'
      rw [leaves_length] at hi
      obtain ⟨o, _, ho, ho'⟩ := getLeaf_at hd hs hi
      rw [List.getElem?_eq_getElem (by rw [leaves_length]; exact hi), he, Option.some.injEq] at ho'
      subst ho'
      have := (hl i l (Nat.zero_le _) (by omega) ho).1.2
      rw [List.mem_filter] at this
      simpa using this.2
    · intro i j l m hi hj hne h1 h2
      rcases Nat.lt_or_gt_of_ne hne with hlt | hlt
      · exact ((hl j m (Nat.zero_le _) (by omega) h2).2.2.2 i l (Nat.zero_le _) hlt h1).1
      · exact fun e => ((hl i l (Nat.zero_le _) (by omega) h1).2.2.2 j m (Nat.zero_le _) hlt h2).1 e.symm
    · have hlp : ∀ x y l p, nodeAt t x = some (.leaf l) → nodeAt t y = some (.parent p) → l.encryptionKey ≠ p.encryptionKey := by
        intro x y l p hx hy e
        obtain ⟨i, hi, rfl⟩ := hleaf x l hx
        obtain ⟨_, hn, _⟩ := h5 y p (nodeAt_some.1 hy)
        exact hn ((hk _).2 (.inr ⟨i, l, Nat.zero_le _, by omega, hx, e⟩))
      intro x y n m hne hx hy
      cases n with
      | leaf l =>
        cases m with
        | leaf l' =>
          obtain ⟨i, hi, rfl⟩ := hleaf x l hx
          obtain ⟨j, hj, rfl⟩ := hleaf y l' hy
          rcases Nat.lt_or_gt_of_ne (show i ≠ j by omega) with hlt | hlt
          · exact ((hl j l' (Nat.zero_le _) (by omega) hy).2.2.2 i l (Nat.zero_le _) hlt hx).2
          · exact fun e => ((hl i l (Nat.zero_le _) (by omega) hx).2.2.2 j l' (Nat.zero_le _) hlt hy).2 e.symm
        | parent p => exact hlp x y l p hx hy
      | parent p =>
        cases m with
        | leaf l => exact fun e => hlp y x l p hy hx e.symm
        | parent q =>
          rcases Nat.lt_or_gt_of_ne hne with hlt | hlt
          · exact (h5 y q (nodeAt_some.1 hy)).2.2 x p hlt (nodeAt_some.1 hx)
          · exact fun e => (h5 x p (nodeAt_some.1 hx)).2.2 y q hlt (nodeAt_some.1 hy) e.symm
    · intro x p hx
      have := (h5 x p (nodeAt_some.1 hx)).1
      rwa [Nat.zero_add] at this
  · rintro ⟨sd, hsd, s, hs, h1, h2, h3, h4, h5, h6, h7⟩
    have hat : VAt t 0 s := by rw [hs]; exact at_flat _ _ s
    have hleaves : ∀ creds : List UInt16, (∀ l, some l ∈ s.leaves → l.credential.ty ∈ creds) →
        LeavesOk pr ctx now creds t (2 ^ d) 0 [] [] := by
      intro creds hcr i l _ hi hx
      refine ⟨⟨h3 i l (by omega) hx, hcr l ?_⟩, by simp, by simp, fun j l' _ hj hx' =>
        ⟨h5 j i l' l (by omega) (by omega) (by omega) hx' hx, h6 (2 * j) (2 * i) _ _ (by omega) hx' hx⟩⟩
      obtain ⟨o, _, ho, ho'⟩ := getLeaf_at hd hs (i := i) (by omega)
      rw [hx] at ho
      cases o with
      | none => cases ho
      | some l0 =>
        cases ho
        exact List.mem_of_getElem? ho'
    have hcreds : ∀ l, some l ∈ s.leaves → l.credential.ty ∈
        ((s.leaves.filterMap id).flatMap fun l => l.capabilities.credentials).filter fun ct =>
          ((s.leaves.filterMap id).flatMap fun l => l.capabilities.credentials).count ct == (s.leaves.filterMap id).length := by
      intro l hl
      have := h4 l hl
      rw [List.mem_filter]
      refine ⟨?_, by simpa using this⟩
      by_contra hn
      rw [List.count_eq_zero.2 hn] at this
      have hm : l ∈ s.leaves.filterMap id := by simpa using hl
      have := List.length_pos_of_mem hm
      omega
    obtain ⟨E, hE⟩ := verifyLeavesLoop_complete hd hs (by omega) (hleaves _ hcreds)
    refine ⟨_, ?_, rfl, true, ?_, rfl, _, ⟨_, members_eq hd hs, rfl⟩, E, hE, ?_⟩
    · rw [hs]
      exact (computeRootTreeHash_iff hc hsd hd s _).2 h1
    · rw [verifyParentHashesLoop_iff]
      intro m n hm
      rw [Nat.zero_add]
      have hmlt := (List.getElem?_eq_some_iff.1 hm).1
      rw [hlen] at hmlt
      obtain ⟨k, y, hb, rfl⟩ := exists_below hmlt
      refine linkOk_of_valid hc hsd hlt hd hat ?_ (by simpa using h2) hb hm
      intro x p hx li hli
      obtain ⟨below, above, ha, _⟩ := h7 x p hx li hli
      by_contra hge
      have hno : ¬ ITree.Mem (Spec.leafNumber li) (ITree.perfect d 0) := by
        have := mem_perfect_range d 0 (Spec.leafNumber li)
        rw [Nat.zero_mul] at this
        rw [this]
        omega
      rw [ancestors_none hno] at ha
      cases ha
    · rw [verifyParentsLoop_iff hd hs (by omega)]
      obtain ⟨_, hk⟩ := verifyLeavesLoop_sound hd hs (by omega) hE
      intro m p hm
      rw [← nodeAt_some] at hm
      refine ⟨by rw [Nat.zero_add]; exact h7 m p hm, ?_, fun m' p' hlt' hm' => h6 m' m _ _ (by omega) (nodeAt_some.2 hm') hm⟩
      rw [hk]
      rintro (hh | ⟨i, l, _, _, hx, e⟩)
      · cases hh
      · refine h6 (2 * i) m _ _ ?_ hx hm e
        rintro rfl
        rw [hx] at hm
        cases hm

/-- What is read of a tree just decoded is what was decoded. -/
theorem deref_alloc (t : VTree) : ∀ h : Heap, (∃ e, (allocTree h t).1 = h ++ e) ∧
    derefTree (allocTree h t).1 (allocTree h t).2 = t := by
  induction t with
  | nil => exact fun h => ⟨⟨[], by simp [allocTree]⟩, rfl⟩
  | cons o t ih =>
    intro h
    match o with
    | none => exact ⟨(ih h).1, congrArg (none :: ·) (ih h).2⟩
    | some (.leaf n) => exact ⟨(ih h).1, congrArg (some (Node.leaf n) :: ·) (ih h).2⟩
    | some (.parent p) =>
      obtain ⟨⟨e, he⟩, h2⟩ := ih (h ++ [p])
      refine ⟨⟨p :: e, by simp [allocTree, he]⟩, ?_⟩
      have hx : TNode.deref (allocTree (h ++ [p]) t).1 (.parent h.length) = .parent p := by
        rw [he]
        simp [TNode.deref]
      show some (TNode.deref (allocTree (h ++ [p]) t).1 (.parent h.length)) :: derefTree (allocTree (h ++ [p]) t).1 (allocTree (h ++ [p]) t).2 = _
      rw [hx, h2]

/-- **C29.** The tree of a group just joined passes all these checks in the group context joined. -/
theorem C29_join {pr : Prims} (hc : pr.Correct) {w : Welcome} {kp : KeyPairPackage} {now : GoTime} {st : GroupState}
    (h : groupFromWelcome pr w kp now = .ok st) :
    ∃ sd d, suite st.group.groupContext.cipherSuite = .ok sd ∧ d ≤ 30 ∧ ∃ s : Ratchet ParentNode d,
      Spec.TreeValid pr (pr.hash sd.hash) st.group.groupContext now st.vtree s := by
  unfold groupFromWelcome at h
  simp only [Res.bind_ok_iff] at h
  obtain ⟨ref, _, gs, _, _, _, _, _, h⟩ := h
  obtain ⟨psk, info, raw, t, leaf, li, pt, _, _, _, hdec, hget, _, _, _, hv, _, _, hh, ht, hctx, _⟩ := groupFromSecrets_ok h
  obtain ⟨k, hk, hlen⟩ := C26_decoded_length hdec
  cases k with
  | zero =>
    have : t = [] := List.eq_nil_of_length_eq_zero (by simpa using hlen)
    subst this
    simp [getLeaf, Res.idx] at hget
  | succ d =>
    rw [C29_integrity hc (by omega) hlen] at hv
    obtain ⟨sd, hsd, s, hs⟩ := hv
    have : st.vtree = t := by
      unfold GroupState.vtree
      rw [hh, ht]
      exact (deref_alloc t []).2
    rw [← hctx] at hsd hs
    exact ⟨sd, d, hsd, by omega, s, by rw [this]; exact hs⟩

/-- `toyLeaf`, signed for its place in the toy group, with these credential types in its capabilities. -/
def toySigned (name : UInt8) (creds : List UInt16) (src : LeafNodeSource) (i : UInt32) : LeafNode :=
  let l := { toyLeaf name with source := src, capabilities := ⟨[1], [1], [], [], creds⟩ }
  match l.sign toyPrims 1 [7] i [11, name] [] with
  | .ok l => l
  | _ => l

/-- The tree of a group of two members in which leaf 0 has made the last commit; `lis` are the unmerged
leaves of the root. -/
def toyCommitted (sib : Option LeafNode) (lis : List UInt32) : VTree :=
  let p : ParentNode := { toyParent 1 with unmergedLeaves := lis }
  let bare := sib.filter fun _ => !lis.contains 1
  match computeTreeHash toyPrims 1 [none, none, bare.map .leaf] 2 [] with
  | .ok h =>
    match p.computeParentHash toyPrims 1 h with
    | .ok ph => [some (.leaf (toySigned 0 [1] (.commit ph) 0)), some (.parent p), sib.map .leaf]
    | _ => []
  | _ => []

/-- The group context of the toy group for a tree. -/
def toyContext (t : VTree) : GroupContext :=
  { toyPair.group.groupContext with
    treeHash := match computeRootTreeHash toyPrims 1 t with
      | .ok h => h
      | _ => [] }

/-- A tree with a parent node that is accepted. -/
def toyGoodTree : VTree := toyCommitted (some (toySigned 1 [1] (.keyPackage ⟨1, 2⟩) 1)) []

/-- The hypotheses hold, and the tree is accepted, of a tree with a parent node. -/
example : toyGoodTree.length = 2 ^ (1 + 1) - 1 ∧ verifyIntegrity toyPrims toyGoodTree (toyContext toyGoodTree) toyNow = .ok () ∧
    (∃ p, nodeAt toyGoodTree 1 = some (.parent p)) := by
  refine ⟨by decide +kernel, by decide +kernel, toyParent 1, by decide +kernel⟩

/-! ### C65 and C66: what is not checked -/

/-- C66 is false: a tree is accepted though an unmerged leaf of a parent node is blank. -/
theorem C66_refuted : ∃ (t : VTree) (p : ParentNode) (li : UInt32),
    verifyIntegrity toyPrims t (toyContext t) toyNow = .ok () ∧ nodeAt t 1 = some (.parent p) ∧
    li ∈ p.unmergedLeaves ∧ nodeAt t (Spec.leafNumber li) = none :=
  ⟨toyCommitted none [1], { toyParent 1 with unmergedLeaves := [1] }, 1, by decide +kernel⟩

/-- What holds of C66: an unmerged leaf of a parent node of an accepted tree is a leaf position below it,
recorded on the non-blank nodes between. Missing: that it is not blank. -/
theorem C66_partial {pr : Prims} (hc : pr.Correct) {t : VTree} {d : Nat} (hd : d ≤ 31)
    (hlen : t.length = 2 ^ (d + 1) - 1) (ctx : GroupContext) (now : GoTime)
    (h : verifyIntegrity pr t ctx now = .ok ()) {x : Nat} {p : ParentNode} (hx : nodeAt t x = some (.parent p))
    {li : UInt32} (hli : li ∈ p.unmergedLeaves) :
    ∃ below above, (ITree.perfect d 0).ancestors (Spec.leafNumber li) = some (below ++ x :: above) ∧
      ∀ y ∈ below, ∀ q, nodeAt t y = some (.parent q) → li ∈ q.unmergedLeaves := by
  rw [C29_integrity hc hd hlen] at h
  obtain ⟨_, _, _, hs⟩ := h
  exact hs.unmerged x p hx li hli

/-- RFC 9420 section 7.9.2: the child `C` of the parent node `p`, whose nodes are numbered from `lo` to below `hi`
and whose resolution is `res`, has a node `D` in its resolution with the parent hash `ph`, and the unmerged
leaves of `p` below `C` are the nodes of the resolution other than `D`. -/
def Spec.LinkedBy (t : VTree) (ph : Bytes) (p : ParentNode) (res : List Nat) (lo hi : Nat) : Prop :=
  ∃ D ∈ res, (∃ n, nodeAt t D = some n ∧ Spec.parentHashOf n = ph) ∧
    ∀ y, (y ∈ res ∧ y ≠ D) ↔ ∃ li ∈ p.unmergedLeaves, Spec.leafNumber li = y ∧ lo ≤ y ∧ y < hi

/-- RFC 9420 section 7.9.2: the parent node `p` is linked to one of its children. -/
def Spec.ParentHashLinked (H : Bytes → Bytes) (t : VTree) {d : Nat} (off i : Nat) (p : ParentNode)
    (l r : Ratchet ParentNode d) : Prop :=
  ∃ lh rh li ri, (l.without p.unmergedLeaves i).treeHash H i = some lh ∧
    (r.without p.unmergedLeaves (i + 2 ^ d)).treeHash H (i + 2 ^ d) = some rh ∧
    Spec.parentHashInput p rh = some li ∧ Spec.parentHashInput p lh = some ri ∧
    (Spec.LinkedBy t (H li) p (l.resolution off) off (off + 2 ^ (d + 1) - 1) ∨
      Spec.LinkedBy t (H ri) p (r.resolution (off + 2 ^ (d + 1))) (off + 2 ^ (d + 1)) (off + 2 ^ (d + 2) - 1))

/-- A tree in which the leaf that made the last commit is also an unmerged leaf of the root. -/
def toyUnmergedCommitter : VTree := toyCommitted (some (toySigned 1 [1] (.keyPackage ⟨1, 2⟩) 1)) [0]

/-- C65 is false: a tree is accepted though its root is not linked to any child, because the leaf with the parent
hash is itself an unmerged leaf. -/
theorem C65_refuted : ∃ (t : VTree) (p : ParentNode) (l r : LeafNode),
    t = (Ratchet.node (some p) (.leaf (some l)) (.leaf (some r))).flat .leaf .parent ∧
    verifyIntegrity toyPrims t (toyContext t) toyNow = .ok () ∧
    ¬ Spec.ParentHashLinked (toyPrims.hash .sha256) t 0 0 p (.leaf (some l)) (.leaf (some r)) := by
  refine ⟨toyUnmergedCommitter, { toyParent 1 with unmergedLeaves := [0] },
    match nodeAt toyUnmergedCommitter 0 with
    | some (.leaf l) => l
    | _ => toyLeaf 0, toySigned 1 [1] (.keyPackage ⟨1, 2⟩) 1, by decide +kernel, by decide +kernel, ?_⟩
  rintro ⟨lh, rh, li, ri, -, -, -, -, ⟨D, hD, _, hm⟩ | ⟨D, hD, ⟨n, hn, hph⟩, _⟩⟩
  · have h0 := (hm 0).2 ⟨0, List.mem_singleton.2 rfl, rfl, by decide, by decide⟩
    simp only [Ratchet.resolution, List.mem_singleton] at hD
    exact h0.2 hD.symm
  · simp only [Ratchet.resolution, List.mem_singleton] at hD
    subst hD
    have hn' : nodeAt toyUnmergedCommitter (0 + 2 ^ (0 + 1)) =
        some (.leaf (toySigned 1 [1] (.keyPackage ⟨1, 2⟩) 1)) := by decide +kernel
    rw [hn'] at hn
    cases hn
    have hl := toyPrims_correct.hash_length .sha256 ri
    rw [← hph] at hl
    exact absurd hl (by decide +kernel)

/-- What holds of C65: every parent node of an accepted tree is linked by parent hash to exactly one of its
children. Missing: that the other nodes of the resolution of that child are the unmerged leaves. -/
theorem C65_partial {pr : Prims} (hc : pr.Correct) {t : VTree} {d : Nat} (hd : d ≤ 31)
    (hlen : t.length = 2 ^ (d + 1) - 1) (ctx : GroupContext) (now : GoTime)
    (h : verifyIntegrity pr t ctx now = .ok ()) :
    ∃ sd, suite ctx.cipherSuite = .ok sd ∧ ∃ s : Ratchet ParentNode d, t = s.flat .leaf .parent ∧
      s.ParentHashValid (pr.hash sd.hash) t 0 0 := by
  rw [C29_integrity hc hd hlen] at h
  obtain ⟨sd, hsd, s, hs⟩ := h
  exact ⟨sd, hsd, s, hs.array, hs.parentHashes⟩

/-! ### C30 -/

/-- The credential types in the capabilities of the members are counted, so that the types counted as often
as there are members are those listed by all, when no member lists a type twice. -/
theorem count_creds {ms : List LeafNode} (hn : ∀ m ∈ ms, m.capabilities.credentials.Nodup) (ct : UInt16) :
    (ms.flatMap fun m => m.capabilities.credentials).count ct ≤ ms.length ∧
    ((ms.flatMap fun m => m.capabilities.credentials).count ct = ms.length ↔
      ∀ m ∈ ms, ct ∈ m.capabilities.credentials) := by
  induction ms with
  | nil => simp
  | cons m ms ih =>
    obtain ⟨h1, h2⟩ := ih fun m' hm' => hn m' (List.mem_cons_of_mem _ hm')
    have hm := List.nodup_iff_count.1 (hn m (List.mem_cons_self ..)) ct
    rw [List.flatMap_cons, List.count_append, List.length_cons, List.forall_mem_cons, ← h2]
    have hmem := List.count_pos_iff (a := ct) (l := m.capabilities.credentials)
    refine ⟨by omega, ?_, ?_⟩
    · intro h
      exact ⟨hmem.1 (by omega), by omega⟩
    · rintro ⟨h3, h4⟩
      have := hmem.2 h3
      omega

/-- **C30**, for capabilities without repetitions: supportedCreds computes the credential types that every member
lists. -/
theorem C30_supported_partial {t : VTree} {d : Nat} {s : Ratchet ParentNode d} (hd : d ≤ 31)
    (ht : t = s.flat .leaf .parent) (hn : ∀ l, some l ∈ s.leaves → l.capabilities.credentials.Nodup) :
    ∃ creds, supportedCreds t = .ok creds ∧ ∀ ct, ct ∈ creds ↔
      (∃ l, some l ∈ s.leaves) ∧ ∀ l, some l ∈ s.leaves → ct ∈ l.capabilities.credentials := by
  unfold supportedCreds
  rw [members_eq hd ht, Res.ok_bind]
  have hmem : ∀ l, l ∈ s.leaves.filterMap id ↔ some l ∈ s.leaves := by simp
  refine ⟨_, rfl, fun ct => ?_⟩
  obtain ⟨_, h⟩ := count_creds (ms := s.leaves.filterMap id) (fun m hm => hn m ((hmem m).1 hm)) ct
  rw [List.mem_filter, beq_iff_eq, h]
  constructor
  · rintro ⟨h1, h2⟩
    obtain ⟨l, hl, _⟩ := List.mem_flatMap.1 h1
    exact ⟨⟨l, (hmem l).1 hl⟩, fun l hl => h2 l ((hmem l).2 hl)⟩
  · rintro ⟨⟨l, hl⟩, h⟩
    exact ⟨List.mem_flatMap.2 ⟨l, (hmem l).2 hl, h l hl⟩, fun l hl => h l ((hmem l).1 hl)⟩

/-- C30 for joining, when no member lists a credential type twice: in an accepted tree every member lists the
credential types of all members. Missing: trees with repeated types, for which it is false (C30_refuted). -/
theorem C30_join_partial {pr : Prims} (hc : pr.Correct) {t : VTree} {d : Nat} (hd : d ≤ 31)
    (hlen : t.length = 2 ^ (d + 1) - 1) (ctx : GroupContext) (now : GoTime)
    (h : verifyIntegrity pr t ctx now = .ok ()) :
    ∃ s : Ratchet ParentNode d, t = s.flat .leaf .parent ∧
      ((∀ l, some l ∈ s.leaves → l.capabilities.credentials.Nodup) →
        ∀ l m, some l ∈ s.leaves → some m ∈ s.leaves → l.credential.ty ∈ m.capabilities.credentials) := by
  rw [C29_integrity hc hd hlen] at h
  obtain ⟨sd, hsd, s, hs⟩ := h
  refine ⟨s, hs.array, fun hn l m hl hm => ?_⟩
  have hmem : ∀ l, l ∈ s.leaves.filterMap id ↔ some l ∈ s.leaves := by simp
  obtain ⟨_, he⟩ := count_creds (ms := s.leaves.filterMap id) (fun m hm => hn m ((hmem m).1 hm)) l.credential.ty
  exact he.1 (hs.credentials l hl) m ((hmem m).2 hm)

/-- A member that lists no credential type and one that lists a type twice. -/
def toyDuplicate : VTree :=
  [some (.leaf (toySigned 0 [1, 1] (.keyPackage ⟨1, 2⟩) 0)), none, some (.leaf (toySigned 1 [] (.keyPackage ⟨1, 2⟩) 1))]

/-- C30 is false: types are counted with repetitions, so one member can vouch for another. -/
theorem C30_refuted : ∃ (t : VTree) (l m : LeafNode),
    verifyIntegrity toyPrims t (toyContext t) toyNow = .ok () ∧ nodeAt t 0 = some (.leaf l) ∧
    nodeAt t 2 = some (.leaf m) ∧ l.credential.ty ∉ m.capabilities.credentials :=
  ⟨toyDuplicate, toySigned 0 [1, 1] (.keyPackage ⟨1, 2⟩) 0, toySigned 1 [] (.keyPackage ⟨1, 2⟩) 1, by decide +kernel⟩

/-- The hypothesis of the partial theorems holds of the good toy tree. -/
example : ∀ n ∈ toyGoodTree, ∀ l, n = some (.leaf l) → l.capabilities.credentials.Nodup := by
  have h : toyGoodTree.all (fun n => match n with
    | some (.leaf l) => decide l.capabilities.credentials.Nodup
    | _ => true) = true := by decide +kernel
  rw [List.all_eq_true] at h
  rintro n hn l rfl
  simpa using h _ hn

/-! ### C67 -/

/-- C67 is false: the leaf node of an accepted key package becomes a member without being verified. Here its
signature is empty. -/
theorem C67_refuted : ∃ (st : GroupState) (raw : Bytes) (l : LeafNode),
    (unmarshalAndProcessMessage toyPrims st raw toyNow).1 = .ok none ∧
    nodeAt st.vtree 4 = none ∧ nodeAt (unmarshalAndProcessMessage toyPrims st raw toyNow).2.vtree 4 = some (.leaf l) ∧
    ¬ Spec.LeafValid toyPrims st.group.groupContext toyNow 2 l := by
  refine ⟨toyPair, toyUnconfirmed, toyLeaf 5, by decide +kernel, by decide +kernel, by decide +kernel, fun h => ?_⟩
  exact absurd (leaf_verifySignature_iff.2 h.signature) (by decide +kernel)

/-- C67 is false for keys too: a commit can add a second member with the keys of another. -/
theorem C67_keys_refuted : ∃ (st : GroupState) (raw : Bytes) (l : LeafNode),
    (unmarshalAndProcessMessage toyPrims st raw toyNow).1 = .ok none ∧
    nodeAt st.vtree 4 = none ∧
    nodeAt (unmarshalAndProcessMessage toyPrims st raw toyNow).2.vtree 0 = some (.leaf l) ∧
    nodeAt (unmarshalAndProcessMessage toyPrims st raw toyNow).2.vtree 4 = some (.leaf l) :=
  ⟨toyPair, toyPublic toyPair 1 1 (.commit ⟨[.proposal (.add (toyKeyPackage 0))], none⟩) [99], toyLeaf 0, by decide +kernel⟩

/-- What holds of C67: the leaf node of the update path of an accepted commit is valid for the committer's place, its
credential type is among those the members of the tree after the proposals support, its encryption key is not
that of a member of this tree, its signature key is not that of another member, and the keys of the nodes of the
path are not those of members. Missing: the leaf nodes in Add and Update proposals, which are not verified
(C67_refuted). -/
theorem C67_partial {pr : Prims} {st st' : GroupState} {a : AuthenticatedContent} {c : Commit} {path : UpdatePath}
    {ids : List PreSharedKeyID} {psks : List Bytes} {now : GoTime} (hc : a.content.content = .commit c)
    (hp : c.path = some path) (h : processCommit pr st a ids psks now = (.ok (), st')) :
    ∃ ps ss heap t ms creds old, checkProposals pr st.group a.content.sender.leafIndex c = .ok (ps, ss) ∧
      treeApply st.heap st.group.tree ps ss = .ok (heap, t) ∧ members (derefTree heap t) = .ok ms ∧
      supportedCreds (derefTree heap t) = .ok creds ∧
      getLeaf (derefTree heap t) a.content.sender.leafIndex.toNat = .ok (some old) ∧
      (∃ ph, path.leafNode.source = .commit ph) ∧
      Spec.LeafValid pr st.group.groupContext now a.content.sender.leafIndex.toNat path.leafNode ∧
      path.leafNode.credential.ty ∈ creds ∧
      (∀ m ∈ ms, m.encryptionKey ≠ path.leafNode.encryptionKey) ∧
      (∀ m ∈ ms, m.signatureKey = path.leafNode.signatureKey → m.signatureKey = old.signatureKey) ∧
      ∀ n ∈ path.nodes, ∀ m ∈ ms, m.encryptionKey ≠ n.encryptionKey := by
  rcases processCommit_cases (pr := pr) st a c hc ids psks now with ⟨ps, ss, heap, t, st2, h1, h2, hf, _⟩ | ⟨hn, _⟩
  · unfold finishCommit at hf
    rw [hp] at hf
    simp only [Res.bind_ok_iff] at hf
    obtain ⟨pt, _, d, _, _, hpath, _⟩ := hf
    unfold commitPath treeKeys at hpath
    simp only [Res.bind_ok_iff, Res.guardErr_ok_iff, Res.deref_ok_iff, Res.pure_eq, Res.ok.injEq] at hpath
    obtain ⟨_, hsrc, o, hget, keys, ⟨ms, hms, rfl⟩, old, rfl, creds, hcr, _, hv, _, hk, _⟩ := hpath
    have hv' := (leafVerify_iff (ctx := st.group.groupContext) (i := a.content.sender.leafIndex.toNat)).1
      (by rw [UInt32.ofNat_toNat]; exact hv)
    obtain ⟨⟨hv1, hv2⟩, hv3, hv4⟩ := hv'
    refine ⟨ps, ss, heap, t, ms, creds, old, h1, h2, hms, hcr, hget, ?_, hv1, hv2, ?_, ?_, ?_⟩
    · unfold LeafNode.isCommit at hsrc
      cases hs : path.leafNode.source with
      | commit ph => exact ⟨ph, rfl⟩
      | keyPackage | update => rw [hs] at hsrc; cases hsrc
    · intro m hm e
      exact hv4 (List.mem_map.2 ⟨m, hm, e⟩)
    · intro m hm e
      by_contra hne
      refine hv3 (List.mem_filter.2 ⟨List.mem_map.2 ⟨m, hm, e⟩, ?_⟩)
      simpa [← e] using hne
    · intro n hn m hm e
      have := List.all_eq_true.1 hk n hn
      simp only [Bool.not_eq_true', List.contains_eq_mem, decide_eq_false_iff_not] at this
      exact this (List.mem_map.2 ⟨m, hm, e⟩)
  · rw [h] at hn
    exact absurd rfl hn

/-- A commit with a path is accepted by the toy group. -/
example : (unmarshalAndProcessMessage toyPrims toyPairPriv (toyPathCommit []) toyNow).1 = .ok none := by decide +kernel

end Mls
