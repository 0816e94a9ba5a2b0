import Verif.Spec.Library
import Verif.Props.Accept
/-
C79: groups whose members all use this library.
-/
namespace Mls

open Spec (Ratchet nodeAt)
open Spec.Ratchet (addsOf updatesOf removesOf)

variable {pr : Prims}

/-! ### Trees without parent nodes -/

/-- All parent nodes are blank. -/
def Spec.Ratchet.Unparented : {d : Nat} → Ratchet ParentNode d → Prop
  | _, leaf _ => True
  | _, node p l r => p = none ∧ l.Unparented ∧ r.Unparented

theorem unparented_iff {d : Nat} (s : Ratchet ParentNode d) : s.Unparented ↔ ∀ p, some (Node.parent p) ∉ s.flat .leaf .parent := by
  induction s with
  | leaf n => cases n <;> simp [Ratchet.Unparented, Ratchet.flat]
  | node p l r ihl ihr =>
    simp only [Ratchet.Unparented, Ratchet.flat, List.mem_append, List.mem_cons, ihl, ihr]
    constructor
    · rintro ⟨rfl, h1, h2⟩ q (h | h | h)
      · exact h1 q h
      · cases h
      · exact h2 q h
    · intro h
      refine ⟨?_, fun q hq => h q (.inl hq), fun q hq => h q (.inr (.inr hq))⟩
      cases p with
      | none => rfl
      | some q => exact absurd (.inr (.inl rfl)) (h q)

theorem unparented_blank (d : Nat) : (Ratchet.blank d : Ratchet ParentNode d).Unparented := by
  induction d with
  | zero => trivial
  | succ d ih => exact ⟨rfl, ih, ih⟩

theorem unparented_alongPath {f : Option LeafNode → Option LeafNode} {g : Option ParentNode → Option ParentNode} (hg : g none = none) {d : Nat}
    {s : Ratchet ParentNode d} {i : Nat} (h : s.Unparented) : (s.alongPath f g i).Unparented := by
  induction s generalizing i with
  | leaf n => unfold Ratchet.alongPath; trivial
  | node p l r ihl ihr =>
    obtain ⟨rfl, h1, h2⟩ := h
    unfold Ratchet.alongPath
    split
    · exact ⟨hg, ihl h1, h2⟩
    · exact ⟨hg, h1, ihr h2⟩

theorem unparented_add {d : Nat} {s : Ratchet ParentNode d} (h : s.Unparented) (n : LeafNode) : (s.add n).2.Unparented := by
  rcases add_eq_alongPath s n with ⟨_, e⟩ | ⟨i, _, e⟩
  · rw [e]
    exact unparented_alongPath rfl ⟨rfl, h, unparented_blank d⟩
  · rw [e]
    exact unparented_alongPath rfl h

theorem unparented_adds (ns : List LeafNode) {a b : Ratchet.Any ParentNode} (h : a.2.Unparented)
    (hf : ns.foldl (fun t n => some (Ratchet.addOpt t n)) (some a) = some b) : b.2.Unparented := by
  induction ns generalizing a with
  | nil => cases hf; exact h
  | cons n ns ih =>
    rw [List.foldl_cons] at hf
    exact ih (unparented_add h n) hf

theorem unparented_hashes {H : Bytes → Bytes} {t : VTree} {d : Nat} {s : Ratchet ParentNode d} {off i : Nat} (h : s.Unparented) :
    s.ParentHashValid H t off i := by
  induction s generalizing off i with
  | leaf n => unfold Ratchet.ParentHashValid; trivial
  | node p l r ihl ihr =>
    obtain ⟨rfl, h1, h2⟩ := h
    exact ⟨(fun q hq => nomatch hq), ihl h1, ihr h2⟩

/-! ### The members -/

theorem members_flat {d : Nat} (s : Ratchet ParentNode d) : Spec.members (s.flat .leaf .parent) = s.leaves.filterMap id := by
  induction s with
  | leaf n => cases n <;> rfl
  | node p l r ihl ihr =>
    unfold Spec.members at ihl ihr ⊢
    simp only [Ratchet.flat, Ratchet.leaves, List.filterMap_append, ihl]
    congr 1
    cases p with
    | none => rw [← ihr]; rfl
    | some q => rw [← ihr]; rfl

theorem filterMap_set_none {l : List (Option LeafNode)} {i : Nat} {n : LeafNode} (h : l[i]? = some none) :
    ((l.set i (some n)).filterMap id).Perm (n :: l.filterMap id) := by
  induction l generalizing i with
  | nil => simp at h
  | cons a l ih =>
    cases i with
    | zero =>
      simp only [List.getElem?_cons_zero, Option.some.injEq] at h
      subst h
      exact List.Perm.refl _
    | succ i =>
      rw [List.getElem?_cons_succ] at h
      rw [List.set_cons_succ]
      cases a with
      | none => exact ih h
      | some b => exact ((ih h).cons b).trans (List.Perm.swap ..)

theorem members_add {d : Nat} (s : Ratchet ParentNode d) (n : LeafNode) : ((s.add n).2.leaves.filterMap id).Perm (n :: s.leaves.filterMap id) := by
  rw [leaves_add]
  cases hf : s.leaves.findIdx? (·.isNone) with
  | none =>
    simp only [List.filterMap_append]
    have : (some n :: List.replicate (2 ^ d - 1) none).filterMap id = [n] := by
      show n :: (List.replicate (2 ^ d - 1) none).filterMap id = [n]
      congr 1
      rw [List.filterMap_eq_nil_iff]
      intro a ha
      exact (List.mem_replicate.1 ha).2
    rw [this]
    exact List.perm_append_comm
  | some i =>
    rw [List.findIdx?_eq_some_iff_getElem] at hf
    obtain ⟨hi, h1, _⟩ := hf
    refine filterMap_set_none ?_
    rw [List.getElem?_eq_getElem hi]
    congr 1
    simpa using h1

theorem members_adds (ns : List LeafNode) {a b : Ratchet.Any ParentNode} (h : ns.foldl (fun t n => some (Ratchet.addOpt t n)) (some a) = some b) :
    (b.2.leaves.filterMap id).Perm (a.2.leaves.filterMap id ++ ns) := by
  induction ns generalizing a with
  | nil => cases h; simp
  | cons n ns ih =>
    rw [List.foldl_cons] at h
    refine (ih h).trans ?_
    refine ((members_add a.2 n).append_right ns).trans ?_
    exact List.perm_middle.symm

/-! ### What an invitation leads to -/

theorem noParents_iff {h : Heap} {t : RTree} : NoParents t ↔ ∀ p, some (Node.parent p) ∉ derefTree h t := by
  unfold NoParents derefTree
  constructor
  · intro hn p hp
    obtain ⟨o, ho, he⟩ := List.mem_map.1 hp
    cases o with
    | none => cases he
    | some n =>
      cases n with
      | leaf l => cases he
      | parent q => exact hn q ho
  · intro hn p hp
    exact hn _ (List.mem_map.2 ⟨_, hp, rfl⟩)

/-- Whoever joins, with a tree that is no larger than needed, sees the tree that the invitation leads to. -/
theorem InviteRun.entered (hc : pr.Correct) {st j : GroupState} (hi : GroupInv pr st) {kps : List KeyPackage} {r : WelcomeRand} {w : Welcome}
    {raw : Bytes} {hp : Heap} {t : RTree} {sd : SuiteDesc} {th psk sig cth js es tag rawTree isig : Bytes} {ctx : GroupContext}
    (run : InviteRun pr st kps r w raw hp t sd th psk sig cth js es tag rawTree isig ctx) (hsn : Spec.SnugTree st.vtree) {kp : KeyPairPackage}
    {now : GoTime} (ho : Spec.KeyOpens pr sd kp.pub.initKey kp.priv.initKey) (hcol : ¬ RefCollision pr kps kp.pub)
    (h : groupFromWelcome pr w kp now = .ok j) :
    AfterInvite pr j (derefTree hp t) ctx es tag ∧ Spec.SnugTree (derefTree hp t) ∧ verifyIntegrity pr (derefTree hp t) ctx now = .ok () ∧
      ∃ li, findLeaf (derefTree hp t) kp.pub.leafNode = .ok (some li) ∧ j.group.myLeafIndex = UInt32.ofNat li ∧
        j.group.signaturePriv = kp.priv.signatureKey := by
  obtain ⟨d0, s0, d, s, hd0, hd, hs0, hs, hadd⟩ := run.ratchet hi
  have hsnug : Spec.SnugTree (derefTree hp t) :=
    ⟨d, s, hs, snug_adds _ (t := some ⟨d0, s0⟩) (fun a ha => by cases ha; exact hsn.of hs0) _ hadd⟩
  have hdec := C77_sent hsnug run.tree
  unfold groupFromWelcome at h
  simp only [Res.bind_ok_iff] at h
  obtain ⟨ref, h1, gs, h2, _, _, _, _, h⟩ := h
  have h2' := h2
  unfold Welcome.decryptGroupSecrets at h2'
  simp only [Res.bind_ok_iff, orErr_ok_iff] at h2'
  obtain ⟨sec, hs', _⟩ := h2'
  have e := (run.secrets_open ho h1 hs').resolve_right hcol
  rw [h2] at e
  cases e
  obtain ⟨psk2, info, rw2, v, leaf, li, pt, g1, g2, g3, g4, g5, g6, g7, g8, g9, g10, g11, g12, g13, g14, g15, g16, g17, g18, g20, _, g21, g19⟩ :=
    groupFromSecrets_ok h
  rw [run.cipherSuite, run.noPsk] at g1
  cases g1
  rw [run.info_open hc g2] at g2
  cases g2
  have g3' : some rawTree = some rw2 := g3
  cases g3'
  rw [hdec] at g4
  cases g4
  have hv : j.vtree = derefTree hp t := by
    unfold GroupState.vtree
    rw [g12, g13]
    exact (deref_alloc _ []).2
  have g16 : ctx.extractEpochSecret pr js (some psk) = .ok j.group.epochSecret := g16
  rw [run.epoch] at g16
  cases g16
  exact ⟨⟨hv, g14, rfl, g17, g18, g19⟩, hsnug, g9, li, g10, g20, g21⟩

/-! ### Groups of the library -/

/-- What holds of every member's state. -/
structure LibInv (pr : Prims) (cs : UInt16) (st : GroupState) : Prop where
  reach : Reachable pr st
  suite : st.group.groupContext.cipherSuite = cs
  version : st.group.groupContext.version = 1
  extensions : st.group.groupContext.extensions = []
  own : Spec.OwnLeaf pr st
  snug : Spec.SnugTree st.vtree
  flat : NoParents st.group.tree
  generated : ∀ l ∈ Spec.members st.vtree, ∃ kp, Spec.Generated pr cs kp ∧ kp.pub.leafNode = l

structure GeneratedFacts (pr : Prims) (cs : UInt16) (sd : SuiteDesc) (kp : KeyPairPackage) : Prop where
  suite : Mls.suite cs = .ok sd
  version : kp.pub.version = 1
  cipherSuite : kp.pub.cipherSuite = cs
  keys : ∃ rs, kp.pub.leafNode.signatureKey = (pr.sigKeyPair sd.sig rs).1 ∧ kp.priv.signatureKey = (pr.sigKeyPair sd.sig rs).2
  opens : Spec.KeyOpens pr sd kp.pub.initKey kp.priv.initKey
  credential : kp.pub.leafNode.credential.ty = 1
  capabilities : kp.pub.leafNode.capabilities.credentials = [1]
  extensions : kp.pub.leafNode.extensions = []
  source : ∃ lt, kp.pub.leafNode.source = .keyPackage lt
  signature : ∀ g li, kp.pub.leafNode.verifySignature pr cs g li = .ok true

theorem Spec.Generated.facts (hc : pr.Correct) {cs : UInt16} {kp : KeyPairPackage} (h : Spec.Generated pr cs kp) :
    ∃ sd, GeneratedFacts pr cs sd kp := by
  obtain ⟨name, r, h⟩ := h
  have hl := C58_leaf pr hc cs _ r kp h
  obtain ⟨sd, leaf, k, hd, h1, h2, hkp⟩ := generate_split h
  have ho := generated_init_opens hc h hd
  obtain ⟨_, _, _, _, rfl⟩ := leafSign_split h1
  obtain ⟨_, _, _, _, rfl⟩ := pkgSign_split h2
  subst hkp
  exact ⟨sd, hd, rfl, rfl, ⟨r.sig, rfl, rfl⟩, ho, rfl, rfl, rfl, ⟨_, rfl⟩, fun g li => (hl g li).1⟩

/-- The tree after an invitation of generated key packages by a member. -/
theorem LibInv.grown (hc : pr.Correct) {cs : UInt16} {st : GroupState} (hl : LibInv pr cs st) {ks : List KeyPairPackage}
    (hg : ∀ k ∈ ks, Spec.Generated pr cs k) {r : WelcomeRand} {w : Welcome} {raw : Bytes} {hp : Heap} {t : RTree}
    {sd : SuiteDesc} {th psk sig cth js es tag rawTree isig : Bytes} {ctx : GroupContext}
    (run : InviteRun pr st (ks.map fun k => k.pub) r w raw hp t sd th psk sig cth js es tag rawTree isig ctx) :
    ∃ d s, d ≤ 31 ∧ derefTree hp t = Ratchet.flat (d := d) .leaf .parent s ∧ s.snug = true ∧ s.Unparented ∧
      (Spec.members (derefTree hp t)).Perm (Spec.members st.vtree ++ ks.map fun k => k.pub.leafNode) ∧
      (∀ i l, st.vtree[2 * i]? = some (some (.leaf l)) → (derefTree hp t)[2 * i]? = some (some (.leaf l))) ∧
      (∀ k ∈ ks, ∃ i, i < 2 ^ d ∧ s.leafAt i = some k.pub.leafNode) ∧
      (∀ l ∈ Spec.members (derefTree hp t), ∃ kp, Spec.Generated pr cs kp ∧ kp.pub.leafNode = l) := by
  obtain ⟨d0, s0, d, s, hd0, hd, hs0, hs, hadd⟩ := run.ratchet (hl.reach.inv hc)
  have hperm : (Spec.members (derefTree hp t)).Perm (Spec.members st.vtree ++ ks.map fun k => k.pub.leafNode) := by
    rw [hs, hs0, members_flat, members_flat]
    have := members_adds _ hadd
    simpa [Function.comp_def] using this
  refine ⟨d, s, hd, hs, ?_, ?_, hperm, ?_, ?_, ?_⟩
  · exact snug_adds _ (t := some ⟨d0, s0⟩) (fun a ha => by cases ha; exact hl.snug.of hs0) _ hadd
  · refine unparented_adds _ (a := ⟨d0, s0⟩) ?_ hadd
    rw [unparented_iff, ← hs0]
    exact noParents_iff.1 hl.flat
  · intro i l hil
    have hlt := (List.getElem?_eq_some_iff.1 hil).1
    rw [hs0, flat_length, Nat.pow_succ] at hlt
    have hin : i < 2 ^ d0 := by omega
    have h0 := at_leafAt (show VAt st.vtree 0 s0 by rw [hs0]; exact at_flat _ _ s0) hin
    rw [Nat.zero_mul, Nat.zero_add, nodeAt_some.2 hil] at h0
    have h0 : s0.leafAt i = some l := by
      cases hx : s0.leafAt i with
      | none => rw [hx] at h0; cases h0
      | some n => rw [hx] at h0; cases h0; rfl
    obtain ⟨h1, h2⟩ := adds_keep _ (a := ⟨d0, s0⟩) hin h0 hadd
    have h3 := at_leafAt (show VAt (derefTree hp t) 0 s by rw [hs]; exact at_flat _ _ s) h1
    rw [Nat.zero_mul, Nat.zero_add, h2] at h3
    exact nodeAt_some.1 h3
  · intro k hk
    exact adds_member _ hadd (List.mem_map.2 ⟨_, List.mem_map.2 ⟨k, hk, rfl⟩, rfl⟩)
  · intro l hm
    rcases List.mem_append.1 (hperm.subset hm) with h | h
    · exact hl.generated l h
    · obtain ⟨k, hk, rfl⟩ := List.mem_map.1 h
      exact ⟨k, hg k hk, rfl⟩

theorem LibInv.version_of {cs : UInt16} (hc : pr.Correct) {ks : List KeyPairPackage} (hg : ∀ k ∈ ks, Spec.Generated pr cs k) :
    ∀ k ∈ ks.map fun k => k.pub, k.version = 1 := by
  intro k hk
  obtain ⟨k', hk', rfl⟩ := List.mem_map.1 hk
  obtain ⟨sd, hf⟩ := (hg k' hk').facts hc
  exact hf.version

theorem Spec.Library.inv (hc : pr.Correct) {cs : UInt16} {st : GroupState} (h : Spec.Library pr cs st) : LibInv pr cs st := by
  induction h with
  | @create id kp rand st hg h =>
    obtain ⟨sd, hf⟩ := hg.facts hc
    obtain ⟨rs, hk1, hk2⟩ := hf.keys
    have hnp := createGroup_noParents h
    have hsn := C77_create h
    have hre : Reachable pr st := .create h
    unfold createGroup at h
    simp only [Res.bind_ok_iff] at h
    obtain ⟨⟨hp, t⟩, h1, pt, h2, _, _, d, h3, _, _, _, _, _, _, _, _, h⟩ := h
    have e : treeAdd [] [none] kp.pub.leafNode = .ok ([], [some (.leaf kp.pub.leafNode)]) := rfl
    rw [e] at h1
    cases h1
    cases h
    refine ⟨hre, hf.cipherSuite, hf.version, rfl, ⟨sd, rs, kp.pub.leafNode, ?_, rfl, hk1, hk2⟩, hsn, hnp, ?_⟩
    · show Mls.suite kp.pub.cipherSuite = _
      rw [hf.cipherSuite]
      exact hf.suite
    · intro l hl
      have hl : l ∈ [kp.pub.leafNode] := hl
      exact ⟨kp, hg, (List.mem_singleton.1 hl).symm⟩
  | @invite st st1 kps r o hl h ih =>
    have := (C51_partial pr st kps r).2.2 ih.flat
    rw [h] at this
    have : st1 = st := this
    rw [this]
    exact ih
  | @join st st1 j ks r w raw kp now hl hg h hk hcol hj ih =>
    obtain ⟨hp, t, sd, th, psk, sig, cth, js, es, tag, rawTree, isig, ctx, run, -⟩ := createWelcome_run h
    obtain ⟨d, s, hd, hs, hsn, hun, hperm, hkeep, hent, hgen⟩ := ih.grown hc hg run
    obtain ⟨sd', hf⟩ := (hg kp hk).facts hc
    have hsu := run.suite
    rw [ih.suite, hf.suite] at hsu
    cases hsu
    have hcol' : ¬ RefCollision pr (ks.map fun k => k.pub) kp.pub := by
      rintro ⟨k', hk', hne, ref, h1, h2⟩
      obtain ⟨k, hk2, rfl⟩ := List.mem_map.1 hk'
      exact hcol k hk2 hne (h1.trans h2.symm)
    obtain ⟨ha, hsnug, hvi, li, hfl, hix, hsp⟩ := run.entered hc (ih.reach.inv hc) ih.snug hf.opens hcol' hj
    have hctx := run.context
    have hlen : (derefTree hp t).length = 2 ^ (d + 1) - 1 := by rw [hs, flat_length]
    obtain ⟨sd2, q1, s2, hv⟩ := (C29_integrity hc hd hlen ctx now).1 hvi
    obtain rfl := flat_inj _ _ (hv.array.symm.trans hs)
    obtain ⟨i, hi, hlf⟩ := hent kp hk
    have hat : VAt (derefTree hp t) 0 s2 := by rw [hs]; exact at_flat _ _ s2
    have h3 := at_leafAt hat hi
    rw [Nat.zero_mul, Nat.zero_add, hlf] at h3
    have hli : li = i := by
      unfold findLeaf at hfl
      obtain ⟨l, hl1, hl2⟩ := findLeafLoop_key _ _ _ hfl
      have hb := findLeafLoop_lt _ _ _ hfl
      rw [numLeaves_pow hd hlen] at hb
      obtain ⟨o, g1, _, g3⟩ := getLeaf_at hd hs (i := li) (by omega)
      rw [leafAt_leaves s2 (by omega), Option.some.injEq] at g3
      rw [hl1] at g1
      cases g1
      have h4 := at_leafAt hat (i := li) (by omega)
      rw [Nat.zero_mul, Nat.zero_add, g3] at h4
      by_contra hne
      exact hv.encryptionKeys _ _ _ _ (by omega) h4 h3 hl2
    subst hli
    obtain ⟨rs, hk1, hk2⟩ := hf.keys
    have hpow : 2 ^ d ≤ 2 ^ 31 := Nat.pow_le_pow_right (by decide) hd
    refine ⟨.join hj, by rw [ha.context, hctx]; exact ih.suite, by rw [ha.context, hctx]; exact ih.version,
      by rw [ha.context, hctx]; exact ih.extensions,
      ⟨sd, rs, kp.pub.leafNode, by rw [ha.context, hctx]; exact run.suite, ?_, hk1, by rw [hsp]; exact hk2⟩, by rw [ha.tree]; exact hsnug,
      ?_, by rw [ha.tree]; exact hgen⟩
    · rw [hix, ha.tree, UInt32.toNat_ofNat_of_lt' (by show li < 2 ^ 32; omega)]
      exact nodeAt_some.1 h3
    · rw [noParents_iff (h := j.heap)]
      show ∀ p, some (Node.parent p) ∉ j.vtree
      rw [ha.tree, hs, ← unparented_iff]
      exact hun
  | @follow st st1 st2 st2' ks r w raw now d hl hl2 hv hg h ha ih ih2 =>
    obtain ⟨hp, t, sd, th, psk, sig, cth, js, es, tag, rawTree, isig, ctx, run, -⟩ := createWelcome_run h
    obtain ⟨d, s, hd, hs, hsn, hun, hperm, hkeep, hent, hgen⟩ := ih.grown hc hg run
    have hm := run.member hc (ih.reach.inv hc) (ih2.reach.inv hc) hv (LibInv.version_of hc hg) ha
    have hid := (message_effect (pr := pr) st2 raw now).1
    rw [ha] at hid
    obtain ⟨sd', rs, leaf, h1, h2, h3, h4⟩ := ih2.own
    have hctx := run.context
    refine ⟨.message ih2.reach ha (Res.fine_ok _), by rw [hid.cipherSuite]; exact ih2.suite, by rw [hid.version]; exact ih2.version,
      by rw [hid.extensions]; exact ih2.extensions,
      ⟨sd', rs, leaf, by rw [hid.cipherSuite]; exact h1, ?_, h3, by rw [hid.signaturePriv]; exact h4⟩,
      C77_message hc ih2.reach ih2.snug ha, ?_, by rw [hm.tree]; exact hgen⟩
    · rw [hid.myLeafIndex, hm.tree]
      exact hkeep _ _ (by rw [hv.tree]; exact h2)
    · rw [noParents_iff (h := st2'.heap)]
      show ∀ p, some (Node.parent p) ∉ st2'.vtree
      rw [hm.tree, hs, ← unparented_iff]
      exact hun
  | @read st st' raw data now hl h ih =>
    obtain ⟨a, e, _, ⟨_, _, he, _⟩ | ⟨_, _, he, _⟩ | ⟨_, _, _, he, _⟩⟩ := accepted_cases h
    · cases he
    · cases he
    · rw [he]; exact ih
  | @refuse st st' raw now hl h ih =>
    rw [(C43_partial pr st st' raw now h).2.2.2 ih.flat]
    exact ih

/-! ### C79 -/

/-- The members all have keys of their own. -/
structure Spec.OwnKeys (ls : List LeafNode) : Prop where
  encryption : (ls.map fun l => l.encryptionKey).Nodup
  signature : (ls.map fun l => l.signatureKey).Nodup

/-- The key package the leaf comes from is in its lifetime, or nobody looks at the time. -/
def Spec.InDate (now : GoTime) (l : LeafNode) : Prop := ∀ lt, l.source = .keyPackage lt → now.isZero = true ∨ lt.verify now = true

theorem Spec.OwnKeys.perm {a b : List LeafNode} (h : Spec.OwnKeys a) (hp : b.Perm a) : Spec.OwnKeys b :=
  ⟨(hp.map _).nodup_iff.2 h.1, (hp.map _).nodup_iff.2 h.2⟩

theorem distinct_leaves {f : LeafNode → Bytes} {ls : List (Option LeafNode)} (h : ((ls.filterMap id).map f).Nodup) {i j : Nat} {l m : LeafNode}
    (hi : ls[i]? = some (some l)) (hj : ls[j]? = some (some m)) (hne : i ≠ j) : f l ≠ f m := by
  unfold List.Nodup at h
  rw [List.pairwise_map, List.pairwise_filterMap, List.pairwise_iff_getElem] at h
  obtain ⟨hi1, hi2⟩ := List.getElem?_eq_some_iff.1 hi
  obtain ⟨hj1, hj2⟩ := List.getElem?_eq_some_iff.1 hj
  rcases Nat.lt_or_gt_of_ne hne with hlt | hlt
  · exact h i j hi1 hj1 hlt l hi2 m hj2
  · exact fun e => h j i hj1 hi1 hlt m hj2 l hi2 e.symm

theorem count_credentials {ls : List LeafNode} (h : ∀ l ∈ ls, l.capabilities.credentials = [1]) :
    (ls.flatMap fun m => m.capabilities.credentials).count 1 = ls.length := by
  induction ls with
  | nil => rfl
  | cons l ls ih =>
    rw [List.flatMap_cons, List.count_append, ih fun m hm => h m (List.mem_cons_of_mem _ hm), h l List.mem_cons_self, List.length_cons]
    simp; omega

/-- When a tree of generated leaves is valid. -/
theorem library_valid (hc : pr.Correct) {cs : UInt16} {t : VTree} {d : Nat} {s : Ratchet ParentNode d} (hd : d ≤ 31)
    (hs : t = s.flat .leaf .parent) (hun : s.Unparented) (hgen : ∀ l ∈ Spec.members t, ∃ kp, Spec.Generated pr cs kp ∧ kp.pub.leafNode = l)
    (hown : Spec.OwnKeys (Spec.members t)) {H : Bytes → Bytes} {ctx : GroupContext} (hcs : ctx.cipherSuite = cs)
    (hth : s.treeHash H 0 = some ctx.treeHash) (now : GoTime) :
    Spec.TreeValid pr H ctx now t s ↔ ∀ l ∈ Spec.members t, Spec.InDate now l := by
  have hat : VAt t 0 s := by rw [hs]; exact at_flat _ _ s
  have hmem : Spec.members t = s.leaves.filterMap id := by rw [hs, members_flat]
  have hleaf : ∀ i l, i < 2 ^ d → nodeAt t (2 * i) = some (.leaf l) → s.leaves[i]? = some (some l) := by
    intro i l hi hn
    have h := at_leafAt hat hi
    rw [Nat.zero_mul, Nat.zero_add, hn] at h
    rw [leafAt_leaves s hi]
    cases hx : s.leafAt i with
    | none => rw [hx] at h; cases h
    | some n => rw [hx] at h; cases h; rfl
  have hin : ∀ (i : Nat) (l : LeafNode), s.leaves[i]? = some (some l) → l ∈ Spec.members t := by
    intro i l h
    rw [hmem]
    exact List.mem_filterMap.2 ⟨_, List.mem_of_getElem? h, rfl⟩
  have hnop : ∀ x p, nodeAt t x ≠ some (.parent p) := by
    intro x p h
    have := (unparented_iff s).1 hun p
    rw [← hs] at this
    exact this (List.mem_of_getElem? (nodeAt_some.1 h))
  have hnode : ∀ x n, nodeAt t x = some n → ∃ i l, i < 2 ^ d ∧ x = 2 * i ∧ n = .leaf l := by
    intro x n h
    rcases flat_kind s (hs ▸ h) with ⟨i, l, h1, h2, h3⟩ | ⟨_, p, rfl⟩
    · exact ⟨i, l, h1, h2, h3⟩
    · exact absurd h (hnop x p)
  constructor
  · intro h l hl
    rw [hmem] at hl
    obtain ⟨o, ho, he⟩ := List.mem_filterMap.1 hl
    have he : o = some l := he
    subst he
    obtain ⟨i, hi⟩ := List.mem_iff_getElem?.1 ho
    have hlt := (List.getElem?_eq_some_iff.1 hi).1
    rw [leaves_length] at hlt
    have h3 := at_leafAt hat hlt
    rw [leafAt_leaves s hlt, Option.some.injEq] at hi
    rw [Nat.zero_mul, Nat.zero_add, hi] at h3
    exact (h.leaves i l hlt h3).lifetime
  · intro h
    refine ⟨hs, hth, unparented_hashes hun, ?_, ?_, ?_, ?_, fun x p hp => absurd hp (hnop x p)⟩
    · intro i l hi hl
      have hm := hin i l (hleaf i l hi hl)
      obtain ⟨kp, hg, rfl⟩ := hgen l hm
      obtain ⟨sd, hf⟩ := hg.facts hc
      refine ⟨leaf_verifySignature_iff.1 (by rw [hcs]; exact hf.signature _ _), h _ hm, ?_⟩
      rw [hf.extensions]
      intro e he
      cases he
    · intro l hl
      rw [← hmem]
      have hm : l ∈ Spec.members t := by rw [hmem]; exact List.mem_filterMap.2 ⟨_, hl, rfl⟩
      obtain ⟨kp, hg, rfl⟩ := hgen l hm
      obtain ⟨sd, hf⟩ := hg.facts hc
      rw [hf.credential]
      refine count_credentials fun l hl => ?_
      obtain ⟨kp, hg, rfl⟩ := hgen l hl
      obtain ⟨sd, hf⟩ := hg.facts hc
      exact hf.capabilities
    · intro i j l m hi hj hne hl hm
      have hk := hown.signature
      rw [hmem] at hk
      exact distinct_leaves hk (hleaf i l hi hl) (hleaf j m hj hm) hne
    · intro x y n m hne hn hm
      obtain ⟨i, l, hi, rfl, rfl⟩ := hnode x n hn
      obtain ⟨j, k, hj, rfl, rfl⟩ := hnode y m hm
      have hk := hown.encryption
      rw [hmem] at hk
      exact distinct_leaves hk (hleaf i l hi hn) (hleaf j k hj hm) (by omega)

/-- No two of the key packages have the same reference. -/
def Spec.OwnRefs (pr : Prims) (ks : List KeyPairPackage) : Prop :=
  ∀ k ∈ ks, ∀ k' ∈ ks, k.pub ≠ k'.pub → k.pub.generateRef pr ≠ k'.pub.generateRef pr

theorem Spec.OwnRefs.noCollision {ks : List KeyPairPackage} (h : Spec.OwnRefs pr ks) {kp : KeyPairPackage} (hk : kp ∈ ks) :
    ¬ RefCollision pr (ks.map fun k => k.pub) kp.pub := by
  rintro ⟨k', hk', hne, ref, h1, h2⟩
  obtain ⟨k, hk2, rfl⟩ := List.mem_map.1 hk'
  exact h k hk2 kp hk hne (h1.trans h2.symm)

/-- **C79.** Groups whose members all use this library work, as long as nobody's key package expires: when a member invites holders of generated key
packages and all keys are different, every member in the same epoch, the inviter included, follows at any time; and everyone invited can join
exactly as long as the key packages of all members and all invited are in date. -/
theorem C79_invite (hc : pr.Correct) {cs : UInt16} {st st1 : GroupState} (hl : Spec.Library pr cs st) {ks : List KeyPairPackage}
    (hg : ∀ k ∈ ks, Spec.Generated pr cs k) {r : WelcomeRand} {w : Welcome} {raw : Bytes}
    (h : createWelcome pr st (ks.map fun k => k.pub) r = (.ok (w, raw), st1))
    (hown : Spec.OwnKeys (Spec.members st.vtree ++ ks.map fun k => k.pub.leafNode))
    (hinit : ∀ k ∈ ks, k.pub.leafNode.encryptionKey ≠ k.pub.initKey) (href : Spec.OwnRefs pr ks) :
    (∀ st2, Spec.Library pr cs st2 → SameView st st2 → ∀ now, ∃ st2', unmarshalAndProcessMessage pr st2 raw now = (.ok none, st2')) ∧
    (∀ kp ∈ ks, ∀ now, (∃ j, groupFromWelcome pr w kp now = .ok j) ↔
      ∀ l ∈ Spec.members st.vtree ++ ks.map (fun k => k.pub.leafNode), Spec.InDate now l) := by
  have hv := hl.inv hc
  have hne := createWelcome_nonempty h
  obtain ⟨hp, t, sd, th, psk, sig, cth, js, es, tag, rawTree, isig, ctx, run, -⟩ := createWelcome_run h
  obtain ⟨d, s, hd, hs, hsn, hun, hperm, hkeep, hent, hgen⟩ := hv.grown hc hg run
  constructor
  · intro st2 hl2 hsame now
    refine run.follows hc (hv.reach.inv hc) ((hl2.inv hc).reach.inv hc) hsame hne (LibInv.version_of hc hg) hv.own now ?_ ?_
    · intro k hk
      obtain ⟨k', hk', rfl⟩ := List.mem_map.1 hk
      obtain ⟨name, rnd, hgk⟩ := hg k' hk'
      exact packageValid_iff.2 (C58_valid pr hc cs _ rnd k' hgk _ hv.version hv.suite (hinit k' hk'))
    · have := hown.signature
      rw [List.map_append, List.nodup_append] at this
      simpa [Function.comp_def] using this.2.1
  · intro kp hk now
    obtain ⟨sd', hf⟩ := (hg kp hk).facts hc
    have hsu := run.suite
    rw [hv.suite, hf.suite] at hsu
    cases hsu
    have hcs : ctx.cipherSuite = cs := by rw [run.context]; exact hv.suite
    have hth : s.treeHash (pr.hash sd.hash) 0 = some ctx.treeHash := by
      have hh := run.hash
      rw [hs] at hh
      rw [run.context]
      exact (C28_tree_hash hc run.suite hd s th).1 hh
    rw [run.joins hc (hv.reach.inv hc) hv.version hv.own hv.snug (List.mem_map.2 ⟨kp, hk, rfl⟩) hf.opens (href.noCollision hk) now hd hs,
      library_valid hc hd hs hun hgen (hown.perm hperm) hcs hth now]
    exact ⟨fun h l hl => h l (hperm.symm.subset hl), fun h l hl => h l (hperm.subset hl)⟩

/-- Whoever is in the group after an invitation: a member that followed, or somebody invited that joined. -/
inductive Spec.Arrives (pr : Prims) (cs : UInt16) (st : GroupState) (ks : List KeyPairPackage) (w : Welcome) (raw : Bytes) : GroupState → Prop where
  | follow {st2 a : GroupState} {now : GoTime} {d : Option Bytes} (hl : Spec.Library pr cs st2) (hv : SameView st st2)
      (h : unmarshalAndProcessMessage pr st2 raw now = (.ok d, a)) : Spec.Arrives pr cs st ks w raw a
  | join {kp : KeyPairPackage} {a : GroupState} {now : GoTime} (hk : kp ∈ ks) (h : groupFromWelcome pr w kp now = .ok a) :
      Spec.Arrives pr cs st ks w raw a

/-- **C79.** And those who are in the group afterwards are so together: same tree, epoch and secrets, with the members of before and the invited; so that
all of this holds again for the next invitation. -/
theorem C79_together (hc : pr.Correct) {cs : UInt16} {st st1 : GroupState} (hl : Spec.Library pr cs st) {ks : List KeyPairPackage}
    (hg : ∀ k ∈ ks, Spec.Generated pr cs k) {r : WelcomeRand} {w : Welcome} {raw : Bytes}
    (h : createWelcome pr st (ks.map fun k => k.pub) r = (.ok (w, raw), st1)) (href : Spec.OwnRefs pr ks) {a b : GroupState}
    (ha : Spec.Arrives pr cs st ks w raw a) (hb : Spec.Arrives pr cs st ks w raw b) :
    Spec.Library pr cs a ∧ SameView a b ∧ a.group.groupContext.epoch = st.group.groupContext.epoch + 1 ∧
      (Spec.members a.vtree).Perm (Spec.members st.vtree ++ ks.map fun k => k.pub.leafNode) := by
  have hv := hl.inv hc
  obtain ⟨hp, t, sd, th, psk, sig, cth, js, es, tag, rawTree, isig, ctx, run, -⟩ := createWelcome_run h
  obtain ⟨d, s, hd, hs, hsn, hun, hperm, -, -, -⟩ := hv.grown hc hg run
  have key : ∀ {a}, Spec.Arrives pr cs st ks w raw a → AfterInvite pr a (derefTree hp t) ctx es tag ∧ Spec.Library pr cs a := by
    intro a ha
    cases ha with
    | follow hl2 hsame h2 =>
      exact ⟨run.member hc (hv.reach.inv hc) ((hl2.inv hc).reach.inv hc) hsame (LibInv.version_of hc hg) h2, .follow hl hl2 hsame hg h h2⟩
    | @join kp a now hk h2 =>
      obtain ⟨sd', hf⟩ := (hg kp hk).facts hc
      have hsu := run.suite
      rw [hv.suite, hf.suite] at hsu
      cases hsu
      exact ⟨(run.entered hc (hv.reach.inv hc) hv.snug hf.opens (href.noCollision hk) h2).1,
        .join hl hg h hk (fun k hk' => href k hk' kp hk) h2⟩
  obtain ⟨ha1, ha2⟩ := key ha
  obtain ⟨hb1, -⟩ := key hb
  refine ⟨ha2, ha1.same hb1, ?_, by rw [ha1.tree]; exact hperm⟩
  rw [ha1.context, run.context]

/-- **C79.** What one member says in an epoch, every member in that epoch reads, at any time, and stays where they are. -/
theorem C79_speak (hc : pr.Correct) {cs : UInt16} {st st2 : GroupState} (hl : Spec.Library pr cs st) (hv : SameView st st2)
    {data sigRand raw : Bytes} {guard : Bytes4} (h : createApplicationMessage pr st data sigRand guard = .ok raw) (now : GoTime) :
    unmarshalAndProcessMessage pr st2 raw now = (.ok (some data), st2) := by
  have hi := hl.inv hc
  obtain ⟨d, hd, hlen⟩ := (hi.reach.inv hc).tree.complete
  exact C46_delivery pr hc st st2 d hd hlen hi.own ⟨hv.context.symm, hv.epochSecret.symm, hv.tree.symm⟩ data sigRand guard raw now h

/-- **C79.** Invitations, and messages that are refused, leave the inviter's and the receiver's state as it was. -/
theorem C79_unchanged (hc : pr.Correct) {cs : UInt16} {st : GroupState} (hl : Spec.Library pr cs st) :
    (∀ kps r, (createWelcome pr st kps r).2 = st) ∧
    (∀ raw now, (unmarshalAndProcessMessage pr st raw now).1 = .err → (unmarshalAndProcessMessage pr st raw now).2 = st) :=
  ⟨fun kps r => (C51_partial pr st kps r).2.2 (hl.inv hc).flat,
    fun raw now h => (C43_partial pr st _ raw now (Prod.ext h rfl)).2.2.2 (hl.inv hc).flat⟩

/-- C50, with no collision of tree hashes needed: whoever joins from an invitation of a member whose tree is no larger than needed reads exactly the tree
it leads to, and so agrees with every other party. -/
theorem C50_snug (hc : pr.Correct) {st st1 : GroupState} (hr : Reachable pr st) (hsn : Spec.SnugTree st.vtree) {kps : List KeyPackage}
    (hw : ∀ k ∈ kps, k.version = 1) {r : WelcomeRand} {w : Welcome} {raw : Bytes} (h : createWelcome pr st kps r = (.ok (w, raw), st1))
    {k k' : Option KeyPackage} {a b : GroupState} (ha : Party pr st kps w raw st1 k a) (hb : Party pr st kps w raw st1 k' b)
    (hk : ∀ x, k = some x → ¬ RefCollision pr kps x) (hk' : ∀ x, k' = some x → ¬ RefCollision pr kps x) : SameView a b := by
  obtain ⟨hp, t, sd, th, psk, sig, cth, js, es, tag, rawTree, isig, ctx, run, -⟩ := createWelcome_run h
  have key : ∀ {k a}, Party pr st kps w raw st1 k a → (∀ x, k = some x → ¬ RefCollision pr kps x) →
      AfterInvite pr a (derefTree hp t) ctx es tag := by
    intro k a ha hk
    cases ha with
    | member hr2 hv hm => exact run.member hc (hr.inv hc) (hr2.inv hc) hv hw hm
    | inviter hn hm =>
      have := (C51_partial pr st kps r).2.2 hn
      rw [h] at this
      have : st1 = st := this
      subst this
      exact run.member hc (hr.inv hc) (hr.inv hc) ⟨rfl, rfl, rfl⟩ hw hm
    | invitee hs ho hj =>
      rw [run.suite] at hs
      cases hs
      exact (run.entered hc (hr.inv hc) hsn ho (hk _ rfl) hj).1
  exact (key ha hk).same (key hb hk')

/-! ### A concrete case -/

theorem toyTwo_library {a b : GroupState} (h : toyTwo = .ok (a, b)) : Spec.Library toyPrims 1 a ∧ Spec.Library toyPrims 1 b := by
  have hv0 : (toyMember 0).pub.version = 1 := by decide +kernel
  have hv1 : (toyMember 1).pub.version = 1 := by decide +kernel
  obtain ⟨r0, h0⟩ := toyMember_generated 0 hv0
  obtain ⟨r1, h1⟩ := toyMember_generated 1 hv1
  unfold toyTwo toyCreated GroupState.invite at h
  simp only [Res.bind_ok_iff, List.map_cons, List.map_nil] at h
  generalize toyMember 0 = m0, toyMember 1 = m1 at *
  have g0 : Spec.Generated toyPrims 1 m0 := ⟨_, _, h0⟩
  have g1 : ∀ k ∈ [m1], Spec.Generated toyPrims 1 k := by
    intro k hk
    rw [List.mem_singleton] at hk
    rw [hk]
    exact ⟨_, _, h1⟩
  obtain ⟨a0, hc, ⟨a1, w⟩, hi, b1, hj, he⟩ := h
  cases he
  have l0 : Spec.Library toyPrims 1 a0 := .create g0 hc
  split at hi <;> try cases hi
  next w' raw st1 hw =>
    simp only [Res.bind_ok_iff] at hi
    obtain ⟨st2, ha, hi⟩ := hi
    cases hi
    have hu := (C79_unchanged toyPrims_correct l0).1 [m1.pub] default
    rw [hw] at hu
    have hu : st1 = a0 := hu
    subst hu
    unfold GroupState.after at ha
    split at ha <;> try cases ha
    next hm =>
      refine ⟨.follow (ks := [m1]) l0 l0 ⟨rfl, rfl, rfl⟩ g1 hw hm, .join (ks := [m1]) l0 g1 hw (List.mem_singleton.2 rfl) ?_ hj⟩
      intro k hk hne
      rw [List.mem_singleton] at hk
      exact absurd (by rw [hk]) hne

/-- The hypotheses of C79 are met: `0` invites `2` and `3` to its group with `1`, who follows; `2` and `3` can join a second later and not a hundred
days later. -/
theorem toyLibrary : ∃ st st2 st1 w raw st2', Spec.Library toyPrims 1 st ∧ Spec.Library toyPrims 1 st2 ∧ SameView st st2 ∧
    (Spec.members st.vtree).length = 2 ∧ (∀ k ∈ [toyMember 2, toyMember 3], Spec.Generated toyPrims 1 k) ∧
    createWelcome toyPrims st ([toyMember 2, toyMember 3].map fun k => k.pub) default = (.ok (w, raw), st1) ∧
    Spec.OwnKeys (Spec.members st.vtree ++ [toyMember 2, toyMember 3].map fun k => k.pub.leafNode) ∧
    (∀ k ∈ [toyMember 2, toyMember 3], k.pub.leafNode.encryptionKey ≠ k.pub.initKey) ∧ Spec.OwnRefs toyPrims [toyMember 2, toyMember 3] ∧
    unmarshalAndProcessMessage toyPrims st2 raw toyLater = (.ok none, st2') ∧
    (∀ kp ∈ [toyMember 2, toyMember 3], (∃ j, groupFromWelcome toyPrims w kp toyLater = .ok j) ∧ groupFromWelcome toyPrims w kp toyLate = .err) := by
  have key : toyTwo.holds (fun (a, b) => decide (SameView a b) && decide ((Spec.members a.vtree).length = 2) &&
      decide (((Spec.members a.vtree ++ [toyMember 2, toyMember 3].map fun k => k.pub.leafNode).map fun l => l.encryptionKey).Nodup) &&
      decide (((Spec.members a.vtree ++ [toyMember 2, toyMember 3].map fun k => k.pub.leafNode).map fun l => l.signatureKey).Nodup) &&
      (createWelcome toyPrims a [(toyMember 2).pub, (toyMember 3).pub] default).1.holds (fun (w, raw) =>
        decide ((unmarshalAndProcessMessage toyPrims b raw toyLater).1 = .ok none) &&
        (groupFromWelcome toyPrims w (toyMember 2) toyLater).holds (fun _ => true) && decide (groupFromWelcome toyPrims w (toyMember 2) toyLate = .err) &&
        (groupFromWelcome toyPrims w (toyMember 3) toyLater).holds (fun _ => true) && decide (groupFromWelcome toyPrims w (toyMember 3) toyLate = .err)))
      = true := by decide +kernel
  have hrefs : toyRefs (toyMember 2).pub (toyMember 3).pub = true := by decide +kernel
  have hv2 : (toyMember 2).pub.version = 1 := by decide +kernel
  have hv3 : (toyMember 3).pub.version = 1 := by decide +kernel
  have hi2 : (toyMember 2).pub.leafNode.encryptionKey ≠ (toyMember 2).pub.initKey := by decide +kernel
  have hi3 : (toyMember 3).pub.leafNode.encryptionKey ≠ (toyMember 3).pub.initKey := by decide +kernel
  obtain ⟨⟨a, b⟩, h, key⟩ := Res.holds_ok key
  obtain ⟨l1, l2⟩ := toyTwo_library h
  clear h
  obtain ⟨r2, hr2⟩ := toyMember_generated 2 hv2
  obtain ⟨r3, hr3⟩ := toyMember_generated 3 hv3
  have hmem : ∀ {x m n : KeyPairPackage}, x ∈ [m, n] → x = m ∨ x = n := by
    intro x m n h
    rcases List.mem_cons.1 h with h | h
    · exact .inl h
    · exact .inr (List.mem_singleton.1 h)
  generalize toyMember 2 = m2, toyMember 3 = m3 at *
  rw [Bool.and_eq_true, Bool.and_eq_true, Bool.and_eq_true, Bool.and_eq_true, decide_eq_true_eq, decide_eq_true_eq, decide_eq_true_eq,
    decide_eq_true_eq] at key
  obtain ⟨⟨⟨⟨k1, k2⟩, k3⟩, k4⟩, k5⟩ := key
  obtain ⟨⟨w, raw⟩, hw, k6⟩ := Res.holds_ok k5
  simp only [Bool.and_eq_true, decide_eq_true_eq] at k6
  obtain ⟨⟨⟨⟨j0, j1⟩, j2⟩, j3⟩, j4⟩ := k6
  obtain ⟨g1, hg1, -⟩ := Res.holds_ok j1
  obtain ⟨g3, hg3, -⟩ := Res.holds_ok j3
  obtain ⟨c1, c2⟩ := toyRefs_spec hrefs
  refine ⟨a, b, (createWelcome toyPrims a [m2.pub, m3.pub] default).2, w, raw, (unmarshalAndProcessMessage toyPrims b raw toyLater).2, l1, l2, k1, k2,
    ?_, Prod.ext hw rfl, ⟨k3, k4⟩, ?_, ?_, Prod.ext j0 rfl, ?_⟩
  · intro k hk
    rcases hmem hk with rfl | rfl
    · exact ⟨_, _, hr2⟩
    · exact ⟨_, _, hr3⟩
  · intro k hk
    rcases hmem hk with rfl | rfl
    · exact hi2
    · exact hi3
  · unfold toyRefs at hrefs
    split at hrefs
    · next x y hx hy =>
      have hxy := of_decide_eq_true hrefs
      intro k hk k' hk' hne
      rcases hmem hk with rfl | rfl <;> rcases hmem hk' with rfl | rfl
      · exact absurd rfl hne
      · rw [hx, hy]; exact fun e => hxy (Res.ok.inj e)
      · rw [hx, hy]; exact fun e => hxy (Res.ok.inj e).symm
      · exact absurd rfl hne
    · cases hrefs
  · intro kp hkp
    rcases hmem hkp with rfl | rfl
    · exact ⟨⟨_, hg1⟩, j2⟩
    · exact ⟨⟨_, hg3⟩, j4⟩

end Mls
