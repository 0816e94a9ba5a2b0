import Verif.Props.Joinable
import Verif.Proofs.Snug
import Verif.Props.Calls
/-
C76 and C77: whether an invitation succeeds, and the size of the tree.
-/
namespace Mls

open Spec (Ratchet nodeAt)
open Spec.Ratchet (addsOf updatesOf removesOf)

variable {pr : Prims}

/-! ### C77 -/

/-- The array holds a ratchet tree that is no larger than needed. -/
def Spec.SnugTree (t : VTree) : Prop := ∃ (d : Nat) (s : Ratchet ParentNode d), t = s.flat .leaf .parent ∧ s.snug = true

theorem flat_depth {d e : Nat} {s : Ratchet ParentNode d} {s' : Ratchet ParentNode e}
    (h : s.flat Node.leaf Node.parent = s'.flat .leaf .parent) : d = e := by
  have hl := congrArg List.length h
  rw [flat_length, flat_length] at hl
  have p1 : 0 < 2 ^ (d + 1) := Nat.two_pow_pos _
  have p2 : 0 < 2 ^ (e + 1) := Nat.two_pow_pos _
  have : 2 ^ (d + 1) = 2 ^ (e + 1) := by omega
  have := Nat.pow_right_injective (Nat.le_refl 2) this
  omega

theorem Spec.SnugTree.of {t : VTree} (h : Spec.SnugTree t) {d : Nat} {s : Ratchet ParentNode d} (ht : t = s.flat .leaf .parent) : s.snug = true := by
  obtain ⟨e, s', h1, h2⟩ := h
  obtain rfl := flat_depth (h1.symm.trans ht)
  obtain rfl := flat_inj _ _ (h1.symm.trans ht)
  exact h2

/-- A created group has one leaf. -/
theorem C77_create {id : Bytes} {kp : KeyPairPackage} {rand : Nat → UInt8} {st : GroupState} (h : createGroup pr id kp rand = .ok st) :
    Spec.SnugTree st.vtree := by
  refine ⟨0, .leaf (some kp.pub.leafNode), ?_, rfl⟩
  unfold createGroup at h
  simp only [Res.bind_ok_iff] at h
  obtain ⟨⟨hp, t⟩, h1, pt, h2, _, _, d, h3, _, _, _, _, _, _, _, _, h⟩ := h
  have e : treeAdd [] [none] kp.pub.leafNode = .ok ([], [some (.leaf kp.pub.leafNode)]) := rfl
  rw [e] at h1
  cases h1
  cases h
  rfl

/-- Accepted messages, whatever they are, leave the tree no larger than needed. -/
theorem C77_message (hc : pr.Correct) {st st' : GroupState} (hr : Reachable pr st) (hs : Spec.SnugTree st.vtree) {raw : Bytes} {now : GoTime}
    {r : Option Bytes} (h : unmarshalAndProcessMessage pr st raw now = (.ok r, st')) : Spec.SnugTree st'.vtree := by
  obtain ⟨a, e, hca, _⟩ := accepted_cases h
  by_cases hcom : ∃ c, a.content.content = .commit c
  · obtain ⟨c, hk⟩ := hcom
    obtain ⟨sd, l, d0, d, s0, s, s', th, sec, input, ctx, hsd, hl, ht, _⟩ := C69_epoch hc hr hca hk h
    have h0 := hs.of ht.before
    have hap := ht.applied
    unfold Spec.applyProposals at hap
    have h1 := snug_all (fun a ha => by cases ha; exact h0) hap _ rfl
    refine ⟨d, s', ht.after, ?_⟩
    have hm := ht.merged
    cases hp : c.path with
    | none =>
      rw [hp] at hm
      dsimp only at hm
      subst hm
      exact h1
    | some path =>
      rw [hp] at hm
      obtain ⟨_, hm⟩ := hm
      unfold Ratchet.mergePath at hm
      split at hm
      · next s2 ph hmerge =>
        split at hm
        · cases hm
          exact snug_merge hmerge h1
        · cases hm
      · cases hm
  · rw [C74_other hca (fun c hk => hcom ⟨c, hk⟩) h]
    exact hs

/-- Such a tree is read back as it was sent. -/
theorem C77_sent {t : VTree} (hs : Spec.SnugTree t) {raw : Bytes} (h : encTree t = .ok raw) : unmarshal decTree raw = .ok t := by
  obtain ⟨d, s, rfl, hs⟩ := hs
  rw [snug_iff] at hs
  obtain ⟨i, h1, h2, l, hl⟩ := hs
  have hn := at_leafAt (at_flat Node.leaf Node.parent s) h2
  rw [hl, Nat.zero_mul, Nat.zero_add] at hn
  exact C26_roundtrip (flat_length _ _ s) (x := 2 * i) (by omega) (by rw [hn]; simp) h

/-! ### What an invitation does to the tree -/

theorem adds_member (ns : List LeafNode) {a b : Ratchet.Any ParentNode} (h : ns.foldl (fun t n => some (Ratchet.addOpt t n)) (some a) = some b)
    {n : LeafNode} (hn : n ∈ ns) : ∃ i, i < 2 ^ b.1 ∧ b.2.leafAt i = some n := by
  induction ns generalizing a with
  | nil => cases hn
  | cons m ns ih =>
    rw [List.foldl_cons] at h
    rcases List.mem_cons.1 hn with rfl | hn
    · have : ∃ i, i < 2 ^ (a.2.add n).1 ∧ (a.2.add n).2.leafAt i = some n := by
        rcases add_eq_alongPath a.2 n with ⟨_, e⟩ | ⟨j, hf, e⟩
        · rw [e]
          have hlt : 2 ^ a.1 < 2 ^ (a.1 + 1) := Nat.pow_lt_pow_right (by decide) (by omega)
          exact ⟨2 ^ a.1, hlt, by rw [leafAt_alongPath _ _ _ hlt hlt, if_pos rfl]⟩
        · obtain ⟨hj, _⟩ := firstBlank_leafAt hf
          rw [e]
          exact ⟨j, hj, by rw [leafAt_alongPath _ _ _ hj hj, if_pos rfl]⟩
      obtain ⟨i, h1, h2⟩ := this
      obtain ⟨h3, h4⟩ := adds_keep ns (a := a.2.add n) h1 h2 h
      exact ⟨i, h3, h4⟩
    · exact ih h hn

theorem addsOf_adds (kps : List KeyPackage) : addsOf (kps.map .add) = kps.map fun k => k.leafNode := by
  unfold addsOf
  rw [List.filterMap_map]
  exact List.filterMap_eq_map' ▸ rfl

/-- The tree an invitation leads to. -/
theorem InviteRun.ratchet {st : GroupState} (hi : GroupInv pr st) {kps : List KeyPackage} {r : WelcomeRand} {w : Welcome} {raw : Bytes} {hp : Heap}
    {t : RTree} {sd : SuiteDesc} {th psk sig cth js es tag rawTree isig : Bytes} {ctx : GroupContext}
    (run : InviteRun pr st kps r w raw hp t sd th psk sig cth js es tag rawTree isig ctx) :
    ∃ d0 s0 d s, d0 ≤ 31 ∧ d ≤ 31 ∧ st.vtree = Ratchet.flat (d := d0) .leaf .parent s0 ∧ derefTree hp t = Ratchet.flat (d := d) .leaf .parent s ∧
      (kps.map fun k => k.leafNode).foldl (fun t n => some (Ratchet.addOpt t n)) (some ⟨d0, s0⟩) = some ⟨d, s⟩ := by
  obtain ⟨d0, hd0, s0, hs0⟩ := hi.tree.holds
  have ha := treeApply_added run.apply
  rcases applyAdds_spec (kps.map .add) st.heap st.group.tree (some ⟨d0, s0⟩) hd0 hs0 with ⟨h', t', e, h1, h2⟩ | ⟨e, -⟩
  · rw [ha] at e
    cases e
    rw [addsOf_adds] at h1 h2
    generalize hg : (kps.map fun k => k.leafNode).foldl (fun t n => some (Ratchet.addOpt t n)) (some ⟨d0, s0⟩) = g at h1 h2
    obtain ⟨⟨d, s⟩, hb, _⟩ := adds_depth (kps.map fun k => k.leafNode) ⟨d0, s0⟩
    rw [hg] at hb
    subst hb
    exact ⟨d0, s0, d, s, hd0, h1, hs0.flat, h2.flat, hg⟩
  · rw [ha] at e
    cases e

/-! ### C76 -/

theorem encryptSecretsLoop_entry {cs : UInt16} {gs : GroupSecrets} {egi : Bytes} {rand : Nat → Bytes} {k : KeyPackage} :
    ∀ (ks : List KeyPackage) (i : Nat) (l : List EncryptedGroupSecrets), encryptSecretsLoop pr cs gs egi rand i ks = .ok l → k ∈ ks →
      ∃ ref s, k.generateRef pr = .ok ref ∧ l.find? (fun s => s.newMember == ref) = some s := by
  intro ks
  induction ks with
  | nil => intro i l h hk; cases hk
  | cons k0 ks ih =>
    intro i l h hk
    simp only [encryptSecretsLoop, Res.bind_ok_iff] at h
    obtain ⟨ref', h1, ct, h2, rest, h3, h4⟩ := h
    cases h4
    rcases List.mem_cons.1 hk with rfl | hk
    · exact ⟨ref', ⟨ref', ct⟩, h1, by rw [List.find?_cons]; simp⟩
    · obtain ⟨ref, s, g1, g2⟩ := ih _ _ h3 hk
      by_cases hx : ref' = ref
      · exact ⟨ref, ⟨ref, ct⟩, g1, by rw [List.find?_cons, hx]; simp⟩
      · refine ⟨ref, s, g1, ?_⟩
        rw [List.find?_cons, beq_false_of_ne hx]
        exact g2

theorem InviteRun.info_opens (hc : pr.Correct) {st : GroupState} {kps : List KeyPackage} {r : WelcomeRand}
    {w : Welcome} {raw : Bytes} {hp : Heap} {t : RTree} {sd : SuiteDesc} {th psk sig cth js es tag rawTree isig : Bytes} {ctx : GroupContext}
    (run : InviteRun pr st kps r w raw hp t sd th psk sig cth js es tag rawTree isig ctx) (hver : st.group.groupContext.version = 1) :
    w.decryptGroupInfo pr js psk = .ok (inviteInfo ctx rawTree tag st.group.myLeafIndex isig) := by
  have h := run.info
  have hcs : ctx.cipherSuite = st.group.groupContext.cipherSuite := by rw [run.context]
  unfold GroupInfo.encrypt at h
  simp only [Res.bind_ok_iff, inviteInfo, hcs] at h
  obtain ⟨⟨key, nonce⟩, h1, plain, h2, h3⟩ := h
  rw [aeadSeal_ok_iff run.suite] at h3
  unfold Welcome.decryptGroupInfo
  rw [run.cipherSuite, h1]
  simp only [Res.ok_bind, (aeadOpen_ok_iff run.suite).2 (hc.aead_open _ _ _ _ _ _ h3)]
  exact unmarshal_rt groupInfo_rt h2 (by show ctx.version = 1; rw [run.context]; exact hver)

theorem InviteRun.info_signed (hc : pr.Correct) {st : GroupState} {kps : List KeyPackage} {r : WelcomeRand}
    {w : Welcome} {raw : Bytes} {hp : Heap} {t : RTree} {sd : SuiteDesc} {th psk sig cth js es tag rawTree isig : Bytes} {ctx : GroupContext}
    (run : InviteRun pr st kps r w raw hp t sd th psk sig cth js es tag rawTree isig ctx) {rs : Bytes} {pub : Bytes}
    (h1 : pub = (pr.sigKeyPair sd.sig rs).1) (h2 : st.group.signaturePriv = (pr.sigKeyPair sd.sig rs).2) :
    (inviteInfo ctx rawTree tag st.group.myLeafIndex isig).verifySignature pr pub = .ok true := by
  have h := run.infoSigned
  have hcs : ctx.cipherSuite = st.group.groupContext.cipherSuite := by rw [run.context]
  unfold GroupInfo.sign at h
  simp only [Res.bind_ok_iff] at h
  obtain ⟨tbs, g1, sg, g2, g3⟩ := h
  have g3 : sg = isig := congrArg GroupInfo.signature (Res.ok.inj g3)
  subst g3
  have g1 : (inviteInfo ctx rawTree tag st.group.myLeafIndex sg).encTBS = .ok tbs := g1
  unfold GroupInfo.verifySignature
  rw [g1]
  unfold signWithLabel at g2
  unfold verifyWithLabel
  have e : (inviteInfo ctx rawTree tag st.group.myLeafIndex []).groupContext.cipherSuite = st.group.groupContext.cipherSuite := hcs
  have e' : (inviteInfo ctx rawTree tag st.group.myLeafIndex sg).groupContext.cipherSuite = st.group.groupContext.cipherSuite := hcs
  rw [e] at g2
  simp only [Res.bind_ok_iff, orErr_ok_iff] at g2
  obtain ⟨m, k1, d, k2, k3⟩ := g2
  rw [run.suite] at k2
  cases k2
  rw [h2] at k3
  have := hc.sign_verify _ _ _ _ _ k3
  simp only [orFalse, k1, e', run.suite, Res.ok_bind, h1]
  exact sigVerify_iff.2 this

theorem InviteRun.tag_verifies {st : GroupState} {kps : List KeyPackage} {r : WelcomeRand}
    {w : Welcome} {raw : Bytes} {hp : Heap} {t : RTree} {sd : SuiteDesc} {th psk sig cth js es tag rawTree isig : Bytes} {ctx : GroupContext}
    (run : InviteRun pr st kps r w raw hp t sd th psk sig cth js es tag rawTree isig ctx) :
    (inviteInfo ctx rawTree tag st.group.myLeafIndex isig).verifyConfirmationTag pr js psk = .ok true := by
  have h := run.confirmed
  unfold GroupContext.signConfirmationTag at h
  rw [Res.bind_ok_iff] at h
  obtain ⟨ck, h1, h2⟩ := h
  unfold GroupInfo.verifyConfirmationTag verifyMAC
  simp only [inviteInfo, run.epoch, orFalse, h1, h2, Res.ok_bind, Res.pure_eq, beq_self_eq_true]

theorem findLeafLoop_found {t : VTree} {d : Nat} {s : Ratchet ParentNode d} (hd : d ≤ 31) (ht : t = s.flat .leaf .parent) {n : LeafNode} {b : Bytes}
    (hb : n.enc = .ok b) {i : Nat} (hl : s.leafAt i = some n)
    (hu : ∀ j l, j < 2 ^ d → s.leafAt j = some l → l.encryptionKey = n.encryptionKey → j = i) :
    ∀ (k li : Nat), li ≤ i → i < li + k → li + k ≤ 2 ^ d → findLeafLoop t n k li = .ok (some i) := by
  intro k
  induction k with
  | zero => intro li h1 h2; omega
  | succ k ih =>
    intro li h1 h2 h3
    obtain ⟨o, g1, _, g3⟩ := getLeaf_at hd ht (i := li) (by omega)
    rw [leafAt_leaves s (by omega), Option.some.injEq] at g3
    unfold findLeafLoop
    rw [g1, Res.ok_bind]
    by_cases he : li = i
    · subst he
      rw [hl] at g3
      subst g3
      simp [hb]
    · cases o with
      | none => exact ih _ (by omega) (by omega) (by omega)
      | some l =>
        dsimp only
        rw [if_pos fun e => he (hu li l (by omega) g3 e)]
        exact ih _ (by omega) (by omega) (by omega)

theorem generateRef_leaf {k : KeyPackage} {ref : Bytes} (h : k.generateRef pr = .ok ref) : ∃ b, k.leafNode.enc = .ok b := by
  unfold KeyPackage.generateRef at h
  rw [Res.bind_ok_iff] at h
  obtain ⟨raw, h, _⟩ := h
  simp only [KeyPackage.enc, KeyPackage.encTBS, Enc.append_assoc, Enc.append_ok_iff] at h
  obtain ⟨_, _, _, ⟨_, _, _, ⟨_, _, _, ⟨x, _, h, _⟩, _⟩, _⟩, _⟩ := h
  exact ⟨x, h⟩

/-- What the invited check of the tree depends on the group context through group, cipher suite and tree hash only. -/
theorem Spec.TreeValid.of_context {H : Bytes → Bytes} {ctx ctx' : GroupContext} {now : GoTime} {t : VTree} {d : Nat} {s : Ratchet ParentNode d}
    (h : Spec.TreeValid pr H ctx now t s) (h1 : ctx'.groupID = ctx.groupID) (h2 : ctx'.cipherSuite = ctx.cipherSuite)
    (h3 : ctx'.treeHash = ctx.treeHash) : Spec.TreeValid pr H ctx' now t s := by
  refine ⟨h.array, by rw [h3]; exact h.treeHash, h.parentHashes, fun i l hi hl => ?_, h.credentials, h.signatureKeys, h.encryptionKeys, h.unmerged⟩
  obtain ⟨⟨tbs, g1, g2⟩, g3, g4⟩ := h.leaves i l hi hl
  exact ⟨⟨tbs, by rw [h1]; exact g1, by rw [h2]; exact g2⟩, g3, g4⟩

theorem InviteRun.joins (hc : pr.Correct) {st : GroupState} (hi : GroupInv pr st) {kps : List KeyPackage} {r : WelcomeRand}
    {w : Welcome} {raw : Bytes} {hp : Heap} {t : RTree} {sd : SuiteDesc} {th psk sig cth js es tag rawTree isig : Bytes} {ctx : GroupContext}
    (run : InviteRun pr st kps r w raw hp t sd th psk sig cth js es tag rawTree isig ctx) (hver : st.group.groupContext.version = 1)
    (hown : Spec.OwnLeaf pr st) (hsn : Spec.SnugTree st.vtree) {kp : KeyPairPackage} (hk : kp.pub ∈ kps)
    (ho : Spec.KeyOpens pr sd kp.pub.initKey kp.priv.initKey) (hcol : ¬ RefCollision pr kps kp.pub) (now : GoTime)
    {d : Nat} {s : Ratchet ParentNode d} (hd : d ≤ 31) (hs : derefTree hp t = s.flat .leaf .parent) :
    (∃ j, groupFromWelcome pr w kp now = .ok j) ↔ Spec.TreeValid pr (pr.hash sd.hash) ctx now (derefTree hp t) s := by
  obtain ⟨d0, s0, d', s', hd0, -, hs0, hs', hadd⟩ := run.ratchet hi
  obtain rfl := flat_depth (hs.symm.trans hs')
  obtain rfl := flat_inj _ _ (hs.symm.trans hs')
  clear hs'
  obtain ⟨sd', rs, leaf, hsd', hleaf, hpub, hpriv⟩ := hown
  rw [run.suite] at hsd'
  cases hsd'
  obtain ⟨ref, sec, hrf, hfind⟩ := encryptSecretsLoop_entry _ _ _ run.secrets hk
  have hgs := (run.secrets_open ho hrf hfind).resolve_right hcol
  have hcs : ctx.cipherSuite = st.group.groupContext.cipherSuite := by rw [run.context]
  have hlen : (derefTree hp t).length = 2 ^ (d + 1) - 1 := by rw [hs, flat_length]
  have hsnug : Spec.SnugTree (derefTree hp t) :=
    ⟨d, s, hs, snug_adds _ (t := some ⟨d0, s0⟩) (fun a ha => by cases ha; exact hsn.of hs0) _ hadd⟩
  have hdec := C77_sent hsnug run.tree
  have hvi := C29_integrity hc hd hlen ctx now
  -- the inviter's leaf
  have hown' : getLeaf (derefTree hp t) st.group.myLeafIndex.toNat = .ok (some leaf) := by
    have hlt := (List.getElem?_eq_some_iff.1 hleaf).1
    rw [hs0, flat_length, Nat.pow_succ] at hlt
    have hin : st.group.myLeafIndex.toNat < 2 ^ d0 := by omega
    have h0 := at_leafAt (show VAt st.vtree 0 s0 by rw [hs0]; exact at_flat _ _ s0) hin
    rw [Nat.zero_mul, Nat.zero_add, nodeAt_some.2 hleaf] at h0
    have h0 : s0.leafAt st.group.myLeafIndex.toNat = some leaf := by
      cases hx : s0.leafAt st.group.myLeafIndex.toNat with
      | none => rw [hx] at h0; cases h0
      | some n => rw [hx] at h0; cases h0; rfl
    obtain ⟨h1, h2⟩ := adds_keep _ (a := ⟨d0, s0⟩) hin h0 hadd
    obtain ⟨o, g1, _, g3⟩ := getLeaf_at hd hs h1
    rw [leafAt_leaves s h1, Option.some.injEq] at g3
    rw [g1, ← g3, h2]
  unfold groupFromWelcome groupFromSecrets
  simp only [hrf, Res.ok_bind, hgs, run.cipherSuite, run.noPsk, run.info_opens hc hver]
  have hsecs : GroupSecrets.verifySingleReinitOrBranchPSK { joinerSecret := js, pathSecret := none, psks := [] } = true := rfl
  have hfe : findExtensionData (inviteInfo ctx rawTree tag st.group.myLeafIndex isig).extensions 2 = some rawTree := rfl
  have hsg : (inviteInfo ctx rawTree tag st.group.myLeafIndex isig).signer = st.group.myLeafIndex := rfl
  have hctx : (inviteInfo ctx rawTree tag st.group.myLeafIndex isig).groupContext = ctx := rfl
  simp only [hsecs, Res.guardErr_true, Res.ok_bind, List.length_nil, beq_self_eq_true, hfe, Option.none_or, orErr, hdec, hsg, hown',
    run.info_signed hc hpub hpriv, run.tag_verifies, hctx, hcs]
  constructor
  · rintro ⟨j, h⟩
    rw [Res.bind_ok_iff] at h
    obtain ⟨_, h, _⟩ := h
    obtain ⟨sd2, h1, s2, h2⟩ := hvi.1 h
    rw [hcs, run.suite] at h1
    cases h1
    obtain rfl := flat_inj _ _ (h2.array.symm.trans hs)
    exact h2
  · intro hv
    rw [hvi.2 ⟨sd, by rw [hcs]; exact run.suite, s, hv⟩, Res.ok_bind, run.epoch, Res.ok_bind]
    have hinit : ∃ x, deriveSecret pr st.group.groupContext.cipherSuite es lblInit = .ok x := ⟨_, deriveSecret_eq run.suite es (name := "init") (by decide +kernel) (by decide)⟩
    obtain ⟨x, hx⟩ := hinit
    rw [hx, Res.ok_bind]
    obtain ⟨i, hil, hlf⟩ := adds_member _ hadd (n := kp.pub.leafNode) (List.mem_map.2 ⟨_, hk, rfl⟩)
    have hil : i < 2 ^ d := hil
    obtain ⟨b, hb⟩ := generateRef_leaf hrf
    have hat : VAt (derefTree hp t) 0 s := by rw [hs]; exact at_flat _ _ s
    have hfl : findLeaf (derefTree hp t) kp.pub.leafNode = .ok (some i) := by
      unfold findLeaf
      rw [numLeaves_pow hd hlen]
      refine findLeafLoop_found hd hs hb hlf (fun j l hj hl he => ?_) _ _ (by omega) (by omega) (by omega)
      by_contra hne
      have e1 := at_leafAt hat hj
      have e2 := at_leafAt hat hil
      rw [Nat.zero_mul, Nat.zero_add, hl] at e1
      rw [Nat.zero_mul, Nat.zero_add, hlf] at e2
      exact hv.encryptionKeys _ _ _ _ (by omega) e1 e2 he
    have htag : tag.length < 2 ^ 30 := by
      have h := run.confirmed
      unfold GroupContext.signConfirmationTag signMAC at h
      rw [hcs, run.suite] at h
      simp only [Res.bind_ok_iff, Res.ok_bind, Res.pure_eq, Res.ok.injEq] at h
      obtain ⟨ck, _, rfl⟩ := h
      rw [hc.mac_length]
      have := hash_size_lt sd.hash
      omega
    have hpt : ∃ pt, joinerPrivTree pr st.group.groupContext.cipherSuite (derefTree hp t) i st.group.myLeafIndex kp.priv.encryptionKey none = .ok pt := by
      have hlt : nodeOfLeaf i < (List.replicate (derefTree hp t).length (none : Option Bytes)).length := by
        rw [List.length_replicate, hlen, Nat.pow_succ]
        show 2 * i % 4294967296 < _
        omega
      unfold joinerPrivTree Res.setIdx
      rw [if_pos hlt]
      exact ⟨_, rfl⟩
    obtain ⟨pt, hpt⟩ := hpt
    simp only [inviteInfo, nextInterim_of run.suite _ htag, Res.ok_bind, Res.pure_eq, hfl, hpt]
    exact ⟨_, rfl⟩

/-- **C76.** Whether the invited can join. A member of a group with protocol version 1, whose own leaf has the key it signs with and whose tree is
no larger than needed, invites `kps`. There is one tree, the tree of the group with the leaves of the invited added in order (RFC 9420 section
12.1.1), and everyone invited can join at a given time exactly when that tree is valid at that time (section 12.4.3.1). -/
theorem C76_admission (hc : pr.Correct) {st st1 : GroupState} (hr : Reachable pr st) (hver : st.group.groupContext.version = 1)
    (hown : Spec.OwnLeaf pr st) (hsn : Spec.SnugTree st.vtree) {kps : List KeyPackage} {r : WelcomeRand} {w : Welcome} {raw : Bytes}
    (h : createWelcome pr st kps r = (.ok (w, raw), st1)) :
    ∃ (sd : SuiteDesc) (d0 d : Nat) (s0 : Ratchet ParentNode d0) (s : Ratchet ParentNode d) (th : Bytes),
      suite st.group.groupContext.cipherSuite = .ok sd ∧ d0 ≤ 31 ∧ d ≤ 31 ∧ st.vtree = s0.flat .leaf .parent ∧
      (kps.map fun k => k.leafNode).foldl (fun t n => some (Ratchet.addOpt t n)) (some ⟨d0, s0⟩) = some ⟨d, s⟩ ∧
      s.treeHash (pr.hash sd.hash) 0 = some th ∧
      ∀ kp : KeyPairPackage, kp.pub ∈ kps → Spec.KeyOpens pr sd kp.pub.initKey kp.priv.initKey → ¬ RefCollision pr kps kp.pub → ∀ now : GoTime,
        ((∃ j, groupFromWelcome pr w kp now = .ok j) ↔
          Spec.TreeValid pr (pr.hash sd.hash) { st.group.groupContext with treeHash := th } now (s.flat .leaf .parent) s) := by
  have hi := hr.inv hc
  obtain ⟨hp, t, sd, th, psk, sig, cth, js, es, tag, rawTree, isig, ctx, run, -⟩ := createWelcome_run h
  obtain ⟨d0, s0, d, s, hd0, hd, hs0, hs, hadd⟩ := run.ratchet hi
  refine ⟨sd, d0, d, s0, s, th, run.suite, hd0, hd, hs0, hadd, ?_, ?_⟩
  · have := run.hash
    rw [hs] at this
    exact (C28_tree_hash hc run.suite hd s th).1 this
  · intro kp hk ho hcol now
    have hj := run.joins hc hi hver hown hsn hk ho hcol now hd hs
    rw [hs] at hj
    rw [hj]
    have hctx := run.context
    constructor
    · intro hv
      refine hv.of_context ?_ ?_ ?_ <;> rw [hctx]
    · intro hv
      refine hv.of_context ?_ ?_ ?_ <;> rw [hctx]

/-! ### C77, for histories -/

theorem Spec.SnugTree.of_leaves {h h' : Heap} {t : RTree} (hs : Spec.SnugTree (derefTree h t)) {d : Nat} {s : Ratchet ParentNode d}
    (ht : derefTree h' t = s.flat .leaf .parent) : Spec.SnugTree (derefTree h' t) := by
  obtain ⟨e, s0, h0, hs0⟩ := hs
  have hl := congrArg List.length h0
  have hl' := congrArg List.length ht
  rw [derefTree_length, flat_length] at hl hl'
  have p1 : 0 < 2 ^ (d + 1) := Nat.two_pow_pos _
  have p2 : 0 < 2 ^ (e + 1) := Nat.two_pow_pos _
  have : d + 1 = e + 1 := Nat.pow_right_injective (Nat.le_refl 2) (show 2 ^ (d + 1) = 2 ^ (e + 1) by omega)
  obtain rfl : d = e := by omega
  refine ⟨d, s, ht, ?_⟩
  rw [snug_iff] at hs0 ⊢
  obtain ⟨i, h1, h2, l, hl⟩ := hs0
  refine ⟨i, h1, h2, l, ?_⟩
  have e0 := at_leafAt (show VAt (derefTree h t) 0 s0 by rw [h0]; exact at_flat _ _ s0) h2
  rw [Nat.zero_mul, Nat.zero_add, hl, Option.map_some, nodeAt_some, derefTree_leaf] at e0
  have e1 := at_leafAt (show VAt (derefTree h' t) 0 s by rw [ht]; exact at_flat _ _ s) h2
  rw [Nat.zero_mul, Nat.zero_add, nodeAt_some.2 (derefTree_leaf.2 e0)] at e1
  cases hx : s.leafAt i with
  | none => rw [hx] at e1; cases e1
  | some n => rw [hx] at e1; cases e1; rfl

/-- `st'` is the group `st` after any accepted messages and any invitations. -/
inductive Spec.Since (pr : Prims) (st : GroupState) : GroupState → Prop where
  | refl : Spec.Since pr st st
  | message {st1 st2 : GroupState} {raw : Bytes} {now : GoTime} {r : Option Bytes} (hf : Spec.Since pr st st1)
      (h : unmarshalAndProcessMessage pr st1 raw now = (.ok r, st2)) : Spec.Since pr st st2
  | invite {st1 st2 : GroupState} {kps : List KeyPackage} {rnd : WelcomeRand} {o : Welcome × Bytes} (hf : Spec.Since pr st st1)
      (h : createWelcome pr st1 kps rnd = (.ok o, st2)) : Spec.Since pr st st2

theorem Spec.Since.reachable {st st' : GroupState} (hr : Reachable pr st) (h : Spec.Since pr st st') : Reachable pr st' := by
  induction h with
  | refl => exact hr
  | message _ h ih => exact .message ih h (Res.fine_ok _)
  | invite _ h ih => exact .invite ih h (Res.fine_ok _)

/-- **C77.** Through any accepted messages and any invitations the tree stays no larger than needed. -/
theorem C77_history (hc : pr.Correct) {st st' : GroupState} (hr : Reachable pr st) (hs : Spec.SnugTree st.vtree) (h : Spec.Since pr st st') :
    Spec.SnugTree st'.vtree := by
  induction h with
  | refl => exact hs
  | message hf h ih => exact C77_message hc (hf.reachable hr) ih h
  | @invite st1 st2 kps rnd o hf h ih =>
    have hg := createWelcome_group (pr := pr) st1 kps rnd
    rw [h] at hg
    dsimp only at hg
    have hr2 : Reachable pr st2 := .invite (hf.reachable hr) h (Res.fine_ok _)
    obtain ⟨d, _, s, hs2⟩ := (hr2.inv hc).tree.holds
    have hflat := hs2.flat
    unfold GroupState.vtree at ih ⊢
    rw [hg] at hflat ⊢
    exact ih.of_leaves hflat

/-- **C77.** For a group that the member created: whatever they accepted, and however often they invited, the tree is no larger than needed; and
what is sent of it is read back as the same tree. -/
theorem C77_created (hc : pr.Correct) {id : Bytes} {kp : KeyPairPackage} {rand : Nat → UInt8} {st st' : GroupState}
    (h : createGroup pr id kp rand = .ok st) (hs : Spec.Since pr st st') {raw : Bytes} (he : encTree st'.vtree = .ok raw) :
    Spec.SnugTree st'.vtree ∧ unmarshal decTree raw = .ok st'.vtree :=
  have hsn := C77_history hc (.create h) (C77_create h) hs
  ⟨hsn, C77_sent hsn he⟩

/-! ### Concrete cases -/

/-- The member's own leaf has the key of `name`, as a test. -/
def toyOwns (st : GroupState) (name : UInt8) : Bool :=
  decide (st.group.groupContext.cipherSuite = 1) && decide (st.group.signaturePriv = [11, name]) &&
  match st.vtree[2 * st.group.myLeafIndex.toNat]? with
  | some (some (.leaf l)) => decide (l.signatureKey = [11, name])
  | _ => false

theorem toyOwns_spec {st : GroupState} {name : UInt8} (h : toyOwns st name = true) : Spec.OwnLeaf toyPrims st := by
  unfold toyOwns at h
  rw [Bool.and_eq_true, Bool.and_eq_true, decide_eq_true_eq, decide_eq_true_eq] at h
  obtain ⟨⟨h1, h2⟩, h3⟩ := h
  split at h3
  · next l hl => exact ⟨⟨.sha256, .x25519, .sha256, .aes128gcm, .ed25519⟩, [11, name], l, by rw [h1]; rfl, hl, of_decide_eq_true h3, h2⟩
  · cases h3

/-- A tree that is no larger than needed: its last leaf is not blank. -/
theorem SnugTree.of_last {pr : Prims} {st : GroupState} (hi : GroupInv pr st) (h : (nodeAt st.vtree (st.vtree.length - 1)).isSome = true) :
    Spec.SnugTree st.vtree := by
  obtain ⟨d, hd, s, hs⟩ := hi.tree.holds
  have hf : st.vtree = s.flat .leaf .parent := hs.flat
  refine ⟨d, s, hf, ?_⟩
  rw [snug_iff]
  have hp : 0 < 2 ^ d := Nat.two_pow_pos _
  refine ⟨2 ^ d - 1, by omega, by omega, ?_⟩
  have e := at_leafAt (show VAt st.vtree 0 s by rw [hf]; exact at_flat _ _ s) (i := 2 ^ d - 1) (by omega)
  have hlen : st.vtree.length - 1 = 2 * (2 ^ d - 1) := by rw [hf, flat_length, Nat.pow_succ]; omega
  rw [Nat.zero_mul, Nat.zero_add, ← hlen] at e
  rw [e] at h
  cases hx : s.leafAt (2 ^ d - 1) with
  | none => rw [hx] at h; cases h
  | some l => exact ⟨l, rfl⟩

/-- The references of these key packages are different, as a test. -/
def toyRefs (k k' : KeyPackage) : Bool :=
  match k.generateRef toyPrims, k'.generateRef toyPrims with
  | .ok a, .ok b => decide (a ≠ b)
  | _, _ => false

theorem toyRefs_spec {k k' : KeyPackage} (h : toyRefs k k' = true) : ¬ RefCollision toyPrims [k, k'] k ∧ ¬ RefCollision toyPrims [k, k'] k' := by
  unfold toyRefs at h
  split at h
  · next a b ha hb =>
    have h := of_decide_eq_true h
    constructor
    · rintro ⟨k2, hk, hne, ref, h1, h2⟩
      simp only [List.mem_cons, List.not_mem_nil, or_false] at hk
      rcases hk with rfl | rfl
      · exact hne rfl
      · rw [hb] at h1; rw [ha] at h2; cases h1; cases h2; exact h rfl
    · rintro ⟨k2, hk, hne, ref, h1, h2⟩
      simp only [List.mem_cons, List.not_mem_nil, or_false] at hk
      rcases hk with rfl | rfl
      · rw [ha] at h1; rw [hb] at h2; cases h1; cases h2; exact h rfl
      · exact hne rfl
  · cases h


theorem toyMember_generated (name : UInt8) (h : (toyMember name).pub.version = 1) : ∃ r, generateKeyPairPackage toyPrims 1 (.basic [name]) r =
    .ok (toyMember name) := by
  refine ⟨{ init := [12, name], enc := [10, name], sig := [11, name], leafSign := [], pkgSign := [], now1 := toyNow, now2 := toyNow }, ?_⟩
  unfold toyMember at h ⊢
  split at h
  · next k hk => rw [hk]
  · cases h

/-- The hypotheses of C76 are met: `0`, in the group with `1`, invites `2` and `3`. Both can join a second later; neither can join a hundred days
later, when the tree is no longer valid. -/
theorem toyAdmission : ∃ st st1 w raw, Reachable toyPrims st ∧ st.group.groupContext.version = 1 ∧ st.group.groupContext.cipherSuite = 1 ∧
    Spec.OwnLeaf toyPrims st ∧ Spec.SnugTree st.vtree ∧
    createWelcome toyPrims st [(toyMember 2).pub, (toyMember 3).pub] default = (.ok (w, raw), st1) ∧
    (∀ kp ∈ [toyMember 2, toyMember 3], (∀ sd, suite 1 = .ok sd → Spec.KeyOpens toyPrims sd kp.pub.initKey kp.priv.initKey) ∧
      ¬ RefCollision toyPrims [(toyMember 2).pub, (toyMember 3).pub] kp.pub ∧
      (∃ j, groupFromWelcome toyPrims w kp toyLater = .ok j) ∧ groupFromWelcome toyPrims w kp toyLate = .err) := by
  have key : toyTwo.holds (fun (a, _) => decide (a.group.groupContext.version = 1) && decide (a.group.groupContext.cipherSuite = 1) && toyOwns a 0 &&
      (nodeAt a.vtree (a.vtree.length - 1)).isSome && (createWelcome toyPrims a [(toyMember 2).pub, (toyMember 3).pub] default).1.holds (fun (w, raw) =>
        (groupFromWelcome toyPrims w (toyMember 2) toyLater).holds (fun _ => true) && decide (groupFromWelcome toyPrims w (toyMember 2) toyLate = .err) &&
        (groupFromWelcome toyPrims w (toyMember 3) toyLater).holds (fun _ => true) && decide (groupFromWelcome toyPrims w (toyMember 3) toyLate = .err)))
      = true := by decide +kernel
  have hrefs : toyRefs (toyMember 2).pub (toyMember 3).pub = true := by decide +kernel
  have hv2 : (toyMember 2).pub.version = 1 := by decide +kernel
  have hv3 : (toyMember 3).pub.version = 1 := by decide +kernel
  obtain ⟨⟨a, b⟩, h, key⟩ := Res.holds_ok key
  have hr := (toyTwo_reachable h).1
  clear h
  rw [Bool.and_eq_true, Bool.and_eq_true, Bool.and_eq_true, Bool.and_eq_true, decide_eq_true_eq, decide_eq_true_eq] at key
  obtain ⟨⟨⟨⟨k1, k2⟩, k3⟩, k4⟩, k5⟩ := key
  obtain ⟨⟨w, raw⟩, hw, k6⟩ := Res.holds_ok k5
  simp only [Bool.and_eq_true, decide_eq_true_eq] at k6
  obtain ⟨⟨⟨j1, j2⟩, j3⟩, j4⟩ := k6
  obtain ⟨g1, hg1, -⟩ := Res.holds_ok j1
  obtain ⟨g3, hg3, -⟩ := Res.holds_ok j3
  obtain ⟨c1, c2⟩ := toyRefs_spec hrefs
  obtain ⟨r2, hr2⟩ := toyMember_generated 2 hv2
  obtain ⟨r3, hr3⟩ := toyMember_generated 3 hv3
  refine ⟨a, (createWelcome toyPrims a [(toyMember 2).pub, (toyMember 3).pub] default).2, w, raw, hr, k1, k2, toyOwns_spec k3,
    SnugTree.of_last (hr.inv toyPrims_correct) k4, Prod.ext hw rfl, ?_⟩
  intro kp hkp
  have hkp : kp = toyMember 2 ∨ kp = toyMember 3 := by
    rcases List.mem_cons.1 hkp with h | h
    · exact .inl h
    · exact .inr (List.mem_singleton.1 h)
  generalize toyMember 2 = m2, toyMember 3 = m3 at *
  rcases hkp with rfl | rfl
  · exact ⟨fun sd hsd => generated_init_opens toyPrims_correct hr2 hsd, c1, ⟨_, hg1⟩, j2⟩
  · exact ⟨fun sd hsd => generated_init_opens toyPrims_correct hr3 hsd, c2, ⟨_, hg3⟩, j4⟩

/-- The welcome of `0` for `1` with a tree of two members and six leaves that are blank, all of them sent. -/
def toyPadded : Res Welcome := do
  let (a, _) ← toyTwo
  let tree := a.vtree ++ List.replicate 12 none
  let treeHash ← computeRootTreeHash toyPrims 1 tree
  let ctx := { a.group.groupContext with treeHash }
  let psk ← extractPSKSecret toyPrims 1 [] []
  let joinerSecret := List.replicate 32 5
  let es ← ctx.extractEpochSecret toyPrims joinerSecret (some psk)
  let confirmationTag ← ctx.signConfirmationTag toyPrims es
  let rawTree ← (writeVector encOptNode tree : Res Bytes)
  let info : GroupInfo := { groupContext := ctx, extensions := [{ ty := 2, data := rawTree }], confirmationTag, signer := 0, signature := [] }
  let info ← info.sign toyPrims [11, 0] []
  let encryptedGroupInfo ← info.encrypt toyPrims joinerSecret psk
  let gs : GroupSecrets := { joinerSecret, pathSecret := none, psks := [] }
  let secrets ← encryptSecretsLoop toyPrims 1 gs encryptedGroupInfo (fun _ => []) 0 [(toyMember 1).pub]
  return { cipherSuite := 1, secrets, encryptedGroupInfo }

/-- C77 is false for groups that were joined: a welcome is accepted whose tree has a right half that is blank. What the member then sends of the
tree is not read back as that tree, and everyone they invite is refused, at any time. -/
theorem C77_refuted : ∃ w st raw w2 raw2, groupFromWelcome toyPrims w (toyMember 1) toyLater = .ok st ∧ ¬ Spec.SnugTree st.vtree ∧
    encTree st.vtree = .ok raw ∧ unmarshal decTree raw ≠ .ok st.vtree ∧
    (createWelcome toyPrims st [(toyMember 2).pub] default).1 = .ok (w2, raw2) ∧
    groupFromWelcome toyPrims w2 (toyMember 2) toyLater = .err ∧ groupFromWelcome toyPrims w2 (toyMember 2) default = .err := by
  have key : toyPadded.holds (fun w => (groupFromWelcome toyPrims w (toyMember 1) toyLater).holds fun st =>
      (encTree st.vtree).holds (fun raw => decide (unmarshal decTree raw ≠ .ok st.vtree)) &&
      (createWelcome toyPrims st [(toyMember 2).pub] default).1.holds fun (w2, raw2) =>
        decide (groupFromWelcome toyPrims w2 (toyMember 2) toyLater = .err) && decide (groupFromWelcome toyPrims w2 (toyMember 2) default = .err)) = true := by
    decide +kernel
  obtain ⟨w, -, key⟩ := Res.holds_ok key
  obtain ⟨st, hst, key⟩ := Res.holds_ok key
  rw [Bool.and_eq_true] at key
  obtain ⟨raw, hraw, k1⟩ := Res.holds_ok key.1
  obtain ⟨⟨w2, raw2⟩, hw2, k2⟩ := Res.holds_ok key.2
  simp only [Bool.and_eq_true, decide_eq_true_eq] at k2
  have k1 := of_decide_eq_true k1
  exact ⟨w, st, raw, w2, raw2, hst, fun hs => k1 (C77_sent hs hraw), hraw, k1, hw2, k2.1, k2.2⟩

end Mls
