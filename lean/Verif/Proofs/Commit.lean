import Verif.Proofs.Removed
import Verif.Props.Confirmation
import Verif.Props.Schedule
import Verif.Spec.Commit
/-
What an accepted commit derives.
-/
namespace Mls

open Spec (Ratchet nodeAt IsAncestor)

variable {pr : Prims}

theorem lblJoiner_name : lblPrefix ++ lblJoiner = Spec.ascii ("MLS 1.0 " ++ "joiner") := by decide
theorem lblEpoch_name : lblPrefix ++ lblEpoch = Spec.ascii ("MLS 1.0 " ++ "epoch") := by decide
theorem lblInit_name : lblPrefix ++ lblInit = Spec.ascii ("MLS 1.0 " ++ "init") := by decide
theorem lblPath_name : lblPrefix ++ lblPath = Spec.ascii ("MLS 1.0 " ++ "path") := by decide
theorem lblNode_name : lblPrefix ++ lblNode = Spec.ascii ("MLS 1.0 " ++ "node") := by decide

theorem expandWithLabel_ok {cs : UInt16} {d : SuiteDesc} (hd : suite cs = .ok d) {secret context x : Bytes}
    {label : Bytes} {name : String} (hl : lblPrefix ++ label = Spec.ascii ("MLS 1.0 " ++ name))
    (hs : label.length < 2 ^ 20) (h : expandWithLabel pr cs secret label context d.nh = .ok x) :
    x = Spec.expandWithLabel pr d secret name context d.kdf.size := by
  have hsz := (suite_sizes hd).1
  have hb : context.length < 2 ^ 30 := by
    unfold expandWithLabel at h
    simp only [Res.bind_ok_iff] at h
    obtain ⟨y, hy, _⟩ := h
    unfold encKdfLabel at hy
    rw [Enc.append_ok_iff] at hy
    obtain ⟨_, y2, _, hy2, _⟩ := hy
    exact writeOpaqueVec_bound hy2
  rw [expandWithLabel_eq hd _ _ hl hs hb _ (by omega), hsz] at h
  exact (Res.ok.inj h).symm

theorem joiner_ok {ctx : GroupContext} {d : SuiteDesc} (hd : suite ctx.cipherSuite = .ok d) {i c x : Bytes}
    (h : ctx.extractJoinerSecret pr i c = .ok x) : ∃ raw, ctx.enc = .ok raw ∧ x = Spec.joinerSecret pr d i c raw := by
  unfold GroupContext.extractJoinerSecret at h
  rw [hd] at h
  simp only [Res.ok_bind, Res.bind_ok_iff] at h
  obtain ⟨raw, h1, h2⟩ := h
  exact ⟨raw, h1, expandWithLabel_ok hd lblJoiner_name (by decide) h2⟩

theorem epoch_ok {ctx : GroupContext} {d : SuiteDesc} (hd : suite ctx.cipherSuite = .ok d) {j p x : Bytes}
    (h : ctx.extractEpochSecret pr j (some p) = .ok x) : ∃ raw, ctx.enc = .ok raw ∧ x = Spec.epochSecret pr d j p raw := by
  unfold GroupContext.extractEpochSecret at h
  rw [hd] at h
  simp only [Res.ok_bind, Res.bind_ok_iff] at h
  obtain ⟨raw, h1, h2⟩ := h
  exact ⟨raw, h1, expandWithLabel_ok hd lblEpoch_name (by decide) h2⟩

/-- The state of the key schedule of a group. -/
def Group.keyState (g : Group) : Spec.Epoch := ⟨g.groupContext, g.interimTranscriptHash, g.epochSecret, g.initSecret⟩

/-- The key schedule after a commit, given the commit secret. -/
theorem finishCommit_next {g : Group} {h : Heap} {t : RTree} {a : AuthenticatedContent} {c : Commit}
    {ids : List PreSharedKeyID} {psks : List Bytes} {now : GoTime} {st' : GroupState} {sd : SuiteDesc}
    (hsd : suite g.groupContext.cipherSuite = .ok sd)
    (hf : finishCommit pr g h t a c ids psks now = .ok st') :
    ∃ th sec input raw, computeRootTreeHash pr g.groupContext.cipherSuite st'.vtree = .ok th ∧
      encConfirmedTranscriptHashInput a.wireFormat a.content a.auth.signature = .ok input ∧
      extractPSKSecret pr g.groupContext.cipherSuite ids psks = .ok st'.group.pskSecret ∧
      Spec.NextEpoch pr sd g.keyState st'.group.keyState th sec st'.group.pskSecret input a.auth.confirmationTag raw ∧
      ((c.path = none ∧ sec = List.replicate sd.kdf.size 0) ∨
        ∃ path pt, c.path = some path ∧ copyPrivTree g.privTree g.tree.length t.length = .ok pt ∧
          commitPath pr g.groupContext { g.groupContext with epoch := g.groupContext.epoch + 1 } h t
            a.content.sender.leafIndex g.myLeafIndex pt path now =
              .ok (st'.heap, st'.group.tree,
                { g.groupContext with epoch := g.groupContext.epoch + 1, treeHash := th }, st'.group.privTree, sec)) := by
  unfold finishCommit at hf
  simp only [Res.bind_ok_iff] at hf
  obtain ⟨pt, h1, d, h2, ⟨h3, t3, ctx3, pt3, cs3⟩, hp, cth, hcth, itm, hitm, js, hjs, psk, hpsk, es, hes, is, his, he⟩ := hf
  cases he
  rw [hsd] at h2
  cases h2
  have hctx : ∃ th, computeRootTreeHash pr g.groupContext.cipherSuite (derefTree h3 t3) = .ok th ∧
      ctx3 = { g.groupContext with epoch := g.groupContext.epoch + 1, treeHash := th } ∧
      ((c.path = none ∧ cs3 = List.replicate sd.kdf.size 0) ∨ ∃ path, c.path = some path ∧
        commitPath pr g.groupContext { g.groupContext with epoch := g.groupContext.epoch + 1 } h t
            a.content.sender.leafIndex g.myLeafIndex pt path now = .ok (h3, t3, ctx3, pt3, cs3)) := by
    cases hcp : c.path with
    | none =>
      rw [hcp] at hp
      simp only [Res.bind_ok_iff] at hp
      obtain ⟨th, hth, he⟩ := hp
      cases he
      exact ⟨th, hth, rfl, .inl ⟨rfl, rfl⟩⟩
    | some path =>
      rw [hcp] at hp
      obtain ⟨_, th, _, _, hth, rfl, _⟩ := commitPath_ok hp
      exact ⟨th, hth, rfl, .inr ⟨path, rfl, hp⟩⟩
  obtain ⟨th, hth, rfl, hsec⟩ := hctx
  unfold confirmedTranscriptHash at hcth
  rw [hsd] at hcth
  simp only [Res.bind_ok_iff, Res.ok_bind] at hcth
  obtain ⟨input, hin, hcth⟩ := hcth
  have hcth := Res.ok.inj hcth
  obtain ⟨d', hd', hbound, hitm⟩ := nextInterim_ok hitm
  rw [hsd] at hd'
  cases hd'
  obtain ⟨raw, hraw, rfl⟩ := joiner_ok (ctx := { g.groupContext with
    epoch := g.groupContext.epoch + 1, treeHash := th, confirmedTranscriptHash := cth }) (d := sd) hsd hjs
  obtain ⟨raw', hraw', rfl⟩ := epoch_ok (ctx := { g.groupContext with
    epoch := g.groupContext.epoch + 1, treeHash := th, confirmedTranscriptHash := cth }) (d := sd) hsd hes
  rw [hraw] at hraw'
  cases hraw'
  rw [deriveSecret_eq hsd _ lblInit_name (by decide)] at his
  have his := Res.ok.inj his
  refine ⟨th, cs3, input, raw, hth, hin, hpsk, ⟨?_, context_some.2 hraw, hitm, rfl, his.symm, hbound⟩, ?_⟩
  · simp only [Group.keyState]
    rw [← hcth]
    rfl
  · rcases hsec with h | ⟨path, hpath, h⟩
    · exact .inl h
    · exact .inr ⟨path, pt, hpath, h1, h⟩

/-! ### Path secrets -/

theorem nodePriv_iff (hc : pr.Correct) {cs : UInt16} {sd : SuiteDesc} (hsd : suite cs = .ok sd) {ps pub priv : Bytes} :
    nodePrivFromPathSecret pr cs ps pub = .ok priv ↔
      sd.kem.seedSize = sd.kdf.size ∧ Spec.nodeKeys pr sd ps = (pub, priv) := by
  have hlen : (Spec.deriveSecret pr sd ps "node").length = sd.kdf.size := hc.expand_length _ _ _ _ (expandable_secret _)
  unfold nodePrivFromPathSecret deriveEncryptionKeyPair
  rw [deriveSecret_eq hsd _ lblNode_name (by decide), hsd]
  simp only [Res.ok_bind, hlen]
  by_cases hs : sd.kem.seedSize = sd.kdf.size
  · rw [if_neg (fun hn => hn hs.symm)]
    simp only [Res.pure_eq, Res.ok_bind]
    rcases hk : pr.kemDeriveKeyPair sd.kem (Spec.deriveSecret pr sd ps "node") with ⟨a, b⟩
    simp only [Spec.nodeKeys, hk, Prod.mk.injEq, hs, true_and]
    by_cases hp : a = pub
    · rw [if_pos hp]; simp [hp]
    · rw [if_neg hp]; simp [hp]
  · rw [if_pos (fun hn => hs hn.symm)]
    constructor
    · intro h; simp [Bind.bind, Res.bind] at h
    · exact fun h => absurd h.1 hs

theorem pathSecret_succ' (sd : SuiteDesc) (ps : Bytes) (n : Nat) :
    Spec.pathSecret pr sd (Spec.deriveSecret pr sd ps "path") n = Spec.pathSecret pr sd ps (n + 1) := by
  induction n with
  | zero => rfl
  | succ n ih => rw [Spec.pathSecret, ih]; rfl

theorem pathSecret_add (sd : SuiteDesc) (ps : Bytes) (m n : Nat) :
    Spec.pathSecret pr sd (Spec.pathSecret pr sd ps m) n = Spec.pathSecret pr sd ps (m + n) := by
  induction n with
  | zero => rfl
  | succ n ih => rw [Spec.pathSecret, ih]; rfl

/-- The loop up the path: every node has the key pair of its path secret. -/
theorem pathSecretLoop_secrets (hc : pr.Correct) {cs : UInt16} {sd : SuiteDesc} (hsd : suite cs = .ok sd) {t : VTree} :
    ∀ (xs : List Nat) (ps : Bytes) (pt : List (Option Bytes)) (ps' : Bytes) (pt' : List (Option Bytes)),
      pathSecretLoop pr cs t xs ps pt = .ok (ps', pt') → xs.Nodup →
      ps' = Spec.pathSecret pr sd ps xs.length ∧ ∀ n x, xs[n]? = some x → ∃ node, nodeAt t x = some node ∧
        (node.encryptionKey, pt'[x]?) =
          ((Spec.nodeKeys pr sd (Spec.pathSecret pr sd ps (n + 1))).1,
            some (some (Spec.nodeKeys pr sd (Spec.pathSecret pr sd ps (n + 1))).2)) := by
  intro xs
  induction xs with
  | nil =>
    intro ps pt ps' pt' h _
    simp only [pathSecretLoop] at h
    cases h
    exact ⟨rfl, by simp⟩
  | cons x xs ih =>
    intro ps pt ps' pt' h hnd
    simp only [pathSecretLoop, Res.bind_ok_iff] at h
    obtain ⟨ps1, h1, pub, h2, priv, h3, pt1, h4, h⟩ := h
    rw [deriveSecret_eq hsd _ lblPath_name (by decide)] at h1
    cases h1
    rw [Res.setIdx_ok_iff] at h4
    obtain ⟨hlt, rfl⟩ := h4
    rw [List.nodup_cons] at hnd
    obtain ⟨e1, e2⟩ := ih _ _ _ _ h hnd.2
    obtain ⟨nd, hn, rfl⟩ := nodeKey_ok h2
    refine ⟨by rw [e1, pathSecret_succ']; rfl, fun n y hy => ?_⟩
    cases n with
    | zero =>
      simp only [List.getElem?_cons_zero, Option.some.injEq] at hy
      subst hy
      refine ⟨nd, hn, ?_⟩
      rw [(pathSecretLoop_ok _ _ _ _ _ h).2.2 _ hnd.1, List.getElem?_set_self hlt]
      have := ((nodePriv_iff hc hsd).1 h3).2
      rw [Spec.pathSecret, Spec.pathSecret, this]
    | succ n =>
      simp only [List.getElem?_cons_succ] at hy
      obtain ⟨nd', h1, h2⟩ := e2 n y hy
      exact ⟨nd', h1, by rw [h2, pathSecret_succ']⟩

/-- What the receiver of an update path learns: the path secret `ps` of the node where its leaf and that of the committer
meet, the `e`-th of the filtered direct path `F`, from a ciphertext for a key it holds; and from it the key pairs of the
nodes above, and the commit secret. -/
structure PathSecrets (pr : Prims) (sd : SuiteDesc) (v : VTree) (ctx : GroupContext) (F : List Nat) (i r : Nat)
    (path : UpdatePath) (pt pt' : List (Option Bytes)) (sec : Bytes) (m e : Nat) (ps : Bytes) : Prop where
  length : path.nodes.length = F.length
  pos : F[e]? = some (idx m (i / 2 ^ m))
  meet : i / 2 ^ m = r / 2 ^ m
  apart : 0 < m ∧ i / 2 ^ (m - 1) ≠ r / 2 ^ (m - 1)
  commit : sec = Spec.pathSecret pr sd ps (F.length - e)
  node : ∀ n x, F[e + n]? = some x → ∃ nd, nodeAt v x = some nd ∧ (nd.encryptionKey, pt'[x]?) =
    ((Spec.nodeKeys pr sd (Spec.pathSecret pr sd ps n)).1, some (some (Spec.nodeKeys pr sd (Spec.pathSecret pr sd ps n)).2))
  size : pt'.length = pt.length
  rest : ∀ x, x ∉ F.drop e → pt'[x]? = pt[x]?
  opened : ∃ (res : List Nat) (pn : UpdatePathNode) (j x : Nat) (k : Bytes) (ct : HpkeCiphertext), resolve v (idx (m - 1) (r / 2 ^ (m - 1))) = .ok res ∧ path.nodes[e]? = some pn ∧
    pn.encryptedPathSecret.length = res.length ∧ res[j]? = some x ∧ pt[x]? = some (some k) ∧
    (∀ j' x', j' < j → res[j']? = some x' → pt[x']? = some none) ∧
    pn.encryptedPathSecret[j]? = some ct ∧ decryptPathSecret pr ctx.cipherSuite k ctx ct = .ok ps

theorem findPriv_first {pt : List (Option Bytes)} : ∀ (xs : List Nat) (i j : Nat) (k : Bytes),
    findPriv pt i xs = .ok (some (j, k)) → ∃ n x, j = i + n ∧ xs[n]? = some x ∧ pt[x]? = some (some k) ∧
      ∀ n' x', n' < n → xs[n']? = some x' → pt[x']? = some none := by
  intro xs
  induction xs with
  | nil => intro i j k h; simp [findPriv] at h
  | cons x xs ih =>
    intro i j k h
    simp only [findPriv, Res.bind_ok_iff, Res.idx_ok_iff] at h
    obtain ⟨o, h1, h⟩ := h
    cases o with
    | none =>
      obtain ⟨n, y, e1, e2, e3, e4⟩ := ih _ _ _ h
      refine ⟨n + 1, y, by omega, by simpa using e2, e3, fun n' x' hn hx => ?_⟩
      cases n' with
      | zero =>
        simp only [List.getElem?_cons_zero, Option.some.injEq] at hx
        rw [← hx]
        exact h1
      | succ n' => exact e4 n' x' (by omega) (by simpa using hx)
    | some p =>
      cases h
      exact ⟨0, x, rfl, rfl, h1, fun n' x' hn => by omega⟩

theorem decryptPathSecrets_secrets (hc : pr.Correct) {sd : SuiteDesc} {ctx : GroupContext}
    (hsd : suite ctx.cipherSuite = .ok sd) {d i r : Nat} (hd : d ≤ 31)
    (hi : i < 2 ^ d) (hr : r < 2 ^ 31) {s : Ratchet ParentNode d} {path : UpdatePath} {pt pt' : List (Option Bytes)} {sec : Bytes}
    (hok : decryptPathSecrets pr ctx.cipherSuite (s.flat .leaf .parent) ctx i r path pt = .ok (sec, pt')) :
    ∃ m e ps, PathSecrets pr sd (s.flat .leaf .parent) ctx (s.filteredPath 0 i) i r path pt pt' sec m e ps := by
  obtain ⟨m, hread⟩ := decryptPathSecrets_ok hd hi hr hok
  have h31 : i < 2 ^ 31 := Nat.lt_of_lt_of_le hi (Nat.pow_le_pow_right (by decide) hd)
  obtain ⟨m', hmeet, hmin, hca⟩ := commonAncestor_leaves h31 hr
  have hmm : m = m' := by
    have h1 := hmin _ hread.meet
    rcases Nat.lt_or_ge m' m with hlt | hge
    · exact absurd (div_pow_congr hmeet (by omega)) hread.apart
    · omega
  subst hmm
  unfold decryptPathSecrets at hok
  simp only [Res.bind_ok_iff] at hok
  obtain ⟨fdp, hf, _, hlen, hok⟩ := hok
  rw [nodeOfLeaf_idx h31, filteredDirectPath_spec hd hi] at hf
  cases hf
  rw [Res.guardErr_ok_iff, beq_iff_eq] at hlen
  rw [nodeOfLeaf_idx h31, nodeOfLeaf_idx hr, hca] at hok
  cases hpos : List.idxOf? (idx m (i / 2 ^ m)) (s.filteredPath 0 i) with
  | none => rw [hpos] at hok; cases hok
  | some e =>
    rw [hpos] at hok
    simp only [Res.bind_ok_iff] at hok
    obtain ⟨pn, hpn, cop, hcop, res, hres, _, hrl, found, hfound, hok⟩ := hok
    cases found with
    | none => cases hok
    | some a =>
      obtain ⟨j, k⟩ := a
      simp only [Res.bind_ok_iff] at hok
      obtain ⟨ct, hct, ps, hps, pub, hpub, np, hnp, pt1, hset, ⟨ps', pt2⟩, hloop, sec', hsec, he⟩ := hok
      cases he
      rw [Res.setIdx_ok_iff] at hset
      obtain ⟨hlt, rfl⟩ := hset
      rw [List.idxOf?, List.findIdx?_eq_some_iff_getElem] at hpos
      obtain ⟨he, heq, _⟩ := hpos
      simp only [beq_iff_eq] at heq
      have hnd := filteredPath_nodup (s := s) (i := i) (j := 0) (Nat.div_eq_of_lt hi)
      rw [Nat.zero_mul, Nat.zero_mul, Nat.sub_zero] at hnd
      have hnd2 : ((s.filteredPath 0 i).drop (e + 1)).Nodup := hnd.sublist (List.drop_sublist _ _)
      obtain ⟨l1, l2⟩ := pathSecretLoop_secrets hc hsd _ _ _ _ _ hloop hnd2
      obtain ⟨n, hn, rfl⟩ := nodeKey_ok hpub
      rw [deriveSecret_eq hsd _ lblPath_name (by decide)] at hsec
      have hsec := Res.ok.inj hsec
      obtain ⟨j', x, hj, hx, hk, hfirst⟩ := findPriv_first _ _ _ _ hfound
      rw [Nat.zero_add] at hj
      subst hj
      rw [Res.idx_ok_iff] at hpn hct
      rw [Res.guardErr_ok_iff, beq_iff_eq] at hrl
      refine ⟨m, e, ps, hlen, by rw [List.getElem?_eq_getElem he, heq], hread.meet, ⟨hread.pos, hread.apart⟩, ?_,
        fun n' x' hx' => ?_, hread.length, fun y hy => ?_, res, pn, j, x, k, ct, ?_, hpn, hrl, hx, hk, hfirst, hct, hps⟩
      · rw [← hsec, l1, List.length_drop]
        rw [show (s.filteredPath 0 i).length - e = (s.filteredPath 0 i).length - (e + 1) + 1 from by omega]
        rfl
      · cases n' with
        | zero =>
          rw [Nat.add_zero, List.getElem?_eq_getElem he, heq] at hx'
          cases hx'
          refine ⟨n, hn, ?_⟩
          have hnot : idx m (i / 2 ^ m) ∉ (s.filteredPath 0 i).drop (e + 1) := by
            have h := hnd.sublist (List.drop_sublist e _)
            rw [List.drop_eq_getElem_cons he, heq, List.nodup_cons] at h
            exact h.1
          rw [(pathSecretLoop_ok _ _ _ _ _ hloop).2.2 _ hnot, List.getElem?_set_self hlt, Spec.pathSecret,
            ((nodePriv_iff hc hsd).1 hnp).2]
        | succ n' =>
          exact l2 n' x' (by rw [List.getElem?_drop, ← hx']; congr 1; omega)
      · rw [List.drop_eq_getElem_cons he, heq, List.mem_cons, not_or] at hy
        rw [(pathSecretLoop_ok _ _ _ _ _ hloop).2.2 _ hy.2, List.getElem?_set_ne (Ne.symm hy.1)]
      · rw [Res.deref_ok_iff] at hcop
        obtain ⟨e', rfl⟩ : ∃ e', m = e' + 1 := ⟨m - 1, by have := hread.pos; omega⟩
        have hapart := hread.apart
        have hmd := hread.le
        rw [Nat.add_sub_cancel] at hapart ⊢
        have hb : idx (e' + 1) (i / 2 ^ (e' + 1)) < 2 ^ (d + 1) - 1 := by
          have : Below d 0 (e' + 1) (i / 2 ^ (e' + 1)) := ⟨hmd, by
            rw [Nat.div_div_eq_div_mul, ← Nat.pow_add, show e' + 1 + (d - (e' + 1)) = d from by omega]
            exact Nat.div_eq_of_lt hi⟩
          exact this.lt
        have hlt32 : idx (e' + 1) (i / 2 ^ (e' + 1)) < 2 ^ 32 := by
          have := pow_tree_lt hd
          omega
        have hi2 : i / 2 ^ (e' + 1) = i / 2 ^ e' / 2 := by rw [Nat.pow_succ, ← Nat.div_div_eq_div_mul]
        have hr2 : r / 2 ^ (e' + 1) = r / 2 ^ e' / 2 := by rw [Nat.pow_succ, ← Nat.div_div_eq_div_mul]
        have hcn : cop = idx e' (r / 2 ^ e') := by
          rw [left_idx hlt32, right_idx (by omega)] at hcop
          by_cases hri : idx 0 r < idx 0 i
          · rw [if_pos hri] at hcop
            rw [idx_zero, idx_zero] at hri
            have : r / 2 ^ e' ≤ i / 2 ^ e' := Nat.div_le_div_right (by omega)
            rw [← Option.some.inj hcop]
            congr 1
            omega
          · rw [if_neg hri] at hcop
            rw [idx_zero, idx_zero] at hri
            have : i / 2 ^ e' ≤ r / 2 ^ e' := Nat.div_le_div_right (by omega)
            rw [← Option.some.inj hcop]
            congr 1
            omega
        rw [← hcn]
        exact hres

/-- Two receivers of one path, which see the same tree, get the same commit secret, or their path secrets collide. -/
theorem PathSecrets.agree {sd : SuiteDesc} {v : VTree} {ctx ctx2 : GroupContext} {F : List Nat} {i r r2 : Nat} {path : UpdatePath}
    {pt pt' pt2 pt2' : List (Option Bytes)} {sec sec2 : Bytes} {m m2 e e2 : Nat} {ps ps2 : Bytes}
    (h : PathSecrets pr sd v ctx F i r path pt pt' sec m e ps) (h2 : PathSecrets pr sd v ctx2 F i r2 path pt2 pt2' sec2 m2 e2 ps2) :
    sec = sec2 ∨ ∃ n n2, n ≤ path.nodes.length ∧ n2 ≤ path.nodes.length ∧
      Spec.pathSecret pr sd ps n ≠ Spec.pathSecret pr sd ps2 n2 ∧
      (Spec.nodeKeys pr sd (Spec.pathSecret pr sd ps n)).1 = (Spec.nodeKeys pr sd (Spec.pathSecret pr sd ps2 n2)).1 := by
  have key : ∀ {ctx ctx2 : GroupContext} {r r2 : Nat} {pt pt' pt2 pt2' : List (Option Bytes)} {sec sec2 : Bytes} {m m2 e e2 : Nat}
      {ps ps2 : Bytes}, PathSecrets pr sd v ctx F i r path pt pt' sec m e ps →
      PathSecrets pr sd v ctx2 F i r2 path pt2 pt2' sec2 m2 e2 ps2 → e ≤ e2 →
      sec = sec2 ∨ ∃ n n2, n ≤ path.nodes.length ∧ n2 ≤ path.nodes.length ∧
      Spec.pathSecret pr sd ps n ≠ Spec.pathSecret pr sd ps2 n2 ∧
      (Spec.nodeKeys pr sd (Spec.pathSecret pr sd ps n)).1 = (Spec.nodeKeys pr sd (Spec.pathSecret pr sd ps2 n2)).1 := by
    intro ctx ctx2 r r2 pt pt' pt2 pt2' sec sec2 m m2 e e2 ps ps2 h h2 hle
    by_cases hp : Spec.pathSecret pr sd ps (e2 - e) = ps2
    · left
      have hl := (List.getElem?_eq_some_iff.1 h2.pos).1
      rw [h.commit, h2.commit, ← hp, pathSecret_add]
      congr 1
      omega
    · right
      have hl := (List.getElem?_eq_some_iff.1 h2.pos).1
      refine ⟨e2 - e, 0, by rw [h.length]; omega, Nat.zero_le _, hp, ?_⟩
      obtain ⟨n1, a1, b1⟩ := h.node (e2 - e) (idx m2 (i / 2 ^ m2)) (by rw [← h2.pos]; congr 1; omega)
      obtain ⟨n2, a2, b2⟩ := h2.node 0 (idx m2 (i / 2 ^ m2)) (by rw [← h2.pos]; rfl)
      rw [a1] at a2
      cases a2
      rw [← (Prod.mk.inj b1).1, (Prod.mk.inj b2).1]
  rcases Nat.le_total e e2 with hle | hle
  · exact key h h2 hle
  · rcases key h2 h hle with he | ⟨p, q, h1, h2, h3, h4⟩
    · exact .inl he.symm
    · exact .inr ⟨q, p, h2, h1, Ne.symm h3, h4.symm⟩

end Mls
