import Verif.Props.LeftBehind
import Verif.Props.Commit
/-
Property C113: what UnmarshalAndProcessMessage does, completely: the answer and the state afterwards, of every message in every state.
-/
namespace Mls

open Spec (Ratchet nodeAt)

variable {pr : Prims}

/-! ### The state of a member, without the pointers -/

/-- What a member knows of its group. -/
structure Spec.View where
  nodes : VTree
  context : GroupContext
  interim : Bytes
  pskSecret : Bytes
  epochSecret : Bytes
  initSecret : Bytes
  my : UInt32
  keys : List (Option Bytes)
  signaturePriv : Bytes
  pending : List PendingProposal
  deriving DecidableEq

/-- What the member with the state `st` knows. -/
def GroupState.view (st : GroupState) : Spec.View where
  nodes := st.vtree
  context := st.group.groupContext
  interim := st.group.interimTranscriptHash
  pskSecret := st.group.pskSecret
  epochSecret := st.group.epochSecret
  initSecret := st.group.initSecret
  my := st.group.myLeafIndex
  keys := st.group.privTree
  signaturePriv := st.group.signaturePriv
  pending := st.group.pendingProposals

/-- What comes of a message: an answer (data, or none) and what the member then knows; or an error; or a panic; or nothing, ever. -/
inductive Spec.Outcome where
  | done (answer : Option Bytes) (after : Spec.View)
  | refused (after : Spec.View)
  | panics
  | endless
  deriving DecidableEq

/-- The outcome of a call. -/
def Spec.outcomeOf (x : Res (Option Bytes) × GroupState) : Spec.Outcome :=
  match x.1 with
  | .ok r => .done r x.2.view
  | .err => .refused x.2.view
  | .panic => .panics
  | .hang => .endless

/-! ### The specification -/

/-- The message `raw` parses, is of the group and the epoch and authentic, and carries `a`; `e`: it came encrypted. -/
def Spec.Came (pr : Prims) (sd : SuiteDesc) (st : GroupState) (d0 : Nat) (raw : Bytes) (a : AuthenticatedContent) (e : Bool) : Prop :=
  (∃ v m, unmarshal MlsMessage.dec raw = .ok ⟨v, .publicMessage m⟩ ∧ Spec.PublicOk pr st m a ∧ e = false) ∨
  (∃ v m, unmarshal MlsMessage.dec raw = .ok ⟨v, .privateMessage m⟩ ∧ Spec.PrivateOk pr sd st d0 m a ∧ e = true)

/-- The private keys of the nodes still in a tree of `n` nodes. -/
def Spec.keptKeys (keys : List (Option Bytes)) (n : Nat) : List (Option Bytes) := (List.range n).map fun x => (keys[x]?).join

/-- RFC 9420 section 7.4: the private keys after a path; `ps` is the path secret of the `e`-th node of the filtered direct path `F`, and all
nodes of the path from there on get the keys of their path secrets. -/
def Spec.pathKeys (pr : Prims) (sd : SuiteDesc) (F : List Nat) (e : Nat) (ps : Bytes) (keys : List (Option Bytes)) : List (Option Bytes) :=
  keys.mapIdx fun x k => match (F.drop e).idxOf? x with
    | some n => some (Spec.nodeKeys pr sd (Spec.pathSecret pr sd ps n)).2
    | none => k

/-- The commit secret `sec`, and the private keys after the commit. `s'`: the tree after it; `th`: its tree hash. -/
def Spec.CommitKeys (pr : Prims) (sd : SuiteDesc) (v : Spec.View) (sender : UInt32) (path : Option UpdatePath) {d : Nat} (s' : Ratchet ParentNode d)
    (th sec : Bytes) (keys : List (Option Bytes)) : Prop :=
  match path with
  | none => sec = List.replicate sd.kdf.size 0 ∧ keys = Spec.keptKeys v.keys (2 ^ (d + 1) - 1)
  | some path => ∃ provisional e ps,
      (Spec.Rfc.groupContext { v.context with epoch := v.context.epoch + 1, treeHash := th }).bytes = some provisional ∧
      Spec.PathReadable pr sd s' provisional (sender.toNat % 2 ^ 31) v.my.toNat path (v.keys.take (2 ^ (d + 1) - 1)) e ps ∧
      sec = Spec.pathSecret pr sd ps ((s'.filteredPath 0 (sender.toNat % 2 ^ 31)).length - e) ∧
      keys = Spec.pathKeys pr sd (s'.filteredPath 0 (sender.toNat % 2 ^ 31)) e ps (Spec.keptKeys v.keys (2 ^ (d + 1) - 1))

/-- The commit `c` that came with `a` is good, and after it the member knows `v'`. -/
def Spec.Committed (pr : Prims) (sd : SuiteDesc) (v : Spec.View) (now : GoTime) {d0 : Nat} (s0 : Ratchet ParentNode d0)
    (a : AuthenticatedContent) (c : Commit) (v' : Spec.View) : Prop :=
  ∃ (l : List (Proposal × UInt32)) (d : Nat) (s s' : Ratchet ParentNode d) (th input raw sec : Bytes) (keys : List (Option Bytes)),
    Spec.CommitOk pr sd v.context v.interim v.pending now s0 v.my.toNat v.keys a c l s s' th input raw ∧
    Spec.CommitKeys pr sd v a.content.sender.leafIndex c.path s' th sec keys ∧
    v' = { v with
      nodes := s'.flat .leaf .parent
      context := { v.context with
        epoch := v.context.epoch + 1, treeHash := th, confirmedTranscriptHash := Spec.confirmedHash pr sd v.interim input }
      interim := Spec.interimHash pr sd (Spec.confirmedHash pr sd v.interim input) a.auth.confirmationTag
      pskSecret := List.replicate sd.kdf.size 0
      epochSecret := Spec.epochSecret pr sd (Spec.joinerSecret pr sd v.initSecret sec raw) (List.replicate sd.kdf.size 0) raw
      initSecret := Spec.deriveSecret pr sd
        (Spec.epochSecret pr sd (Spec.joinerSecret pr sd v.initSecret sec raw) (List.replicate sd.kdf.size 0) raw) "init"
      keys := keys
      pending := [] }

/-- The message is accepted (C105). -/
def Spec.Accepts (pr : Prims) (sd : SuiteDesc) (st : GroupState) (now : GoTime) {d0 : Nat} (s0 : Ratchet ParentNode d0) (raw : Bytes) : Prop :=
  ∃ a e, Spec.Came pr sd st d0 raw a e ∧ Spec.ContentOk pr sd st.group now s0 a (e = true)

/-- The message makes the member panic (C108). -/
def Spec.Crashes (pr : Prims) (sd : SuiteDesc) (st : GroupState) {d0 : Nat} (s0 : Ratchet ParentNode d0) (raw : Bytes) : Prop :=
  (∃ v m, unmarshal MlsMessage.dec raw = .ok ⟨v, .publicMessage m⟩ ∧ Spec.PublicCrash pr st m) ∨
  (∃ v m, unmarshal MlsMessage.dec raw = .ok ⟨v, .privateMessage m⟩ ∧ Spec.PrivateCrash pr sd st d0 m) ∨
  ∃ a e c, Spec.Came pr sd st d0 raw a e ∧ a.content.content = .commit c ∧
    Spec.CommitCrash pr st.group.groupContext st.group.pendingProposals s0 a.content.sender.leafIndex c

/-- The message keeps the member busy for ever (C108). -/
def Spec.Endless (pr : Prims) (sd : SuiteDesc) (st : GroupState) {d0 : Nat} (s0 : Ratchet ParentNode d0) (raw : Bytes) : Prop :=
  ∃ a e c, Spec.Came pr sd st d0 raw a e ∧ a.content.content = .commit c ∧
    Spec.CommitEndless pr st.group.groupContext st.group.pendingProposals s0 a.content.sender.leafIndex c

/-- What comes of the message `raw` at the time `now`. `s0` is the tree of the member. -/
inductive Spec.Processed (pr : Prims) (sd : SuiteDesc) (st : GroupState) (now : GoTime) {d0 : Nat} (s0 : Ratchet ParentNode d0) (raw : Bytes) :
    Spec.Outcome → Prop
  /-- Application data that came encrypted: they are the answer, and nothing changes. -/
  | data {a : AuthenticatedContent} {data : Bytes} : Spec.Came pr sd st d0 raw a true → a.content.content = .application data →
      Spec.Processed pr sd st now s0 raw (.done (some data) st.view)
  /-- A proposal: it is put at the end of the list of pending proposals, under its reference. -/
  | proposal {a : AuthenticatedContent} {e : Bool} {p : Proposal} {ref : Bytes} : Spec.Came pr sd st d0 raw a e → a.content.content = .proposal p →
      Spec.Rfc.refHash pr sd "MLS 1.0 Proposal Reference" (Spec.Rfc.authenticatedContent a) = some ref →
      Spec.Processed pr sd st now s0 raw (.done none { st.view with
        pending := st.view.pending ++ [{ ref, proposal := p, sender := a.content.sender.leafIndex }] })
  /-- A good commit. -/
  | commit {a : AuthenticatedContent} {e : Bool} {c : Commit} {v' : Spec.View} : Spec.Came pr sd st d0 raw a e → a.content.content = .commit c →
      Spec.Committed pr sd st.view now s0 a c v' → Spec.Processed pr sd st now s0 raw (.done none v')
  /-- A panic. -/
  | panics : Spec.Crashes pr sd st s0 raw → Spec.Processed pr sd st now s0 raw .panics
  /-- No end. -/
  | endless : Spec.Endless pr sd st s0 raw → Spec.Processed pr sd st now s0 raw .endless
  /-- Any other commit whose proposals can be applied: an error, and the unmerged leaves of C112 are left behind. -/
  | left {r : Option (Ratchet.Any ParentNode)} : ¬ Spec.Accepts pr sd st now s0 raw → ¬ Spec.Crashes pr sd st s0 raw → ¬ Spec.Endless pr sd st s0 raw →
      Spec.Proposes pr sd st s0 raw r →
      Spec.Processed pr sd st now s0 raw (.refused { st.view with nodes := Spec.leftBehind st.view.nodes (Spec.nodesOf r) })
  /-- Anything else: an error, and nothing changes. -/
  | refused : ¬ Spec.Accepts pr sd st now s0 raw → ¬ Spec.Crashes pr sd st s0 raw → ¬ Spec.Endless pr sd st s0 raw →
      (¬ ∃ r, Spec.Proposes pr sd st s0 raw r) → Spec.Processed pr sd st now s0 raw (.refused st.view)

/-! ### The keys after a path -/

theorem keptKeys_eq {pt pt' : List (Option Bytes)} {a b : Nat} (hl : pt.length = a) (h : copyPrivTree pt a b = .ok pt') :
    pt' = Spec.keptKeys pt b := by
  unfold copyPrivTree at h
  split at h
  · cases h
  · cases h
    apply List.ext_getElem (by simp [Spec.keptKeys]; omega)
    intro x h1 h2
    unfold Spec.keptKeys at h2 ⊢
    rw [List.length_map, List.length_range] at h2
    rw [List.getElem_map, List.getElem_range, List.getElem_append]
    split
    · next hx =>
      rw [List.getElem_take]
      rw [List.length_take] at hx
      rw [List.getElem?_eq_getElem (by omega)]
      rfl
    · next hx =>
      rw [List.length_take] at hx
      rw [List.getElem?_eq_none (by omega), List.getElem_replicate]
      rfl

theorem PathSecrets.readable {sd : SuiteDesc} {ctx : GroupContext} (hsd : suite ctx.cipherSuite = .ok sd)
    (hsz : sd.kem.seedSize = sd.kdf.size) {d i r : Nat} (hd : d ≤ 31)
    (hi : i < 2 ^ d) (hr : r < 2 ^ d) {s : Ratchet ParentNode d} {path : UpdatePath} {pt pt' : List (Option Bytes)} {sec : Bytes}
    {m e : Nat} {ps : Bytes} (h : PathSecrets pr sd (s.flat .leaf .parent) ctx (s.filteredPath 0 i) i r path pt pt' sec m e ps) :
    ∃ raw, ctx.enc = .ok raw ∧ Spec.PathReadable pr sd s raw i r path pt e ps := by
  have hne : i ≠ r := fun he => h.apart.2 (by rw [he])
  obtain ⟨res, pn, j, x, k, ct, h1, h2, h3, h4, h5, hf, h6, h7⟩ := h.opened
  obtain ⟨raw, hraw, hopen⟩ := decryptPathSecret_ok hsd h7
  refine ⟨raw, hraw, hsz, hr, hne, h.length, ?_, fun n x hx => ?_⟩
  · obtain ⟨m', res', g1, g2, g3, g4, g5, g6⟩ := meet_spec (t := s.flat .leaf .parent) (vflat_lt hd s) (at_flat _ _ s) hd
      (Nat.div_eq_of_lt hi) (Nat.div_eq_of_lt hr) hne
    obtain rfl := meet_level h.meet h.apart g3 ⟨g1, g4⟩
    rw [h1] at g6
    cases g6
    rw [Nat.zero_mul, Nat.zero_mul, Nat.sub_zero, Nat.sub_zero] at g5
    exact ⟨_, res, pn, j, x, k, ct, g5, h.pos, h2, h3, h4, h5, fun j' y' k' a b => by rw [hf j' y' a b]; simp, h6, hopen⟩
  · obtain ⟨q, e1, e2⟩ := h.node n x hx
    exact ⟨q, e1, by rw [← node_keyOf]; exact (Prod.mk.inj e2).1⟩

theorem PathSecrets.keys {sd : SuiteDesc} {v : VTree} {ctx : GroupContext} {F : List Nat} {i r : Nat} {path : UpdatePath}
    {pt pt' : List (Option Bytes)} {sec : Bytes} {m e : Nat} {ps : Bytes} (h : PathSecrets pr sd v ctx F i r path pt pt' sec m e ps) :
    pt' = Spec.pathKeys pr sd F e ps pt := by
  apply List.ext_getElem?
  intro x
  unfold Spec.pathKeys
  rw [List.getElem?_mapIdx]
  cases hn : (F.drop e).idxOf? x with
  | none =>
    rw [List.idxOf?_eq_none_iff] at hn
    rw [h.rest x hn]
    simp
  | some n =>
    rw [List.idxOf?, List.findIdx?_eq_some_iff_getElem] at hn
    obtain ⟨hlt, heq, _⟩ := hn
    simp only [beq_iff_eq] at heq
    have hx : F[e + n]? = some x := by
      rw [← List.getElem?_drop, List.getElem?_eq_getElem hlt, heq]
    obtain ⟨nd, _, hk⟩ := h.node n x hx
    have hk := (Prod.mk.inj hk).2
    have hb := (List.getElem?_eq_some_iff.1 hk).1
    rw [h.size] at hb
    rw [hk, List.getElem?_eq_getElem hb]
    rfl

/-- The receiver of a path gets one secret from it. -/
theorem Spec.PathReadable.unique {sd : SuiteDesc} {d : Nat} {s : Ratchet ParentNode d} {raw : Bytes} {i r : Nat} {path : UpdatePath}
    {keys : List (Option Bytes)} {e e' : Nat} {ps ps' : Bytes} (hi : i < 2 ^ d) (h : Spec.PathReadable pr sd s raw i r path keys e ps)
    (h' : Spec.PathReadable pr sd s raw i r path keys e' ps') : e = e' ∧ ps = ps' := by
  obtain ⟨x, res, pn, j, y, k, ct, o1, o2, o3, o4, o5, o6, o7, o8, o9⟩ := h.opened
  obtain ⟨x', res', pn', j', y', k', ct', q1, q2, q3, q4, q5, q6, q7, q8, q9⟩ := h'.opened
  rw [o1] at q1
  cases q1
  have hnd := filteredPath_nodup (s := s) (i := i) (j := 0) (Nat.div_eq_of_lt hi)
  rw [Nat.zero_mul, Nat.zero_mul, Nat.sub_zero] at hnd
  obtain rfl := (List.getElem?_inj (List.getElem?_eq_some_iff.1 o2).1 hnd).1 (o2.trans q2.symm)
  rw [o3] at q3
  cases q3
  obtain rfl : j = j' := by
    rcases Nat.lt_trichotomy j j' with hlt | he | hgt
    · exact absurd o6 (q7 j y k hlt o5)
    · exact he
    · exact absurd q6 (o7 j' y' k' hgt q5)
  rw [o5] at q5
  cases q5
  rw [o6] at q6
  cases q6
  rw [o8] at q8
  cases q8
  rw [o9] at q9
  cases q9
  exact ⟨rfl, rfl⟩

/-! ### The state after a commit -/

theorem flat_any {d d' : Nat} {s : Ratchet ParentNode d} {s' : Ratchet ParentNode d'}
    (h : s.flat Node.leaf Node.parent = s'.flat Node.leaf Node.parent) : (⟨d, s⟩ : Ratchet.Any ParentNode) = ⟨d', s'⟩ := by
  have hd : d = d' := by
    have hl := congrArg List.length h
    rw [flat_length, flat_length] at hl
    have p1 : 0 < 2 ^ (d + 1) := Nat.two_pow_pos _
    have p2 : 0 < 2 ^ (d' + 1) := Nat.two_pow_pos _
    have : 2 ^ (d + 1) = 2 ^ (d' + 1) := by omega
    have := Nat.pow_right_injective (Nat.le_refl 2) this
    omega
  subst hd
  rw [flat_inj _ _ h]

theorem Spec.CommitOk.treeHash_eq {sd : SuiteDesc} {ctx : GroupContext} {interim : Bytes} {pending : List PendingProposal}
    {now : GoTime} {d0 : Nat} {s0 : Ratchet ParentNode d0} {my : Nat} {keys : List (Option Bytes)} {a : AuthenticatedContent}
    {c : Commit} {l : List (Proposal × UInt32)} {d : Nat} {s s' : Ratchet ParentNode d} {th input raw : Bytes}
    (g : Spec.CommitOk pr sd ctx interim pending now s0 my keys a c l s s' th input raw) : s'.treeHash (pr.hash sd.hash) 0 = some th := by
  have := g.path
  cases hp : c.path with
  | none => rw [hp] at this; exact this.2
  | some path => rw [hp] at this; exact this.treeHash

theorem committed_view (hc : pr.Correct) {st st' : GroupState} (hi : GroupInv pr st) {sd : SuiteDesc}
    (hsd : suite st.group.groupContext.cipherSuite = .ok sd) {d0 : Nat} (hd0 : d0 ≤ 31) {s0 : Ratchet ParentNode d0}
    (hs0 : Holds st.heap st.group.tree s0) {raw : Bytes} {a : AuthenticatedContent} {e : Bool} {c : Commit} {r : Option Bytes}
    (hca : Carries pr st raw a e) (hk : a.content.content = .commit c) {now : GoTime}
    (h : unmarshalAndProcessMessage pr st raw now = (.ok r, st')) : Spec.Committed pr sd st.view now s0 a c st'.view := by
  obtain ⟨l2, d, s, s', th, input, raw', g⟩ := (commit_iff hc hi hsd hd0 hs0 hca hk now).1 ⟨r, st', h⟩
  obtain ⟨l, hp, t, h1, h2, h3, h4⟩ := accepted_commit hca hk h
  obtain rfl : l = l2 := Option.some.inj (h1.symm.trans g.resolved)
  have hs : Holds hp t s := by
    have hout := treeApply_outcome (s := some ⟨d0, s0⟩) hd0 hs0 l
    rw [g.applied, h3] at hout
    rcases hout with ⟨_, h2', t2, he, hh⟩ | ⟨_, he⟩
    · cases he; exact hh
    · cases he
  have hv' : st'.vtree = s'.flat .leaf .parent := by
    obtain ⟨d0', d', s0', s1, s1', htree⟩ := commit_tree hc hi hsd h2 h3 h4
    have e0 := flat_any (hs0.flat.symm.trans htree.before)
    have e1 := htree.applied
    rw [← e0, g.applied] at e1
    cases e1
    rw [htree.after]
    have hm := htree.merged
    have hg := g.path
    cases hpath : c.path with
    | none =>
      rw [hpath] at hm hg
      rw [hm, hg.1]
    | some path =>
      rw [hpath] at hm hg
      have := hm.2.symm.trans hg.merged
      cases this
      rfl
  obtain ⟨th', sec, input', raw2, g1, g2, g3, g4, g5⟩ := finishCommit_next hsd h4
  rw [C38_none pr _ sd hsd] at g3
  have hpsk := (Res.ok.inj g3).symm
  rw [hpsk] at g4
  obtain rfl : th' = th := by
    rw [hv'] at g1
    exact Option.some.inj (((computeRootTreeHash_iff hc hsd g.depth s' th').1 g1).symm.trans g.treeHash_eq)
  obtain rfl : input' = input := Option.some.inj ((transcriptInput_some.2 g2).symm.trans g.transcript)
  have hctx := g4.context
  obtain rfl : raw2 = raw' := by
    have := g4.encoded
    rw [hctx] at this
    exact Option.some.inj (this.symm.trans g.context)
  obtain ⟨-, -, -, -, -, k6, k7, k8⟩ := finishCommit_group h4
  refine ⟨l, d, s, s', th', input', raw2, sec, st'.group.privTree, g, ?_, ?_⟩
  · unfold Spec.CommitKeys
    rcases g5 with ⟨e1, e2⟩ | ⟨path, pt, e1, e2, e3⟩
    · rw [e1]
      refine ⟨e2, ?_⟩
      obtain ⟨_, pt, hpt, ⟨_, _, _, e3⟩ | ⟨path, _, _, e3, _⟩⟩ := finishCommit_parts h4
      · rw [e3, keptKeys_eq hi.length hpt, hs.length]
        rfl
      · rw [e1] at e3; cases e3
    · rw [e1]
      have hg := g.path
      rw [e1] at hg
      obtain ⟨_, _, _, _, _, hread⟩ := hg.opens
      obtain ⟨d2, s2, m, e, ps, q1, q2, q3, q4, q5⟩  :=
        commit_secret (newCtx := { st.group.groupContext with epoch := st.group.groupContext.epoch + 1 }) hc hi hsd h3 rfl e3
      have := flat_any (q4.symm.trans hv')
      cases this
      rw [hv'] at q5
      obtain ⟨provisional, w1, w2⟩ := q5.readable (ctx := { st.group.groupContext with
        epoch := st.group.groupContext.epoch + 1, treeHash := th' }) hsd hread.supported q1 q2 q3
      have hkeys := copyPrivTree_iff hi.length e2
      rw [hs.length] at hkeys
      refine ⟨provisional, e, ps, context_some.2 w1, w2.congr hkeys, q5.commit, ?_⟩
      rw [q5.keys, keptKeys_eq hi.length e2, hs.length]
      rfl
  · have i2 := g4.interim
    have i3 := g4.epochSecret
    have i4 := g4.initSecret
    rw [hctx] at i2
    rw [i3] at i4
    unfold GroupState.view
    simp only [Spec.View.mk.injEq]
    exact ⟨hv', hctx, i2, hpsk, i3, i4, k6, trivial, k7, k8⟩

/-- A commit leads to one state. -/
theorem Spec.Committed.unique {sd : SuiteDesc} {v v1 v2 : Spec.View} {now : GoTime} {d0 : Nat} {s0 : Ratchet ParentNode d0}
    {a : AuthenticatedContent} {c : Commit} (h1 : Spec.Committed pr sd v now s0 a c v1) (h2 : Spec.Committed pr sd v now s0 a c v2) :
    v1 = v2 := by
  obtain ⟨l, d, s, s', th, input, raw, sec, keys, g, k, rfl⟩ := h1
  obtain ⟨l2, d2, s2, s2', th2, input2, raw2, sec2, keys2, g2, k2, rfl⟩ := h2
  obtain rfl : l = l2 := Option.some.inj (g.resolved.symm.trans g2.resolved)
  have e1 := g.applied.symm.trans g2.applied
  cases e1
  obtain rfl : s' = s2' := by
    have p1 := g.path
    have p2 := g2.path
    cases hp : c.path with
    | none => rw [hp] at p1 p2; exact p1.1.trans p2.1.symm
    | some path => rw [hp] at p1 p2; exact Option.some.inj (p1.merged.symm.trans p2.merged)
  obtain rfl : th = th2 := Option.some.inj (g.treeHash_eq.symm.trans g2.treeHash_eq)
  obtain rfl : input = input2 := Option.some.inj (g.transcript.symm.trans g2.transcript)
  obtain rfl : raw = raw2 := Option.some.inj (g.context.symm.trans g2.context)
  have : sec = sec2 ∧ keys = keys2 := by
    unfold Spec.CommitKeys at k k2
    have p1 := g.path
    cases hp : c.path with
    | none => rw [hp] at k k2; exact ⟨k.1.trans k2.1.symm, k.2.trans k2.2.symm⟩
    | some path =>
      rw [hp] at k k2 p1
      obtain ⟨pv, e, ps, a1, a2, a3, a4⟩ := k
      obtain ⟨pv', e', ps', b1, b2, b3, b4⟩ := k2
      obtain rfl : pv = pv' := Option.some.inj (a1.symm.trans b1)
      obtain ⟨rfl, rfl⟩ := a2.unique p1.inside b2
      exact ⟨a3.trans b3.symm, a4.trans b4.symm⟩
  rw [this.1, this.2]

/-! ### C113 -/

theorem came_iff (hc : pr.Correct) {st : GroupState} {sd : SuiteDesc} (hsd : suite st.group.groupContext.cipherSuite = .ok sd) {d0 : Nat} (hd0 : d0 ≤ 31)
    (hlen : st.group.tree.length = 2 ^ (d0 + 1) - 1) {raw : Bytes} {a : AuthenticatedContent} {e : Bool} :
    Spec.Came pr sd st d0 raw a e ↔ Carries pr st raw a e := by
  constructor
  · rintro (⟨v, m, h1, h2, rfl⟩ | ⟨v, m, h1, h2, rfl⟩)
    · exact .pub h1 ((verifyPublicMessage_iff hsd).2 h2)
    · exact .priv h1 ((C62_received pr hc st sd hsd d0 hd0 hlen m a).2 h2)
  · intro h
    cases h with
    | pub hd hv => exact .inl ⟨_, _, hd, (verifyPublicMessage_iff hsd).1 hv, rfl⟩
    | priv hd hv => exact .inr ⟨_, _, hd, (C62_received pr hc st sd hsd d0 hd0 hlen _ a).1 hv, rfl⟩

/-- **C113**: for a member of a group with a supported suite, whatever the message, the time and the history: UnmarshalAndProcessMessage does what
Spec.Processed says, and nothing else. -/
theorem C113_process (hc : pr.Correct) {st : GroupState} (hr : Reachable pr st)
    (hsup : supported st.group.groupContext.cipherSuite = .ok true) :
    ∃ (sd : SuiteDesc) (d0 : Nat) (s0 : Ratchet ParentNode d0), suite st.group.groupContext.cipherSuite = .ok sd ∧
      st.vtree = s0.flat .leaf .parent ∧ d0 ≤ 31 ∧ ∀ raw now o,
      (Spec.Processed pr sd st now s0 raw o ↔ Spec.outcomeOf (unmarshalAndProcessMessage pr st raw now) = o) := by
  have hi := hr.inv hc
  obtain ⟨sd, hsd⟩ := hi.suite
  obtain ⟨d0, hd0, s0, hs0⟩ := hi.tree.holds
  have hlen : st.group.tree.length = 2 ^ (d0 + 1) - 1 := hs0.length
  have hv0 : st.vtree = s0.flat .leaf .parent := hs0.flat
  refine ⟨sd, d0, s0, hsd, hv0, hd0, fun raw now => ?_⟩
  have hcame : ∀ a e, Spec.Came pr sd st d0 raw a e ↔ Carries pr st raw a e := fun a e => came_iff hc hsd hd0 hlen
  have hacc : Spec.Accepts pr sd st now s0 raw ↔ ∃ r st', unmarshalAndProcessMessage pr st raw now = (.ok r, st') := by
    constructor
    · rintro ⟨a, e, h1, h2⟩
      exact (contentOk_iff hc hi hsd hd0 hs0 ((hcame a e).1 h1) now).2 h2
    · rintro ⟨r, st', h⟩
      obtain ⟨a, e, hca, _⟩ := accepted_cases h
      exact ⟨a, e, (hcame a e).2 hca, (contentOk_iff hc hi hsd hd0 hs0 hca now).1 ⟨r, st', h⟩⟩
  obtain ⟨sd', d0', s0', e1, e2, _, hcr⟩ := C108_crash hc hr hsup
  rw [hsd] at e1
  cases e1
  have := flat_any (hv0.symm.trans e2)
  cases this
  obtain ⟨hcr1, hcr2⟩ := hcr raw now
  obtain ⟨sd', d0', s0', e1, e3, _, hleft⟩ := C112_message hc hr
  rw [hsd] at e1
  cases e1
  have := flat_any (hv0.symm.trans e3)
  cases this
  have hcrash : Spec.Crashes pr sd st s0 raw ↔ (unmarshalAndProcessMessage pr st raw now).1 = .panic := by
    rw [hcr1]
    unfold Spec.Crashes Spec.Came
    constructor
    · rintro (⟨v, m, h1, h2⟩ | ⟨v, m, h1, h2⟩ | ⟨a, e, c, ⟨v, m, h1, h2, rfl⟩ | ⟨v, m, h1, h2, rfl⟩, h3, h4⟩)
      · exact .inl ⟨v, m, h1, .inl h2⟩
      · exact .inr ⟨v, m, h1, .inl h2⟩
      · exact .inl ⟨v, m, h1, .inr ⟨a, c, h2, h3, h4⟩⟩
      · exact .inr ⟨v, m, h1, .inr ⟨a, c, h2, h3, h4⟩⟩
    · rintro (⟨v, m, h1, h2 | ⟨a, c, h2, h3, h4⟩⟩ | ⟨v, m, h1, h2 | ⟨a, c, h2, h3, h4⟩⟩)
      · exact .inl ⟨v, m, h1, h2⟩
      · exact .inr (.inr ⟨a, _, c, .inl ⟨v, m, h1, h2, rfl⟩, h3, h4⟩)
      · exact .inr (.inl ⟨v, m, h1, h2⟩)
      · exact .inr (.inr ⟨a, _, c, .inr ⟨v, m, h1, h2, rfl⟩, h3, h4⟩)
  have hend : Spec.Endless pr sd st s0 raw ↔ (unmarshalAndProcessMessage pr st raw now).1 = .hang := by
    rw [hcr2]
    unfold Spec.Endless Spec.Came
    constructor
    · rintro ⟨a, e, c, ⟨v, m, h1, h2, rfl⟩ | ⟨v, m, h1, h2, rfl⟩, h3, h4⟩
      · exact .inl ⟨v, m, a, c, h1, h2, h3, h4⟩
      · exact .inr ⟨v, m, a, c, h1, h2, h3, h4⟩
    · rintro (⟨v, m, a, c, h1, h2, h3, h4⟩ | ⟨v, m, a, c, h1, h2, h3, h4⟩)
      · exact ⟨a, _, c, .inl ⟨v, m, h1, h2, rfl⟩, h3, h4⟩
      · exact ⟨a, _, c, .inr ⟨v, m, h1, h2, rfl⟩, h3, h4⟩
  have href := fun a (p : Proposal) (hk : a.content.content = .proposal p) ref =>
    (C102_references (pr := pr) hsd ref).2 a ⟨p, hk⟩
  have herr : ¬ Spec.Accepts pr sd st now s0 raw → ¬ Spec.Crashes pr sd st s0 raw → ¬ Spec.Endless pr sd st s0 raw →
      ∃ st', unmarshalAndProcessMessage pr st raw now = (.err, st') := by
    intro h1 h2 h3
    rw [hacc] at h1
    rw [hcrash] at h2
    rw [hend] at h3
    rcases hx : unmarshalAndProcessMessage pr st raw now with ⟨r | _ | _ | _, st'⟩
    · exact absurd ⟨_, _, hx⟩ h1
    · exact ⟨_, rfl⟩
    · rw [hx] at h2; exact absurd rfl h2
    · rw [hx] at h3; exact absurd rfl h3
  have hview : ∀ (st' : GroupState) (nodes : VTree), st'.group = st.group → st'.vtree = nodes → st'.view = { st.view with nodes := nodes } := by
    intro st' nodes h1 h2
    unfold GroupState.view
    rw [h1, h2]
  -- one direction is enough for what does happen
  have hto : ∀ o, Spec.Processed pr sd st now s0 raw o → Spec.outcomeOf (unmarshalAndProcessMessage pr st raw now) = o := by
    intro o h
    cases h with
    | data h1 h2 =>
      rw [upm_of_carries ((hcame _ _).1 h1)]
      unfold dispatch
      rw [h2]
      rfl
    | proposal h1 h2 h3 =>
      rw [upm_of_carries ((hcame _ _).1 h1)]
      unfold dispatch
      rw [h2]
      unfold processProposal
      rw [h2]
      simp only [(href _ _ h2 _).2 h3]
      rfl
    | commit h1 h2 h3 =>
      have hca := (hcame _ _).1 h1
      obtain ⟨r, st', hx⟩ := hacc.1 ⟨_, _, h1, by
        unfold Spec.ContentOk
        rw [h2]
        obtain ⟨l, d, s, s', th, input, raw, sec, keys, g, _⟩ := h3
        exact ⟨l, d, s, s', th, input, raw, g⟩⟩
      obtain rfl : r = none := by
        obtain ⟨a', e', hca', ⟨_, _, hn, _⟩ | ⟨_, _, hn, _⟩ | ⟨_, hk, _⟩⟩ := accepted_cases hx
        · exact hn
        · exact hn
        · obtain ⟨rfl, _⟩ := hca.unique hca'
          rw [h2] at hk; cases hk
      rw [hx, h3.unique (committed_view hc hi hsd hd0 hs0 hca h2 hx)]
      rfl
    | panics h =>
      unfold Spec.outcomeOf
      rw [hcrash.1 h]
    | endless h =>
      unfold Spec.outcomeOf
      rw [hend.1 h]
    | left h1 h2 h3 h4 =>
      obtain ⟨st', hx⟩ := herr h1 h2 h3
      obtain ⟨g1, g2, _⟩ := hleft _ _ _ hx
      rw [hx]
      show Spec.Outcome.refused st'.view = _
      rw [hview st' _ g1 (g2 _ h4)]
      rfl
    | refused h1 h2 h3 h4 =>
      obtain ⟨st', hx⟩ := herr h1 h2 h3
      obtain ⟨g1, _, g2⟩ := hleft _ _ _ hx
      rw [hx]
      show Spec.Outcome.refused st'.view = _
      rw [hview st' _ g1 (g2 h4)]
      rfl
  refine fun o => ⟨hto o, ?_⟩
  rintro rfl
  have hex : ∃ o, Spec.Processed pr sd st now s0 raw o := by
    by_cases h1 : Spec.Accepts pr sd st now s0 raw
    · obtain ⟨r, st', hx⟩ := hacc.1 h1
      obtain ⟨a, e, hca, ⟨p, hk, -, hp⟩ | ⟨c, hk, -, -⟩ | ⟨data, hk, -, -, rfl⟩⟩ := accepted_cases hx
      · rcases processProposal_cases (pr := pr) st a p hk with ⟨ref, h3, h4⟩ | ⟨h3, _⟩
        · exact ⟨_, .proposal ((hcame _ _).2 hca) hk ((href _ _ hk _).1 h3)⟩
        · rw [hp] at h3; exact absurd rfl h3
      · exact ⟨_, .commit ((hcame _ _).2 hca) hk (committed_view hc hi hsd hd0 hs0 hca hk hx)⟩
      · exact ⟨_, .data ((hcame _ _).2 hca) hk⟩
    · by_cases h2 : Spec.Crashes pr sd st s0 raw
      · exact ⟨_, .panics h2⟩
      · by_cases h3 : Spec.Endless pr sd st s0 raw
        · exact ⟨_, .endless h3⟩
        · by_cases h4 : ∃ r, Spec.Proposes pr sd st s0 raw r
          · obtain ⟨r, h4⟩ := h4
            exact ⟨_, .left h1 h2 h3 h4⟩
          · exact ⟨_, .refused h1 h2 h3 h4⟩
  obtain ⟨o, ho⟩ := hex
  rw [hto o ho]
  exact ho

/-- The specification says one thing of each message. -/
theorem C113_determined (hc : pr.Correct) {st : GroupState} (hr : Reachable pr st)
    (hsup : supported st.group.groupContext.cipherSuite = .ok true) :
    ∃ (sd : SuiteDesc) (d0 : Nat) (s0 : Ratchet ParentNode d0), suite st.group.groupContext.cipherSuite = .ok sd ∧
      st.vtree = s0.flat .leaf .parent ∧ ∀ raw now, ∃! o, Spec.Processed pr sd st now s0 raw o := by
  obtain ⟨sd, d0, s0, h1, h2, _, h3⟩ := C113_process hc hr hsup
  exact ⟨sd, d0, s0, h1, h2, fun raw now => ⟨_, (h3 raw now _).2 rfl, fun o ho => ((h3 raw now o).1 ho).symm⟩⟩

/-! ### The pointers do not show -/

theorem Spec.Processed.of_view {sd : SuiteDesc} {st st2 : GroupState} (hv : st.view = st2.view) {now : GoTime} {d0 : Nat}
    {s0 : Ratchet ParentNode d0} {raw : Bytes} {o : Spec.Outcome} (h : Spec.Processed pr sd st now s0 raw o) :
    Spec.Processed pr sd st2 now s0 raw o := by
  have hv' := hv
  unfold GroupState.view at hv'
  simp only [Spec.View.mk.injEq] at hv'
  obtain ⟨e1, e2, e3, e4, e5, e6, e7, e8, e9, e10⟩ := hv'
  have pub : ∀ m a, Spec.PublicOk pr st m a ↔ Spec.PublicOk pr st2 m a := by
    intro m a
    have : Spec.Authentic pr st a ↔ Spec.Authentic pr st2 a :=
      ⟨fun ⟨a1, a2, a3⟩ => ⟨by rw [← e2]; exact a1, by rw [← e2]; exact a2, by rw [← e2, ← e1]; exact a3⟩,
       fun ⟨a1, a2, a3⟩ => ⟨by rw [e2]; exact a1, by rw [e2]; exact a2, by rw [e2, e1]; exact a3⟩⟩
    unfold Spec.PublicOk Spec.MembershipTagOk
    rw [this, e2, e5]
  have priv : ∀ m a, Spec.PrivateOk pr sd st d0 m a ↔ Spec.PrivateOk pr sd st2 d0 m a := by
    intro m a
    unfold Spec.PrivateOk
    rw [e1, e2, e5]
  have came : ∀ a e, Spec.Came pr sd st d0 raw a e ↔ Spec.Came pr sd st2 d0 raw a e := by
    intro a e
    unfold Spec.Came
    simp only [pub, priv]
  have acc : Spec.Accepts pr sd st now s0 raw ↔ Spec.Accepts pr sd st2 now s0 raw := by
    unfold Spec.Accepts Spec.ContentOk
    simp only [came, e2, e3, e7, e8, e10]
  have crash : Spec.Crashes pr sd st s0 raw ↔ Spec.Crashes pr sd st2 s0 raw := by
    unfold Spec.Crashes Spec.PublicCrash Spec.PrivateCrash
    simp only [came, e1, e2, e5, e10]
  have endless : Spec.Endless pr sd st s0 raw ↔ Spec.Endless pr sd st2 s0 raw := by
    unfold Spec.Endless
    simp only [came, e2, e10]
  have prop : ∀ r, Spec.Proposes pr sd st s0 raw r ↔ Spec.Proposes pr sd st2 s0 raw r := by
    intro r
    unfold Spec.Proposes
    simp only [pub, priv, e2, e10]
  cases h with
  | data h1 h2 => rw [hv]; exact .data ((came _ _).1 h1) h2
  | proposal h1 h2 h3 => rw [hv]; exact .proposal ((came _ _).1 h1) h2 h3
  | commit h1 h2 h3 => rw [hv] at h3; exact .commit ((came _ _).1 h1) h2 h3
  | panics h => exact .panics (crash.1 h)
  | endless h => exact .endless (endless.1 h)
  | left h1 h2 h3 h4 =>
    rw [hv]
    exact .left (fun h => h1 (acc.2 h)) (fun h => h2 (crash.2 h)) (fun h => h3 (endless.2 h)) ((prop _).1 h4)
  | refused h1 h2 h3 h4 =>
    rw [hv]
    exact .refused (fun h => h1 (acc.2 h)) (fun h => h2 (crash.2 h)) (fun h => h3 (endless.2 h)) (fun ⟨r, h⟩ => h4 ⟨r, (prop r).2 h⟩)

/-- **C113**: what a member knows decides what comes of a message: two members, or one member at two times, who know the same, however their
trees are laid out in memory and whatever their histories, give the same answer and then know the same. -/
theorem C113_view (hc : pr.Correct) {st st2 : GroupState} (hr : Reachable pr st) (hr2 : Reachable pr st2) (hv : st.view = st2.view)
    (hsup : supported st.group.groupContext.cipherSuite = .ok true) (raw : Bytes) (now : GoTime) :
    Spec.outcomeOf (unmarshalAndProcessMessage pr st raw now) = Spec.outcomeOf (unmarshalAndProcessMessage pr st2 raw now) := by
  have e1 : st.vtree = st2.vtree := congrArg Spec.View.nodes hv
  have e2 : st.group.groupContext = st2.group.groupContext := congrArg Spec.View.context hv
  obtain ⟨sd, d0, s0, a1, a2, _, a3⟩ := C113_process hc hr hsup
  obtain ⟨sd', d0', s0', b1, b2, _, b3⟩ := C113_process hc hr2 (by rw [← e2]; exact hsup)
  rw [e2, b1] at a1
  cases a1
  have := flat_any (a2.symm.trans (e1.trans b2))
  cases this
  exact ((b3 raw now _).1 (((a3 raw now _).2 rfl).of_view hv)).symm

/-- The outcomes of the messages `l`, each with the time at which it is processed, one after the other; a panic or a call without end is the
last. -/
def Spec.outcomes (pr : Prims) : GroupState → List (Bytes × GoTime) → List Spec.Outcome
  | _, [] => []
  | st, (raw, now) :: l =>
    let x := unmarshalAndProcessMessage pr st raw now
    Spec.outcomeOf x :: match x.1 with
      | .ok _ | .err => Spec.outcomes pr x.2 l
      | _ => []

/-- What the specification says comes of the message `raw` at the time `now` when the member knows `v`. -/
def Spec.Does (pr : Prims) (v : Spec.View) (raw : Bytes) (now : GoTime) (o : Spec.Outcome) : Prop :=
  ∃ (st : GroupState) (sd : SuiteDesc) (d0 : Nat) (s0 : Ratchet ParentNode d0), st.view = v ∧ suite v.context.cipherSuite = .ok sd ∧
    v.nodes = s0.flat .leaf .parent ∧ Spec.Processed pr sd st now s0 raw o

/-- The outcomes that the specification gives the messages `l`, from the state of knowledge `v` on. -/
inductive Spec.Run (pr : Prims) : Spec.View → List (Bytes × GoTime) → List Spec.Outcome → Prop
  | nil {v : Spec.View} : Spec.Run pr v [] []
  | done {v v' : Spec.View} {raw : Bytes} {now : GoTime} {r : Option Bytes} {l : List (Bytes × GoTime)} {os : List Spec.Outcome} :
      Spec.Does pr v raw now (.done r v') → Spec.Run pr v' l os → Spec.Run pr v ((raw, now) :: l) (.done r v' :: os)
  | refused {v v' : Spec.View} {raw : Bytes} {now : GoTime} {l : List (Bytes × GoTime)} {os : List Spec.Outcome} :
      Spec.Does pr v raw now (.refused v') → Spec.Run pr v' l os → Spec.Run pr v ((raw, now) :: l) (.refused v' :: os)
  | panics {v : Spec.View} {raw : Bytes} {now : GoTime} {l : List (Bytes × GoTime)} :
      Spec.Does pr v raw now .panics → Spec.Run pr v ((raw, now) :: l) [.panics]
  | endless {v : Spec.View} {raw : Bytes} {now : GoTime} {l : List (Bytes × GoTime)} :
      Spec.Does pr v raw now .endless → Spec.Run pr v ((raw, now) :: l) [.endless]

theorem does_iff (hc : pr.Correct) {st : GroupState} (hr : Reachable pr st)
    (hsup : supported st.group.groupContext.cipherSuite = .ok true) (raw : Bytes) (now : GoTime) (o : Spec.Outcome) :
    Spec.Does pr st.view raw now o ↔ Spec.outcomeOf (unmarshalAndProcessMessage pr st raw now) = o := by
  obtain ⟨sd, d0, s0, a1, a2, _, a3⟩ := C113_process hc hr hsup
  constructor
  · rintro ⟨st2, sd', d0', s0', h1, h2, h3, h4⟩
    have h2' : suite st.group.groupContext.cipherSuite = .ok sd' := h2
    rw [a1] at h2'
    cases h2'
    have := flat_any (a2.symm.trans h3)
    cases this
    exact (a3 raw now o).1 (h4.of_view h1)
  · exact fun h => ⟨st, sd, d0, s0, rfl, a1, a2, (a3 raw now o).2 h⟩

theorem upm_suite {st st' : GroupState} {raw : Bytes} {now : GoTime} {r : Res (Option Bytes)}
    (h : unmarshalAndProcessMessage pr st raw now = (r, st')) :
    st'.group.groupContext.cipherSuite = st.group.groupContext.cipherSuite := by
  cases r with
  | ok r =>
    obtain ⟨a, e, hca, ⟨p, hk, -, hp⟩ | ⟨c, hk, -, -⟩ | ⟨data, hk, -, rfl, -⟩⟩ := accepted_cases h
    · rcases processProposal_cases (pr := pr) st a p hk with ⟨ref, h3, h4⟩ | ⟨h3, _⟩
      · rw [hp] at h4; cases h4; rfl
      · rw [hp] at h3; exact absurd rfl h3
    · obtain ⟨l, hp, t, _, _, _, h4⟩ := accepted_commit hca hk h
      exact (finishCommit_group h4).2.2.1
    · rfl
  | _ => rcases rejected_cases h (by simp) with rfl | ⟨a, e, c, ps, ss, h', t, _, _, _, _, rfl, _⟩ <;> rfl

/-- **C113**: of any list of messages, processed one after the other, comes what the specification says. -/
theorem C113_run (hc : pr.Correct) {st : GroupState} (hr : Reachable pr st)
    (hsup : supported st.group.groupContext.cipherSuite = .ok true) (l : List (Bytes × GoTime)) (os : List Spec.Outcome) :
    Spec.Run pr st.view l os ↔ Spec.outcomes pr st l = os := by
  induction l generalizing st os with
  | nil =>
    constructor
    · intro h; cases h; rfl
    · intro h; cases h; exact .nil
  | cons x l ih =>
    obtain ⟨raw, now⟩ := x
    have hd := does_iff hc hr hsup raw now
    rcases hx : unmarshalAndProcessMessage pr st raw now with ⟨r, st'⟩
    have hs' : supported st'.group.groupContext.cipherSuite = .ok true := by rw [upm_suite hx]; exact hsup
    rw [hx] at hd
    simp only [Spec.outcomes, hx]
    cases r with
    | ok r =>
      have hr' : Reachable pr st' := .message hr hx ⟨by simp, by simp⟩
      have hi := fun os => ih hr' hs' (os := os)
      simp only
      constructor
      · intro h
        cases h with
        | done h1 h2 =>
          have := (hd _).1 h1
          simp only [Spec.outcomeOf, Spec.Outcome.done.injEq] at this ⊢
          obtain ⟨rfl, rfl⟩ := this
          rw [(hi _).1 h2]
        | refused h1 _ => exact absurd ((hd _).1 h1) (by simp [Spec.outcomeOf])
        | panics h1 => exact absurd ((hd _).1 h1) (by simp [Spec.outcomeOf])
        | endless h1 => exact absurd ((hd _).1 h1) (by simp [Spec.outcomeOf])
      · rintro rfl
        exact .done ((hd _).2 rfl) ((hi _).2 rfl)
    | err =>
      have hr' : Reachable pr st' := .message hr hx ⟨by simp, by simp⟩
      have hi := fun os => ih hr' hs' (os := os)
      simp only
      constructor
      · intro h
        cases h with
        | refused h1 h2 =>
          have := (hd _).1 h1
          simp only [Spec.outcomeOf, Spec.Outcome.refused.injEq] at this ⊢
          subst this
          rw [(hi _).1 h2]
        | done h1 _ => exact absurd ((hd _).1 h1) (by simp [Spec.outcomeOf])
        | panics h1 => exact absurd ((hd _).1 h1) (by simp [Spec.outcomeOf])
        | endless h1 => exact absurd ((hd _).1 h1) (by simp [Spec.outcomeOf])
      · rintro rfl
        exact .refused ((hd _).2 rfl) ((hi _).2 rfl)
    | panic =>
      simp only
      constructor
      · intro h
        cases h with
        | panics h1 => rfl
        | done h1 _ => exact absurd ((hd _).1 h1) (by simp [Spec.outcomeOf])
        | refused h1 _ => exact absurd ((hd _).1 h1) (by simp [Spec.outcomeOf])
        | endless h1 => exact absurd ((hd _).1 h1) (by simp [Spec.outcomeOf])
      · rintro rfl
        exact .panics ((hd _).2 rfl)
    | hang =>
      simp only
      constructor
      · intro h
        cases h with
        | endless h1 => rfl
        | done h1 _ => exact absurd ((hd _).1 h1) (by simp [Spec.outcomeOf])
        | refused h1 _ => exact absurd ((hd _).1 h1) (by simp [Spec.outcomeOf])
        | panics h1 => exact absurd ((hd _).1 h1) (by simp [Spec.outcomeOf])
      · rintro rfl
        exact .endless ((hd _).2 rfl)

/-- A reachable state of a supported suite, and a list of messages with every kind of outcome but the last: application data, a proposal, a
message that does not parse, and a commit with a path; then, in the new epoch, the same commit again; and a message from a leaf outside the
tree, which is the last to be processed. -/
example : toyThree.holds (fun (a, _, _) =>
    decide (supported a.group.groupContext.cipherSuite = .ok true) &&
    let data := toyPrivate a 1 1 (.application [1, 2]) []
    let prop := toyPublic a 1 1 (.proposal (.remove 2)) []
    let commit := toyCommit a 1 1 [] (List.replicate 32 9) []
    (a.after commit).holds fun b =>
    let far := toyPublic b 9 9 (.application [1]) []
    let x := Spec.outcomes toyPrims a [(data, toyLater), (prop, toyLater), ([1], toyLater), (commit, toyLater), (commit, toyLater),
      (far, toyLater), (data, toyLater)]
    decide (x.map (fun o => match o with | .done r _ => some (some r) | .refused _ => some none | _ => none) =
      [some (some (some [1, 2])), some (some none), some none, some (some none), some none, none]) &&
    decide (x[3]? = some (.done none b.view)) && decide (x[4]? = some (.refused b.view)) && decide (x[5]? = some .panics)) = true := by
  decide +kernel

end Mls
