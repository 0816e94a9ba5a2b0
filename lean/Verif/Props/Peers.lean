import Verif.Props.Enclose
import Verif.Props.Follow
/-
C119: the commits of a member that does what RFC 9420 says, whatever software it uses.
-/
namespace Mls

open Spec (Ratchet nodeAt)

variable {pr : Prims}

/-! ### Specification -/

/-- What a committer brings: its leaf index, the private signature key that belongs to its leaf; the leaf node that it puts in the place of this, but for
the parent hash and the signature, and the private signature key that belongs to the new one; a path secret; and what is random. -/
structure Spec.Rfc.Committer where
  sender : UInt32
  signKey : Bytes
  leaf : LeafNode
  leafKey : Bytes
  secret : Bytes
  authenticatedData : Bytes
  sigRand : Bytes
  leafRand : Bytes
  sealRand : Nat → Nat → Bytes

/-- RFC 9420 section 7.4: the public keys of the nodes of the filtered direct path, upwards. -/
def Spec.Rfc.pathKeys (pr : Prims) (sd : SuiteDesc) {d : Nat} (s : Ratchet ParentNode d) (c : Rfc.Committer) : List Bytes :=
  (List.range (s.filteredPath 0 c.sender.toNat).length).map fun n => (nodeKeys pr sd (pathSecret pr sd c.secret n)).1

/-- RFC 9420 section 7.5: a path secret, encrypted to the keys of the nodes `res` of the tree `s`. -/
def Spec.Rfc.sealPathSecret (pr : Prims) (sd : SuiteDesc) {d : Nat} (s : Ratchet ParentNode d) (provisional secret : Bytes) (rand : Nat → Bytes)
    (res : List Nat) : Option (List HpkeCiphertext) :=
  res.mapM fun y => do
    let q ← nodeAt (s.flat Node.leaf Node.parent) y
    let x ← pr.hpkeSeal sd (keyOf q) (Spec.encryptContext "UpdatePathNode" provisional) secret (rand y)
    return ⟨x.1, x.2⟩

/-- RFC 9420 section 7.5: the update path for the tree `s` and the group context `ctx`, with the tree that it leads to and the hash of this. The path
secrets are encrypted to no leaf among `new`. -/
def Spec.Rfc.makePath (pr : Prims) (sd : SuiteDesc) (ctx : GroupContext) {d : Nat} (s : Ratchet ParentNode d) (c : Rfc.Committer) (new : List Nat) :
    Option (UpdatePath × Ratchet ParentNode d × Bytes) := do
  let keys := Rfc.pathKeys pr sd s c
  let blank ← s.merge (pr.hash sd.hash) c.leaf 0 c.sender.toNat keys.reverse []
  let leaf := { c.leaf with source := .commit blank.2 }
  let signature ← Rfc.sign pr sd c.leafKey "LeafNodeTBS" (Rfc.leafNodeTBS leaf ctx.groupID c.sender.toNat) c.leafRand
  let merged ← s.merge (pr.hash sd.hash) { leaf with signature } 0 c.sender.toNat keys.reverse []
  let treeHash ← merged.1.treeHash (pr.hash sd.hash) 0
  let provisional ← (Rfc.groupContext { ctx with epoch := ctx.epoch + 1, treeHash }).bytes
  guard (provisional.length < 2 ^ 30)
  let nodes ← (merged.1.sends 0 c.sender.toNat).zipIdx.mapM fun x => do
    let secrets ← Rfc.sealPathSecret pr sd merged.1 provisional (pathSecret pr sd c.secret x.2) (c.sealRand x.2) (x.1.2.filter (· ∉ new))
    return ⟨(nodeKeys pr sd (pathSecret pr sd c.secret x.2)).1, secrets⟩
  return (⟨{ leaf with signature }, nodes⟩, merged.1, treeHash)

/-- The nodes of the tree `s` with the leaves that the proposals `l` add. -/
def Spec.newLeaves (l : List (Proposal × UInt32)) {d : Nat} (s : Ratchet ParentNode d) : List Nat :=
  ((List.range (2 ^ d)).filter fun j => l.any fun p => match p.1 with
    | .add k => decide (s.leaves[j]? = some (some k.leafNode))
    | _ => false).map (2 * ·)

/-- A commit made, the tree that it leads to and the epoch that it starts. -/
structure Spec.Rfc.Made where
  content : AuthenticatedContent
  tree : Ratchet.Any ParentNode
  epoch : Epoch

/-- RFC 9420 sections 8 and 12.4.1: the commit with its signature and its confirmation tag, and the epoch that it starts, which takes no PSK in. -/
def Spec.Rfc.confirm (pr : Prims) (sd : SuiteDesc) (e : Epoch) (wf : WireFormat) (c : Rfc.Committer) (commit : Commit) (tree : Ratchet.Any ParentNode)
    (treeHash commitSecret : Bytes) : Option Rfc.Made := do
  let content : FramedContent := { Rfc.framed e.context c.sender (.commit commit) with authenticatedData := c.authenticatedData }
  let signature ← Rfc.sign pr sd c.signKey "FramedContentTBS" (Rfc.framedContentTBS wf content e.context) c.sigRand
  let input ← (Rfc.confirmedTranscriptHashInput wf content signature).bytes
  let confirmed := confirmedHash pr sd e.interim input
  let context := { e.context with epoch := e.context.epoch + 1, treeHash := treeHash, confirmedTranscriptHash := confirmed }
  let raw ← (Rfc.groupContext context).bytes
  guard (raw.length < 2 ^ 30)
  let secret := epochSecret pr sd (joinerSecret pr sd e.initSecret commitSecret raw) (List.replicate sd.kdf.size 0) raw
  let tag := pr.mac sd.hash (deriveSecret pr sd secret "confirm") confirmed
  return { content := ⟨wf, content, ⟨signature, tag⟩⟩, tree,
           epoch := ⟨context, interimHash pr sd confirmed tag, secret, deriveSecret pr sd secret "init"⟩ }

/-- RFC 9420 section 12.4.1: what a member does to commit to the proposals, in the epoch `e` with the tree `s0`. -/
def Spec.Rfc.makeCommit (pr : Prims) (sd : SuiteDesc) (e : Epoch) (pending : List PendingProposal) {d0 : Nat} (s0 : Ratchet ParentNode d0) (wf : WireFormat)
    (c : Rfc.Committer) (proposals : List ProposalOrRef) (withPath : Bool) : Option Rfc.Made := do
  let l ← resolve c.sender pending proposals
  match ← applyProposals (some ⟨d0, s0⟩) l with
  | none => none
  | some ⟨d, s⟩ =>
    if withPath then do
      let x ← Rfc.makePath pr sd e.context s c (newLeaves l s)
      Rfc.confirm pr sd e wf c { proposals, path := some x.1 } ⟨d, x.2.1⟩ x.2.2 (pathSecret pr sd c.secret x.1.nodes.length)
    else do
      let treeHash ← s.treeHash (pr.hash sd.hash) 0
      Rfc.confirm pr sd e wf c { proposals, path := none } ⟨d, s⟩ treeHash (List.replicate sd.kdf.size 0)

/-- RFC 9420 section 6.2 and 6.3: the message with a commit, in the clear or encrypted. -/
def Spec.Rfc.commitMessage (pr : Prims) (sd : SuiteDesc) (e : Epoch) (depth : Nat) (v : Rfc.Envelope) (m : Rfc.Made) : Option Bytes :=
  Rfc.enclose pr sd e.context e.epochSecret depth v m.content

/-- RFC 9420 sections 7.3, 12.2 and 12.4: the rules for the proposals `l`, which are about members only and lead to the tree `s`, and for the new leaf node. -/
structure Spec.Rfc.Ruled (pr : Prims) (sd : SuiteDesc) (ctx : GroupContext) (l : List (Proposal × UInt32)) {d : Nat} (s : Ratchet ParentNode d)
    (c : Rfc.Committer) (withPath : Bool) : Prop where
  members : ∀ p ∈ l, (∃ k, p.1 = .add k) ∨ (∃ n, p.1 = .update n) ∨ ∃ i, p.1 = .remove i
  proposals : ProposalListOk l c.sender
  packages : ∀ k sender, (.add k, sender) ∈ l → PackageValid pr ctx k
  pathless : withPath = false → l ≠ [] ∧ ∀ p ∈ l, Spec.pathless p.1
  depth : d ≤ 31
  inside : c.sender.toNat < 2 ^ d
  extensions : withPath = true → ∀ e ∈ c.leaf.extensions, e.ty ∈ c.leaf.capabilities.extensions
  credential : withPath = true → ((s.leaves.filterMap id).flatMap fun m => m.capabilities.credentials).count c.leaf.credential.ty =
    (s.leaves.filterMap id).length
  signatureKey : withPath = true → ∃ old, s.leaves[c.sender.toNat]? = some (some old) ∧
    (c.leaf.signatureKey = old.signatureKey ∨ ∀ m, some m ∈ s.leaves → m.signatureKey ≠ c.leaf.signatureKey)
  encryptionKeys : withPath = true → ∀ m, some m ∈ s.leaves → m.encryptionKey ≠ c.leaf.encryptionKey ∧ m.encryptionKey ∉ Rfc.pathKeys pr sd s c
  leafKey : withPath = true → ∃ r, c.leaf.signatureKey = (pr.sigKeyPair sd.sig r).1 ∧ c.leafKey = (pr.sigKeyPair sd.sig r).2

/-! ### The path -/

theorem mapM_some {α β : Type} {f : α → Option β} : ∀ {l : List α} {r : List β}, l.mapM f = some r →
    r.length = l.length ∧ ∀ (j : Nat) (x : α) (y : β), l[j]? = some x → r[j]? = some y → f x = some y := by
  intro l
  induction l with
  | nil =>
    intro r h
    rw [List.mapM_nil] at h
    cases h
    exact ⟨rfl, fun j x y h => by simp at h⟩
  | cons a l ih =>
    intro r h
    rw [List.mapM_cons] at h
    simp only [Option.bind_eq_bind, Option.bind_eq_some_iff, Option.pure_def, Option.some.injEq] at h
    obtain ⟨b, hb, bs, hbs, rfl⟩ := h
    obtain ⟨h1, h2⟩ := ih hbs
    refine ⟨by simp [h1], fun j x y hx hy => ?_⟩
    cases j with
    | zero =>
      simp only [List.getElem?_cons_zero, Option.some.injEq] at hx hy
      subst hx hy
      exact hb
    | succ j =>
      simp only [List.getElem?_cons_succ] at hx hy
      exact h2 j x y hx hy

/-- The parent hash for the new leaf does not depend on the leaf. -/
theorem merge_leaf_hash {H : Bytes → Bytes} {n n' : LeafNode} : ∀ {k : Nat} {s : Ratchet ParentNode k} {i0 i : Nat} {keys : List Bytes} {prev : Bytes}
    {a b : Ratchet ParentNode k × Bytes}, s.merge H n i0 i keys prev = some a → s.merge H n' i0 i keys prev = some b → a.2 = b.2 := by
  intro k s
  induction s with
  | leaf o =>
    intro i0 i keys prev a b h1 h2
    rw [Ratchet.merge] at h1 h2
    split at h1
    · cases h1
      split at h2 <;> cases h2 <;> rfl
    · cases h1
  | node p l r ihl ihr =>
    intro i0 i keys prev a b h1 h2
    rw [Ratchet.merge] at h1 h2
    split at h1
    · next hi =>
      rw [if_pos hi] at h2
      split at h1
      · next he =>
        rw [if_pos he] at h2
        simp only [Option.map_eq_some_iff] at h1 h2
        obtain ⟨x, h1, rfl⟩ := h1
        obtain ⟨y, h2, rfl⟩ := h2
        exact ihl h1 h2
      · next he =>
        rw [if_neg he] at h2
        simp only [Option.bind_eq_some_iff, Option.map_eq_some_iff] at h1 h2
        obtain ⟨q, hq, x, h1, rfl⟩ := h1
        obtain ⟨q', hq', y, h2, rfl⟩ := h2
        rw [hq] at hq'
        cases hq'
        exact ihl h1 h2
    · next hi =>
      rw [if_neg hi] at h2
      split at h1
      · next he =>
        rw [if_pos he] at h2
        simp only [Option.map_eq_some_iff] at h1 h2
        obtain ⟨x, h1, rfl⟩ := h1
        obtain ⟨y, h2, rfl⟩ := h2
        exact ihr h1 h2
      · next he =>
        rw [if_neg he] at h2
        simp only [Option.bind_eq_some_iff, Option.map_eq_some_iff] at h1 h2
        obtain ⟨q, hq, x, h1, rfl⟩ := h1
        obtain ⟨q', hq', y, h2, rfl⟩ := h2
        rw [hq] at hq'
        cases hq'
        exact ihr h1 h2

/-- What the update path of a committer that does what RFC 9420 says is like. -/
theorem updatePath_made {sd : SuiteDesc} {ctx : GroupContext} {d : Nat} {s : Ratchet ParentNode d} {c : Spec.Rfc.Committer} {new : List Nat}
    {path : UpdatePath} {s' : Ratchet ParentNode d} {th : Bytes} (h : Spec.Rfc.makePath pr sd ctx s c new = some (path, s', th)) :
    ∃ ph sig provisional, path.leafNode = { c.leaf with source := .commit ph, signature := sig } ∧
      Spec.Rfc.sign pr sd c.leafKey "LeafNodeTBS" (Spec.Rfc.leafNodeTBS { c.leaf with source := .commit ph } ctx.groupID c.sender.toNat) c.leafRand = some sig ∧
      (path.nodes.map fun n => n.encryptionKey) = Spec.Rfc.pathKeys pr sd s c ∧
      s.mergePath (pr.hash sd.hash) c.sender.toNat path = some s' ∧
      s'.treeHash (pr.hash sd.hash) 0 = some th ∧
      (Spec.Rfc.groupContext { ctx with epoch := ctx.epoch + 1, treeHash := th }).bytes = some provisional ∧ provisional.length < 2 ^ 30 ∧
      Spec.HonestPath pr sd s' provisional c.sender.toNat new path c.secret := by
  unfold Spec.Rfc.makePath at h
  simp only [Option.bind_eq_bind, Option.bind_eq_some_iff, Option.pure_def, Option.some.injEq, Prod.mk.injEq, Option.guard_eq_some', exists_const] at h
  obtain ⟨⟨s1, ph⟩, h1, sig, h2, ⟨s2, ph2⟩, h3, th', h4, provisional, h5, h6, nodes, h7, rfl, rfl, rfl⟩ := h
  obtain ⟨hl, hn⟩ := mapM_some h7
  have hph := merge_leaf_hash h1 h3
  simp only at hph h2 h3 h4 h7 hl hn
  subst hph
  have hfp := merge_filteredPath h3 0
  simp only at hfp
  have hlen : nodes.length = (s2.sends 0 c.sender.toNat).length := by rw [hl, List.length_zipIdx]
  have hkeys : (nodes.map fun n => n.encryptionKey) = Spec.Rfc.pathKeys pr sd s c := by
    refine List.ext_getElem? fun j => ?_
    unfold Spec.Rfc.pathKeys
    rw [← hfp, ← sends_fst, List.length_map, ← hlen, List.getElem?_map, List.getElem?_map]
    by_cases hj : j < nodes.length
    · rw [List.getElem?_eq_getElem hj, List.getElem?_range hj]
      have hz : (s2.sends 0 c.sender.toNat).zipIdx[j]? = some ((s2.sends 0 c.sender.toNat)[j]'(by omega), j) := by
        rw [List.getElem?_zipIdx, List.getElem?_eq_getElem (by omega)]
        simp
      have := hn j _ _ hz (List.getElem?_eq_getElem hj)
      simp only [Option.bind_eq_some_iff, Option.some.injEq] at this
      obtain ⟨_, _, he⟩ := this
      rw [← he]
      rfl
    · rw [List.getElem?_eq_none (by omega), List.getElem?_eq_none (by simp; omega)]
      rfl
  refine ⟨ph, sig, provisional, rfl, h2, hkeys, ?_, h4, h5, h6, hlen, fun n x res pn hx hp => ?_⟩
  · unfold Ratchet.mergePath
    simp only [hkeys, h3]
    exact if_pos rfl
  · have hz : (s2.sends 0 c.sender.toNat).zipIdx[n]? = some ((x, res), n) := by
      rw [List.getElem?_zipIdx, hx]
      simp
    have := hn n _ _ hz hp
    simp only [Option.bind_eq_some_iff, Option.some.injEq] at this
    obtain ⟨cts, hcts, rfl⟩ := this
    obtain ⟨k1, k2⟩ := mapM_some hcts
    refine ⟨rfl, k1, fun j y ct hy hct => ?_⟩
    have := k2 j y ct hy hct
    simp only [Option.bind_eq_bind, Option.bind_eq_some_iff, Option.pure_def, Option.some.injEq] at this
    obtain ⟨q, hq, ⟨ko, cc⟩, hs, rfl⟩ := this
    exact ⟨q, _, hq, hs⟩

/-- A member that holds its keys gets the commit secret off an honest path. -/
theorem honest_secret (hc : pr.Correct) {st : GroupState} (hi : GroupInv pr st) (hk : Keyed pr st) {sd : SuiteDesc}
    (hsd : suite st.group.groupContext.cipherSuite = .ok sd) (hsz : sd.kem.seedSize = sd.kdf.size) {ps : List Proposal} {ss : List UInt32}
    {h h' : Heap} {t t' : RTree} (ht : treeApply st.heap st.group.tree ps ss = .ok (h, t)) {d : Nat} (hd : d ≤ 31) {s s' : Ratchet ParentNode d}
    (hs : Holds h t s) {i : Nat} (hin : i < 2 ^ d) {path : UpdatePath} (hms : s.mergePath (pr.hash sd.hash) i path = some s')
    (hm : mergeUpdatePath pr st.group.groupContext.cipherSuite h t i path = .ok (h', t'))
    {pt : List (Option Bytes)} (hpt : copyPrivTree st.group.privTree st.group.tree.length t.length = .ok pt)
    (hown : nodeAt (s'.flat Node.leaf Node.parent) (2 * st.group.myLeafIndex.toNat) = nodeAt st.vtree (2 * st.group.myLeafIndex.toNat))
    (hne : i ≠ st.group.myLeafIndex.toNat) {th provisional secret : Bytes} {new : List Nat}
    (hraw : (Spec.Rfc.groupContext { st.group.groupContext with epoch := st.group.groupContext.epoch + 1, treeHash := th }).bytes = some provisional)
    (hb : provisional.length < 2 ^ 30) (hon : Spec.HonestPath pr sd s' provisional i new path secret)
    (hnew : ∀ x res, s'.meet 0 i st.group.myLeafIndex.toNat = some (x, res) → ∀ y ∈ res, y ∉ new) :
    Holds h' t' s' ∧ ∃ pt', decryptPathSecrets pr st.group.groupContext.cipherSuite (derefTree h' t')
      { st.group.groupContext with epoch := st.group.groupContext.epoch + 1, treeHash := th } i st.group.myLeafIndex.toNat path pt =
        .ok (Spec.pathSecret pr sd secret path.nodes.length, pt') := by
  obtain ⟨h2, t2, k1, k2, _⟩ := (mergeUpdatePath_spec hc hsd hd hin hs path).1 s' hms
  rw [hm] at k1
  cases k1
  have hlen := hs.length
  obtain ⟨d2, s2, s2', hpm⟩ := path_merged hc ⟨sd, hsd⟩ (hs.valid hd) (by rw [hlen, Nat.pow_succ]; omega) hm
  cases flat_any (hpm.before.flat.symm.trans hs.flat)
  cases flat_any (hpm.after.flat.symm.trans k2.flat)
  refine ⟨k2, ?_⟩
  obtain ⟨pt', hp⟩ := member_follows hc hi hk hsd hsz ht hpt hpm (by rw [k2.flat]; exact hown) hne
    (ctx := { st.group.groupContext with epoch := st.group.groupContext.epoch + 1, treeHash := th }) rfl (context_some.1 hraw) hb hon hnew
  rw [hpm.length] at hp
  exact ⟨pt', hp⟩

/-! ### The commit -/

/-- What the commit of such a committer is like. -/
theorem confirm_made {sd : SuiteDesc} {e : Spec.Epoch} {wf : WireFormat} {c : Spec.Rfc.Committer} {commit : Commit} {tree : Ratchet.Any ParentNode}
    {th sec : Bytes} {m : Spec.Rfc.Made} (h : Spec.Rfc.confirm pr sd e wf c commit tree th sec = some m) :
    ∃ sig input raw, m.content.wireFormat = wf ∧ m.content.content = { Spec.Rfc.framed e.context c.sender (.commit commit) with authenticatedData := c.authenticatedData } ∧
      m.content.auth.signature = sig ∧
      m.tree = tree ∧ Spec.Rfc.sign pr sd c.signKey "FramedContentTBS" (Spec.Rfc.framedContentTBS wf m.content.content e.context) c.sigRand = some sig ∧
      (Spec.Rfc.confirmedTranscriptHashInput wf m.content.content sig).bytes = some input ∧
      (Spec.Rfc.groupContext { e.context with
        epoch := e.context.epoch + 1, treeHash := th, confirmedTranscriptHash := Spec.confirmedHash pr sd e.interim input }).bytes = some raw ∧
      raw.length < 2 ^ 30 ∧ (∃ key, m.content.auth.confirmationTag = pr.mac sd.hash key (Spec.confirmedHash pr sd e.interim input)) ∧
      m.epoch.context = { e.context with
        epoch := e.context.epoch + 1, treeHash := th, confirmedTranscriptHash := Spec.confirmedHash pr sd e.interim input } ∧
      m.epoch.interim = Spec.interimHash pr sd m.epoch.context.confirmedTranscriptHash m.content.auth.confirmationTag ∧
      m.epoch.epochSecret = Spec.epochSecret pr sd (Spec.joinerSecret pr sd e.initSecret sec raw) (List.replicate sd.kdf.size 0) raw ∧
      m.epoch.initSecret = Spec.deriveSecret pr sd m.epoch.epochSecret "init" := by
  unfold Spec.Rfc.confirm at h
  simp only [Option.bind_eq_bind, Option.bind_eq_some_iff, Option.pure_def, Option.some.injEq, Option.guard_eq_some', exists_const] at h
  obtain ⟨sig, h1, input, h2, raw, h3, h4, rfl⟩ := h
  exact ⟨sig, input, raw, rfl, rfl, rfl, rfl, h1, h2, h3, h4, ⟨_, rfl⟩, rfl, rfl, rfl, rfl⟩

/-- The path of such a commit is good, in the sense of C105. -/
theorem makePath_ok (hc : pr.Correct) {st : GroupState} (hi : GroupInv pr st) (hk : Keyed pr st) {sd : SuiteDesc}
    (hsd : suite st.group.groupContext.cipherSuite = .ok sd) (hsz : sd.kem.seedSize = sd.kdf.size) {l : List (Proposal × UInt32)}
    {h : Heap} {t : RTree} (ht : treeApply st.heap st.group.tree (l.map (·.1)) (l.map (·.2)) = .ok (h, t)) {d : Nat} {s s' : Ratchet ParentNode d}
    (hs : Holds h t s) {c : Spec.Rfc.Committer} (hg : Spec.Rfc.Ruled pr sd st.group.groupContext l s c true) {new : List Nat} {path : UpdatePath} {th : Bytes}
    (hm : Spec.Rfc.makePath pr sd st.group.groupContext s c new = some (path, s', th))
    (hown : nodeAt (s'.flat Node.leaf Node.parent) (2 * st.group.myLeafIndex.toNat) = nodeAt st.vtree (2 * st.group.myLeafIndex.toNat))
    (hne : c.sender ≠ st.group.myLeafIndex)
    (hnew : ∀ x res, s'.meet 0 c.sender.toNat st.group.myLeafIndex.toNat = some (x, res) → ∀ y ∈ res, y ∉ new) (now : GoTime) :
    Spec.PathOk pr sd st.group.groupContext now s s' c.sender st.group.myLeafIndex.toNat (st.group.privTree.take (2 ^ (d + 1) - 1)) path th := by
  obtain ⟨ph, sig, provisional, m1, m2, m3, m4, m5, m6, m7, m8⟩ := updatePath_made hm
  have hd := hg.depth
  have hin := hg.inside
  have hpow : 2 ^ d ≤ 2 ^ 31 := Nat.pow_le_pow_right (by decide) hd
  have hmod : c.sender.toNat % 2 ^ 31 = c.sender.toNat := Nat.mod_eq_of_lt (by omega)
  have hlen := hs.length
  have hne' : c.sender.toNat ≠ st.group.myLeafIndex.toNat := fun e => hne (UInt32.toNat_inj.1 e)
  obtain ⟨h2, t2, k1, k2, _⟩ := (mergeUpdatePath_spec hc hsd hd hin hs path).1 s' m4
  obtain ⟨pt, hpt⟩ := copyPrivTree_total (b := t.length) hi.length
  obtain ⟨-, pt', hp⟩ := honest_secret hc hi hk hsd hsz ht hd hs hin m4 k1 hpt hown hne' m6 m7 m8 hnew
  have hu := merged_unmerged hc hi ht (hs.valid hd) ⟨sd, hsd⟩ (by rw [hlen, Nat.pow_succ]; omega) k1
  rw [k2.flat] at hu hp
  have hkeys := copyPrivTree_iff hi.length hpt
  have hptl := (copyPrivTree_ok hpt).1
  rw [hlen] at hkeys hptl
  obtain ⟨raw, e, ps, g1, g2, g3⟩ := (decryptPathSecrets_iff (ctx := { st.group.groupContext with
      epoch := st.group.groupContext.epoch + 1, treeHash := th }) (path := path) hc hsd hd hin hi.own_lt hptl hu).1 ⟨_, hp⟩
  obtain ⟨r, hr1, hr2⟩ := hg.leafKey rfl
  refine ⟨by rw [hmod]; exact hin, ⟨ph, by rw [m1]⟩, ?_, ?_, ?_, ?_, by rw [hmod]; exact m4, m5, raw, e, ps, context_some.2 g1, g2, ?_⟩
  · obtain ⟨tbs, q1, q2⟩ := (sign_rfc hsd lblLeafNodeTBS_name (leafNodeTBS_val _ _ _) _ _ _).2 m2
    rw [hr2] at q2
    have hv := signWithLabel_valid hc hsd lblLeafNodeTBS_name (by decide) q2
    rw [← hr1] at hv
    refine ⟨⟨tbs, ?_, ?_⟩, ?_, ?_⟩
    · rw [UInt32.ofNat_toNat, m1]
      exact leafTBS_some.2 q1
    · rw [m1]
      exact hv
    · intro lt hlt
      rw [m1] at hlt
      cases hlt
    · rw [m1]
      exact hg.extensions rfl
  · rw [m1]
    exact hg.credential rfl
  · obtain ⟨old, o1, o2⟩ := hg.signatureKey rfl
    refine ⟨old, by rw [hmod]; exact o1, ?_⟩
    rw [m1]
    exact o2
  · intro m hmm
    obtain ⟨e1, e2⟩ := hg.encryptionKeys rfl m hmm
    refine ⟨by rw [m1]; exact e1, fun n hn he => e2 ?_⟩
    rw [← m3, he]
    exact List.mem_map.2 ⟨n, hn, rfl⟩
  · rw [hmod]
    exact g3.congr hkeys

/-- **C119**, the content: a member that holds its keys accepts the commit of a member of its group that does what RFC 9420 says, if this leaves its
leaf alone, the hash and the KEM of the cipher suite fit, and nothing that the commit adds is in the resolution on its side. It comes to the same tree and the
same epoch as the committer, and holds its keys again. -/
theorem C119_content (hc : pr.Correct) {st : GroupState} (hr : Reachable pr st) (hk : Keyed pr st) {sd : SuiteDesc}
    (hsd : suite st.group.groupContext.cipherSuite = .ok sd) {d0 : Nat} {s0 : Ratchet ParentNode d0} (hv : st.vtree = s0.flat .leaf .parent)
    {wf : WireFormat} {c : Spec.Rfc.Committer} {proposals : List ProposalOrRef} {withPath : Bool} {m : Spec.Rfc.Made}
    (hm : Spec.Rfc.makeCommit pr sd st.group.keyState st.group.pendingProposals s0 wf c proposals withPath = some m)
    (hsz : withPath = true → sd.kem.seedSize = sd.kdf.size)
    (hg : ∀ l d s, Spec.resolve c.sender st.group.pendingProposals proposals = some l → Spec.applyProposals (some ⟨d0, s0⟩) l = some (some ⟨d, s⟩) →
      Spec.Rfc.Ruled pr sd st.group.groupContext l s c withPath ∧ (withPath = true → ∀ x res,
        m.tree.2.meet 0 c.sender.toNat st.group.myLeafIndex.toNat = some (x, res) → ∀ y ∈ res, y ∉ Spec.newLeaves l s))
    (hne : withPath = true → c.sender ≠ st.group.myLeafIndex)
    (hown : nodeAt (m.tree.2.flat Node.leaf Node.parent) (2 * st.group.myLeafIndex.toNat) = nodeAt st.vtree (2 * st.group.myLeafIndex.toNat))
    {raw : Bytes} {e : Bool} (hca : Carries pr st raw m.content e) (now : GoTime) :
    ∃ st', unmarshalAndProcessMessage pr st raw now = (.ok none, st') ∧ st'.vtree = m.tree.2.flat .leaf .parent ∧
      st'.group.keyState = m.epoch ∧ st'.group.pendingProposals = [] ∧ st'.group.myLeafIndex = st.group.myLeafIndex ∧ Keyed pr st' := by
  have hi := hr.inv hc
  obtain ⟨d0', hd0, s0', hs0⟩ := hi.tree.holds
  cases flat_any (hs0.flat.symm.trans hv)
  unfold Spec.Rfc.makeCommit at hm
  simp only [Option.bind_eq_bind, Option.bind_eq_some_iff] at hm
  obtain ⟨l, hl, r, hap, hm⟩ := hm
  cases r with
  | none => cases hm
  | some r =>
  obtain ⟨d, s⟩ := r
  obtain ⟨hru, hnew⟩ := hg l d s hl hap
  have hout := treeApply_outcome (s := some ⟨d0, s0⟩) hd0 hs0 l
  rw [hap] at hout
  obtain ⟨-, h, t, htr, hs⟩ := hout.resolve_right fun x => x.1 hru.depth
  replace hs : Holds h t s := hs
  have hctx : st.group.keyState.context = st.group.groupContext := rfl
  have hint : st.group.keyState.interim = st.group.interimTranscriptHash := rfl
  have hini : st.group.keyState.initSecret = st.group.initSecret := rfl
  have hnopsk : ∀ id ∈ l.filterMap Spec.pskID, ∃ b, (Spec.Rfc.preSharedKeyID id).bytes = some b := by
    intro id hid
    obtain ⟨⟨p, u⟩, hp, hpi⟩ := List.mem_filterMap.1 hid
    rcases hru.members _ hp with ⟨k, hq⟩ | ⟨k, hq⟩ | ⟨k, hq⟩ <;> simp only at hq <;> subst hq <;> cases hpi
  have htag : ∀ {x : Bytes} {key y : Bytes}, x = pr.mac sd.hash key y → x.length < 2 ^ 30 := by
    rintro x key y rfl
    rw [hc.mac_length]
    cases sd.hash <;> decide
  obtain ⟨pt, hpt⟩ := copyPrivTree_total (b := t.length) hi.length
  -- the rest, once the path is known
  have key : ∀ (path : Option UpdatePath) (s' : Ratchet ParentNode d) (th sec : Bytes),
      Spec.Rfc.confirm pr sd st.group.keyState wf c { proposals, path } ⟨d, s'⟩ th sec = some m →
      (path = none → withPath = false) →
      (match path with
        | none => s' = s ∧ s'.treeHash (pr.hash sd.hash) 0 = some th
        | some path => Spec.PathOk pr sd st.group.groupContext now s s' c.sender st.group.myLeafIndex.toNat
            (st.group.privTree.take (2 ^ (d + 1) - 1)) path th) →
      (∀ h' t' pt' sec' ctx', (match path with
        | some path => commitPath pr st.group.groupContext { st.group.groupContext with epoch := st.group.groupContext.epoch + 1 } h t
            c.sender st.group.myLeafIndex pt path now = .ok (h', t', ctx', pt', sec')
        | none => h' = h ∧ t' = t ∧ sec' = List.replicate sd.kdf.size 0) → Holds h' t' s' ∧ sec' = sec) →
      ∃ st', unmarshalAndProcessMessage pr st raw now = (.ok none, st') ∧ st'.vtree = m.tree.2.flat .leaf .parent ∧
        st'.group.keyState = m.epoch ∧ st'.group.pendingProposals = [] ∧ st'.group.myLeafIndex = st.group.myLeafIndex ∧ Keyed pr st' := by
    intro path s' th sec hcf hpn hpath hsec
    obtain ⟨sig, input, rawc, c1, c2, c3, c4, c5, c6, c7, c8, ⟨key, c9⟩, c10, c11, c12, c13⟩ := confirm_made hcf
    have hcm : m.content.content.content = .commit { proposals, path } := by rw [c2]; rfl
    have hse : m.content.content.sender.leafIndex = c.sender := by rw [c2]; rfl
    have hok : Spec.CommitOk pr sd st.group.groupContext st.group.interimTranscriptHash st.group.pendingProposals now s0
        st.group.myLeafIndex.toNat st.group.privTree m.content { proposals, path } l s s' th input rawc := by
      refine ⟨by rw [hse]; exact hl, hnopsk, by rw [hse]; exact hru.proposals, hru.packages, fun hp => hru.pathless (hpn hp), hru.depth, hap, ?_,
        by rw [c1, c3]; exact c6, htag c9, c7, c8⟩
      rw [hse]
      exact hpath
    obtain ⟨r, st', hst⟩ := (commit_iff hc hi hsd hd0 hs0 hca hcm now).2 ⟨l, d, s, s', th, input, rawc, hok⟩
    have hst' := hst
    obtain rfl : r = none := by
      obtain ⟨a, e', hca', ⟨p, hp, hq, _⟩ | ⟨_, _, hq, _⟩ | ⟨data, hdata, _⟩⟩ := accepted_cases hst
      · exact hq
      · exact hq
      · obtain rfl := (hca'.unique hca).1
        rw [hcm] at hdata
        cases hdata
    obtain ⟨l', h', t', k1, k2, k3, k4⟩ := accepted_commit hca hcm hst
    rw [hse, hl] at k1
    cases k1
    rw [htr] at k3
    cases k3
    obtain ⟨th', sec', input', raw', g1, g2, g3, g4, g5⟩ := finishCommit_next hsd k4
    obtain ⟨_, _, _, _, _, k6, _, k8⟩ := finishCommit_group k4
    have hhs : Holds st'.heap st'.group.tree s' ∧ sec' = sec := by
      rcases g5 with ⟨e1, e2⟩ | ⟨p, pt2, e1, e2, e3⟩
      · replace e1 : path = none := e1
        subst e1
        obtain ⟨_, _, _, ⟨_, x1, x2, _⟩ | ⟨_, _, _, x, _⟩⟩ := finishCommit_parts k4
        · exact hsec _ _ [] sec' st.group.groupContext ⟨x1, x2, e2⟩
        · cases x
      · replace e1 : path = some p := e1
        subst e1
        rw [hpt] at e2
        cases e2
        rw [hse] at e3
        exact hsec _ _ _ _ _ e3
    obtain ⟨hh, rfl⟩ := hhs
    have hvt : st'.vtree = m.tree.2.flat .leaf .parent := by rw [c4]; exact hh.flat
    refine ⟨st', hst, hvt, ?_, k8, k6, message_keyed hc hi hk hst (by unfold LeafKept; rw [hvt]; exact hown)⟩
    have hthe : th' = th := by
      have e1 : computeRootTreeHash pr st.group.groupContext.cipherSuite (derefTree st'.heap st'.group.tree) = .ok th' := g1
      rw [hh.flat] at e1
      exact Option.some.inj (((computeRootTreeHash_iff hc hsd hru.depth s' th').1 e1).symm.trans hok.treeHash_eq)
    subst hthe
    rw [C38_none pr _ sd hsd] at g3
    have hpsk := (Res.ok.inj g3).symm
    rw [hpsk] at g4
    obtain rfl : input' = input := by
      rw [c1, c3] at g2
      exact Option.some.inj ((transcriptInput_some.2 g2).symm.trans c6)
    have hc1 := g4.context
    have hraw : raw' = rawc := by
      have := g4.encoded
      rw [hc1] at this
      exact Option.some.inj (this.symm.trans c7)
    subst hraw
    have i2 := g4.interim
    have i3 := g4.epochSecret
    have i4 := g4.initSecret
    rw [hc1] at i2
    rw [c10] at c11
    rw [i3] at i4
    rw [c12] at c13
    generalize st'.group.keyState = k at *
    generalize m.epoch = k' at *
    cases k
    cases k'
    simp only at hc1 i2 i3 i4 c10 c11 c12 c13
    rw [hc1, i2, i3, i4, c10, c11, c12, c13]
  cases withPath with
  | false =>
    simp only [Bool.false_eq_true, if_false, Option.bind_eq_some_iff] at hm
    obtain ⟨th, hth, hm⟩ := hm
    refine key none s th _ hm (fun _ => rfl) ⟨rfl, hth⟩ ?_
    rintro h' t' pt' sec' ctx' ⟨rfl, rfl, rfl⟩
    exact ⟨hs, rfl⟩
  | true =>
    simp only [if_true, Option.bind_eq_some_iff] at hm
    obtain ⟨⟨path, s', th⟩, hmp, hm⟩ := hm
    simp only at hm
    have hmp' := updatePath_made hmp
    obtain ⟨sig, input, rawc, c1, c2, c3, c4, -⟩ := confirm_made hm
    have hnew' := hnew rfl
    rw [c4] at hown hnew'
    have hpok := makePath_ok hc hi hk hsd (hsz rfl) htr hs hru hmp hown (hne rfl) hnew' now
    refine key (some path) s' th _ hm (fun h => by cases h) hpok ?_
    intro h' t' pt' sec' ctx' hcp
    obtain ⟨leaf, th', g1, g2, g3, g4, g5⟩ := commitPath_ok hcp
    obtain ⟨ph, sig, provisional, m1, m2, m3, m4, m5, m6, m7, m8⟩ := hmp'
    have hin := hru.inside
    obtain ⟨hh, pt3, hdec⟩ := honest_secret hc hi hk hsd (hsz rfl) htr hru.depth hs hin m4 g2 hpt hown (fun e => hne rfl (UInt32.toNat_inj.1 e)) m6 m7 m8 hnew'
    refine ⟨hh, ?_⟩
    have : th' = th := by
      rw [hh.flat] at g3
      exact Option.some.inj (((computeRootTreeHash_iff hc hsd hru.depth s' th').1 g3).symm.trans m5)
    subst this
    rw [g4] at g5
    rw [g5] at hdec
    exact (Prod.mk.inj (Res.ok.inj hdec)).1

/-! ### The message -/

/-- The message with such a commit, in the clear or encrypted, is read and authentic. -/
theorem commitMessage_carries (hc : pr.Correct) {st : GroupState} (hr : Reachable pr st) {sd : SuiteDesc}
    (hsd : suite st.group.groupContext.cipherSuite = .ok sd) {d0 : Nat} {s0 : Ratchet ParentNode d0} (hv : st.vtree = s0.flat .leaf .parent)
    {wf : WireFormat} {c : Spec.Rfc.Committer} {proposals : List ProposalOrRef} {withPath : Bool} {m : Spec.Rfc.Made}
    (hm : Spec.Rfc.makeCommit pr sd st.group.keyState st.group.pendingProposals s0 wf c proposals withPath = some m)
    (hver : ∀ k, .proposal (.add k) ∈ proposals → k.version = 1)
    (hkey : ∃ old r, nodeAt st.vtree (2 * c.sender.toNat) = some (.leaf old) ∧ old.signatureKey = (pr.sigKeyPair sd.sig r).1 ∧
      c.signKey = (pr.sigKeyPair sd.sig r).2) {v : Spec.Rfc.Envelope} {raw : Bytes}
    (hraw : Spec.Rfc.commitMessage pr sd st.group.keyState d0 v m = some raw) :
    Carries pr st raw m.content (wf = .privateMessage) := by
  have hcm : ∃ path tree th sec, Spec.Rfc.confirm pr sd st.group.keyState wf c { proposals, path } tree th sec = some m := by
    unfold Spec.Rfc.makeCommit at hm
    simp only [Option.bind_eq_bind, Option.bind_eq_some_iff] at hm
    obtain ⟨l, hl, r, hap, hm⟩ := hm
    cases r with
    | none => cases hm
    | some r =>
      simp only at hm
      split at hm
      · simp only [Option.bind_eq_some_iff] at hm
        obtain ⟨x, _, hm⟩ := hm
        exact ⟨_, _, _, _, hm⟩
      · simp only [Option.bind_eq_some_iff] at hm
        obtain ⟨x, _, hm⟩ := hm
        exact ⟨_, _, _, _, hm⟩
  obtain ⟨path, tree, th, sec, hcf⟩ := hcm
  obtain ⟨sig, input, rawc, c1, c2, c3, c4, c5, -⟩ := confirm_made hcf
  have hso : Spec.Rfc.Sound (.commit { proposals, path }) m.content.auth.confirmationTag := by
    refine ⟨⟨fun _ h => (by cases h), fun c' h k hk => ?_⟩, fun h => absurd rfl h⟩
    cases h
    exact hver k hk
  refine C121_read hc hr hsd hv hkey (wf := wf) hso (ad := c.authenticatedData) (sigRand := c.sigRand) ?_ hraw
  obtain ⟨⟨wf', content, ⟨sig', tag⟩⟩, tree', ep⟩ := m
  simp only at c1 c2 c3 c5
  subst c1 c2 c3
  unfold Spec.Rfc.compose
  simp only [Option.bind_eq_bind, Option.bind_eq_some_iff, Option.pure_def]
  exact ⟨_, c5, rfl⟩

/-- **C119**: a member that holds its keys follows every commit of another member that does what RFC 9420 says. The commit is made for the
epoch and the tree of the receiver; it follows the rules; it leaves the receiver's leaf alone; the hash and the KEM of the cipher suite fit; and nothing
that the commit adds is in the resolution on the receiver's side. Then the message, in the clear or encrypted, is accepted at any time; the receiver
comes to the same tree and the same epoch as the committer; and it holds its keys again. -/
theorem C119_followed (hc : pr.Correct) {st : GroupState} (hr : Reachable pr st) (hk : Keyed pr st) {sd : SuiteDesc}
    (hsd : suite st.group.groupContext.cipherSuite = .ok sd) {d0 : Nat} {s0 : Ratchet ParentNode d0} (hv : st.vtree = s0.flat .leaf .parent)
    {wf : WireFormat} {c : Spec.Rfc.Committer} {proposals : List ProposalOrRef} {withPath : Bool} {m : Spec.Rfc.Made}
    (hm : Spec.Rfc.makeCommit pr sd st.group.keyState st.group.pendingProposals s0 wf c proposals withPath = some m)
    (hver : ∀ k, .proposal (.add k) ∈ proposals → k.version = 1)
    (hkey : ∃ old r, nodeAt st.vtree (2 * c.sender.toNat) = some (.leaf old) ∧ old.signatureKey = (pr.sigKeyPair sd.sig r).1 ∧
      c.signKey = (pr.sigKeyPair sd.sig r).2)
    (hsz : withPath = true → sd.kem.seedSize = sd.kdf.size)
    (hg : ∀ l d s, Spec.resolve c.sender st.group.pendingProposals proposals = some l → Spec.applyProposals (some ⟨d0, s0⟩) l = some (some ⟨d, s⟩) →
      Spec.Rfc.Ruled pr sd st.group.groupContext l s c withPath ∧ (withPath = true → ∀ x res,
        m.tree.2.meet 0 c.sender.toNat st.group.myLeafIndex.toNat = some (x, res) → ∀ y ∈ res, y ∉ Spec.newLeaves l s))
    (hne : withPath = true → c.sender ≠ st.group.myLeafIndex)
    (hown : nodeAt (m.tree.2.flat Node.leaf Node.parent) (2 * st.group.myLeafIndex.toNat) = nodeAt st.vtree (2 * st.group.myLeafIndex.toNat))
    {v : Spec.Rfc.Envelope} {raw : Bytes} (hraw : Spec.Rfc.commitMessage pr sd st.group.keyState d0 v m = some raw) (now : GoTime) :
    ∃ st', unmarshalAndProcessMessage pr st raw now = (.ok none, st') ∧ st'.vtree = m.tree.2.flat .leaf .parent ∧
      st'.group.keyState = m.epoch ∧ st'.group.pendingProposals = [] ∧ st'.group.myLeafIndex = st.group.myLeafIndex ∧ Keyed pr st' :=
  C119_content hc hr hk hsd hv hm hsz hg hne hown (commitMessage_carries hc hr hsd hv hm hver hkey hraw) now

/-- **C119**, the case left out: whoever has a leaf that the commit adds in the resolution on its side refuses the commit. -/
theorem C119_refused (hc : pr.Correct) {st : GroupState} (hr : Reachable pr st) {sd : SuiteDesc}
    (hsd : suite st.group.groupContext.cipherSuite = .ok sd) {d0 : Nat} {s0 : Ratchet ParentNode d0} (hv : st.vtree = s0.flat .leaf .parent)
    {wf : WireFormat} {c : Spec.Rfc.Committer} {proposals : List ProposalOrRef} {m : Spec.Rfc.Made}
    (hm : Spec.Rfc.makeCommit pr sd st.group.keyState st.group.pendingProposals s0 wf c proposals true = some m)
    (hver : ∀ k, .proposal (.add k) ∈ proposals → k.version = 1)
    (hkey : ∃ old r, nodeAt st.vtree (2 * c.sender.toNat) = some (.leaf old) ∧ old.signatureKey = (pr.sigKeyPair sd.sig r).1 ∧
      c.signKey = (pr.sigKeyPair sd.sig r).2)
    {l : List (Proposal × UInt32)} {d : Nat} {s : Ratchet ParentNode d} (hl : Spec.resolve c.sender st.group.pendingProposals proposals = some l)
    (hap : Spec.applyProposals (some ⟨d0, s0⟩) l = some (some ⟨d, s⟩)) (hru : Spec.Rfc.Ruled pr sd st.group.groupContext l s c true)
    {x y : Nat} {res : List Nat} (hx : m.tree.2.meet 0 c.sender.toNat st.group.myLeafIndex.toNat = some (x, res)) (hy : y ∈ res)
    (hnew : y ∈ Spec.newLeaves l s)
    {v : Spec.Rfc.Envelope} {raw : Bytes} (hraw : Spec.Rfc.commitMessage pr sd st.group.keyState d0 v m = some raw) (now : GoTime) (r : Option Bytes) :
    (unmarshalAndProcessMessage pr st raw now).1 ≠ .ok r := by
  intro hok
  have hca := commitMessage_carries hc hr hsd hv hm hver hkey hraw
  obtain ⟨st', h⟩ : ∃ st', unmarshalAndProcessMessage pr st raw now = (.ok r, st') := ⟨_, Prod.ext hok rfl⟩
  have hi := hr.inv hc
  obtain ⟨d0', hd0, s0', hs0⟩ := hi.tree.holds
  cases flat_any (hs0.flat.symm.trans hv)
  unfold Spec.Rfc.makeCommit at hm
  simp only [hl, hap, Option.bind_eq_bind, Option.bind_some, if_true, Option.bind_eq_some_iff] at hm
  obtain ⟨⟨path, s', th⟩, hmp, hm⟩ := hm
  simp only at hm
  have hout := treeApply_outcome (s := some ⟨d0, s0⟩) hd0 hs0 l
  rw [hap] at hout
  obtain ⟨-, hh, t, htr, hs⟩ := hout.resolve_right fun x => x.1 hru.depth
  replace hs : Holds hh t s := hs
  obtain ⟨ph, sig, provisional, m1, m2, m3, m4, m5, m6, m7, m8⟩ := updatePath_made hmp
  obtain ⟨sig', input, rawc, c1, c2, c3, c4, -⟩ := confirm_made hm
  have hcm : m.content.content.content = .commit { proposals, path := some path } := by rw [c2]; rfl
  have hse : m.content.content.sender.leafIndex = c.sender := by rw [c2]; rfl
  have hpow : 2 ^ d ≤ 2 ^ 31 := Nat.pow_le_pow_right (by decide) hru.depth
  have hmod : c.sender.toNat % 2 ^ 31 = c.sender.toNat := Nat.mod_eq_of_lt (by have := hru.inside; omega)
  obtain ⟨l', h', t', k1, k2, k3, k4⟩ := accepted_commit hca hcm h
  rw [hse, hl] at k1
  cases k1
  rw [htr] at k3
  cases k3
  obtain ⟨th', sec', input', raw', g1, g2, g3, g4, g5⟩ := finishCommit_next hsd k4
  obtain ⟨_, pt, hcp, ⟨hn, _⟩ | ⟨path', ctx', sec, hp', hpath⟩⟩ := finishCommit_parts k4
  · cases hn
  replace hp' : some path = some path' := hp'
  cases hp'
  rw [hse] at hpath
  obtain ⟨leaf, th2, q1, q2, q3, q4, q5⟩ := commitPath_ok hpath
  obtain ⟨h2, t2, k5, k6, _⟩ := (mergeUpdatePath_spec hc hsd hru.depth hru.inside hs path).1 s' m4
  rw [q2] at k5
  cases k5
  have hvt : st'.vtree = s'.flat .leaf .parent := k6.flat
  have hthe : th' = th := by
    have e1 : computeRootTreeHash pr st.group.groupContext.cipherSuite (derefTree st'.heap st'.group.tree) = .ok th' := g1
    rw [k6.flat] at e1
    exact Option.some.inj (((computeRootTreeHash_iff hc hsd hru.depth s' th').1 e1).symm.trans m5)
  subst hthe
  have hctx := g4.context
  rw [c4] at hx
  have hap' := C71_apart hc hr h (new := Spec.newLeaves l s) (by
    intro a e c' path' hca' hcm' hp'
    obtain rfl := (hca'.unique hca).1
    rw [hcm] at hcm'
    cases hcm'
    cases hp'
    refine ⟨sd, d, s', provisional, c.secret, hsd, hvt, ?_, by rw [hse, hmod]; exact m8⟩
    replace hctx : st'.group.groupContext = _ := hctx
    rw [hctx]
    exact m6) _ _ _ path hca hcm rfl
  rw [hse, hmod] at hap'
  exact hap'.2 d s' hvt x res hx y hy hnew

/-! ### A course of commits -/

/-- Commits made one after the other, each as RFC 9420 says, from the epoch `e` and the tree `t` on: the messages, the epoch and the tree at the end. The
member at the leaf `my` makes none of them with a path; its leaf is left alone, and nothing added is in the resolution on its side. All proposals are in the commits. -/
inductive Spec.Rfc.Course (pr : Prims) (sd : SuiteDesc) (my : UInt32) :
    Epoch → Ratchet.Any ParentNode → List Bytes → Epoch → Ratchet.Any ParentNode → Prop where
  | nil (e : Epoch) (t : Ratchet.Any ParentNode) : Course pr sd my e t [] e t
  | cons {e e' : Epoch} {t t' : Ratchet.Any ParentNode} {raw : Bytes} {raws : List Bytes} {wf : WireFormat} {c : Rfc.Committer}
      {proposals : List ProposalOrRef} {withPath : Bool} {m : Rfc.Made} {v : Rfc.Envelope}
      (made : Rfc.makeCommit pr sd e [] t.2 wf c proposals withPath = some m) (message : Rfc.commitMessage pr sd e t.1 v m = some raw)
      (versions : ∀ k, .proposal (.add k) ∈ proposals → k.version = 1)
      (signer : ∃ old r, nodeAt (t.2.flat Node.leaf Node.parent) (2 * c.sender.toNat) = some (.leaf old) ∧
        old.signatureKey = (pr.sigKeyPair sd.sig r).1 ∧ c.signKey = (pr.sigKeyPair sd.sig r).2)
      (sizes : withPath = true → sd.kem.seedSize = sd.kdf.size)
      (ruled : ∀ l d s, resolve c.sender [] proposals = some l → applyProposals (some t) l = some (some ⟨d, s⟩) →
        Rfc.Ruled pr sd e.context l s c withPath ∧ (withPath = true → ∀ x res,
          m.tree.2.meet 0 c.sender.toNat my.toNat = some (x, res) → ∀ y ∈ res, y ∉ newLeaves l s))
      (other : withPath = true → c.sender ≠ my)
      (kept : nodeAt (m.tree.2.flat Node.leaf Node.parent) (2 * my.toNat) = nodeAt (t.2.flat Node.leaf Node.parent) (2 * my.toNat))
      (rest : Course pr sd my m.epoch m.tree raws e' t') : Course pr sd my e t (raw :: raws) e' t'

/-- Messages processed one after the other, each at its time: what UnmarshalAndProcessMessage returns for each, and the group afterwards. -/
def processAll (pr : Prims) : GroupState → List (Bytes × GoTime) → List (Res (Option Bytes)) × GroupState
  | st, [] => ([], st)
  | st, (raw, now) :: rest =>
    let (r, st1) := unmarshalAndProcessMessage pr st raw now
    let (rs, st2) := processAll pr st1 rest
    (r :: rs, st2)

/-- **C119**, over time: a member that holds its keys follows a course of commits, each made as RFC 9420 says, to its end, whenever it processes them. -/
theorem C119_course (hc : pr.Correct) {sd : SuiteDesc} {my : UInt32} {e e' : Spec.Epoch} {t t' : Ratchet.Any ParentNode} {raws : List Bytes}
    (h : Spec.Rfc.Course pr sd my e t raws e' t') {st : GroupState} (hr : Reachable pr st) (hk : Keyed pr st)
    (hsd : suite st.group.groupContext.cipherSuite = .ok sd) (hmy : st.group.myLeafIndex = my) (hv : st.vtree = t.2.flat .leaf .parent)
    (he : st.group.keyState = e) (hp : st.group.pendingProposals = []) {msgs : List (Bytes × GoTime)} (hm : msgs.map Prod.fst = raws) :
    ∃ st', processAll pr st msgs = (msgs.map fun _ => .ok none, st') ∧ st'.vtree = t'.2.flat .leaf .parent ∧ st'.group.keyState = e' ∧
      st'.group.pendingProposals = [] ∧ st'.group.myLeafIndex = my ∧ Keyed pr st' ∧ Reachable pr st' := by
  induction h generalizing st msgs with
  | nil =>
    obtain rfl := List.map_eq_nil_iff.1 hm
    exact ⟨st, rfl, hv, he, hp, hmy, hk, hr⟩
  | @cons e e' t t' raw raws wf c proposals withPath m v made message versions signer sizes ruled other kept rest ih =>
    subst he hmy
    obtain ⟨⟨raw', now⟩, msgs, rfl, hm1, hm2⟩ := List.map_eq_cons_iff.1 hm
    simp only at hm1
    subst hm1
    obtain ⟨st1, g1, g2, g3, g4, g5, g6⟩ := C119_followed hc hr hk hsd hv (by rw [hp]; exact made) versions (by rw [hv]; exact signer) sizes
      (by rw [hp]; exact ruled) other (by rw [hv]; exact kept) message now
    obtain ⟨st', k1, k2⟩ := ih (.message hr g1 ⟨by simp, by simp⟩) g6 (by rw [upm_suite g1]; exact hsd) g5 g2 g3 g4 hm2
    refine ⟨st', ?_, k2⟩
    simp only [processAll, g1, k1, List.map_cons]

/-! ### A concrete case -/

/-- Rfc.Ruled, tested. -/
def ruledCheck (sd : SuiteDesc) (ctx : GroupContext) (l : List (Proposal × UInt32)) {d : Nat} (s : Ratchet ParentNode d) (c : Spec.Rfc.Committer) : Bool :=
  (l.all fun p => match p.1 with | .add k => decide (k.verify toyPrims ctx = .ok ()) | .update _ => true | .remove _ => true | _ => false) &&
  decide (c.sender ∉ l.filterMap Spec.target ∧ (l.filterMap Spec.target).Nodup) && decide (d ≤ 31 ∧ c.sender.toNat < 2 ^ d) &&
  decide (l.filterMap Spec.addKey).Nodup &&
  decide (∀ e ∈ c.leaf.extensions, e.ty ∈ c.leaf.capabilities.extensions) &&
  decide (((s.leaves.filterMap id).flatMap fun m => m.capabilities.credentials).count c.leaf.credential.ty = (s.leaves.filterMap id).length) &&
  (match s.leaves[c.sender.toNat]? with
    | some (some old) => decide (c.leaf.signatureKey = old.signatureKey)
    | _ => false) &&
  ((s.leaves.filterMap id).all fun m => decide (m.encryptionKey ≠ c.leaf.encryptionKey ∧ m.encryptionKey ∉ Spec.Rfc.pathKeys toyPrims sd s c)) &&
  decide (c.leaf.signatureKey = (toyPrims.sigKeyPair sd.sig c.leafKey).1 ∧ c.leafKey = (toyPrims.sigKeyPair sd.sig c.leafKey).2)

theorem ruledCheck_true {sd : SuiteDesc} {ctx : GroupContext} {l : List (Proposal × UInt32)} {d : Nat} {s : Ratchet ParentNode d}
    {c : Spec.Rfc.Committer} (h : ruledCheck sd ctx l s c = true) : Spec.Rfc.Ruled toyPrims sd ctx l s c true := by
  unfold ruledCheck at h
  simp only [Bool.and_eq_true, decide_eq_true_eq, List.all_eq_true] at h
  obtain ⟨⟨⟨⟨⟨⟨⟨⟨h1, h2, h3⟩, h4, h5⟩, h0⟩, h6⟩, h7⟩, h8⟩, h9⟩, h10⟩ := h
  have hm : ∀ p ∈ l, (∃ k, p.1 = .add k ∧ k.verify toyPrims ctx = .ok ()) ∨ (∃ n, p.1 = .update n) ∨ ∃ i, p.1 = .remove i := by
    intro p hp
    have := h1 p hp
    split at this
    · next n hn => exact .inl ⟨n, hn, of_decide_eq_true this⟩
    · next n hn => exact .inr (.inl ⟨n, hn⟩)
    · next n hn => exact .inr (.inr ⟨n, hn⟩)
    · cases this
  have hno : ∀ {β : Type} (f : Proposal × UInt32 → Option β), (∀ n u, f (.add n, u) = none) → (∀ n u, f (.update n, u) = none) →
      (∀ n u, f (.remove n, u) = none) → l.filterMap f = [] := by
    intro β f f0 f1 f2
    rw [List.filterMap_eq_nil_iff]
    rintro ⟨p, u⟩ hp
    rcases hm _ hp with ⟨n, hn, _⟩ | ⟨n, hn⟩ | ⟨n, hn⟩ <;> simp only at hn <;> subst hn
    · exact f0 _ _
    · exact f1 _ _
    · exact f2 _ _
  refine ⟨fun p hp => ?_, ⟨h0, h2, h3, ?_, ?_, ?_, ?_⟩, ?_, (fun h => by cases h), h4, h5, fun _ => h6, fun _ => h7, fun _ => ?_, fun _ m hm => ?_,
    fun _ => ⟨_, h10⟩⟩
  · rcases hm p hp with ⟨k, hk, _⟩ | h | h
    exacts [.inl ⟨k, hk⟩, .inr (.inl h), .inr (.inr h)]
  · rw [hno _ (fun _ _ => rfl) (fun _ _ => rfl) (fun _ _ => rfl)]
    exact List.nodup_nil
  · rw [List.countP_eq_zero.2]
    · omega
    · rintro ⟨p, u⟩ hp
      rcases hm _ hp with ⟨n, hn, _⟩ | ⟨n, hn⟩ | ⟨n, hn⟩ <;> simp only at hn <;> subst hn <;> simp [Spec.isGce]
  · rintro ⟨⟨p, u⟩, hp, hx⟩
    rcases hm _ hp with ⟨n, hn, _⟩ | ⟨n, hn⟩ | ⟨n, hn⟩ <;> simp only at hn <;> subst hn <;> cases hx
  · rintro ⟨p, u⟩ hp
    rcases hm _ hp with ⟨n, hn, _⟩ | ⟨n, hn⟩ | ⟨n, hn⟩ <;> simp only at hn <;> subst hn <;> rfl
  · intro k u hk
    rcases hm _ hk with ⟨n, hn, hv⟩ | ⟨n, hn⟩ | ⟨n, hn⟩ <;> cases hn
    exact packageValid_iff.2 hv
  · split at h8
    · next old ho => exact ⟨old, ho, .inl (of_decide_eq_true h8)⟩
    · cases h8
  · exact h9 m (by simpa using hm)

/-- The member `1` at leaf 1, about to make its commit number `n`. -/
def toyCommitter (n : UInt8) : Spec.Rfc.Committer where
  sender := 1
  signKey := [11, 1]
  leaf := { (toyMember 1).pub.leafNode with encryptionKey := [9, n, 101, 1] }
  leafKey := [11, 1]
  secret := List.replicate 32 n
  authenticatedData := [5, n]
  sigRand := []
  leafRand := []
  sealRand := fun _ _ => []

/-- Generation 2, a reuse guard, and three bytes of padding. -/
def toyEnvelope : Spec.Rfc.Envelope := ⟨2, ⟨1, 2, 3, 4⟩, 3⟩

/-- The hypotheses of C119_followed and Course.cons about a commit made, tested. -/
def stepCheck (sd : SuiteDesc) (ctx : GroupContext) (my : UInt32) (pending : List PendingProposal) (t : Ratchet.Any ParentNode)
    (c : Spec.Rfc.Committer) (proposals : List ProposalOrRef) (m : Spec.Rfc.Made) : Bool :=
  (proposals.all fun p => match p with | .proposal (.add k) => decide (k.version = 1) | _ => true) &&
  (match nodeAt (t.2.flat Node.leaf Node.parent) (2 * c.sender.toNat) with
    | some (.leaf old) => decide (old.signatureKey = (toyPrims.sigKeyPair sd.sig c.signKey).1 ∧ c.signKey = (toyPrims.sigKeyPair sd.sig c.signKey).2)
    | _ => false) && decide (sd.kem.seedSize = sd.kdf.size) &&
  (match Spec.resolve c.sender pending proposals with
    | none => true
    | some l => match Spec.applyProposals (some t) l with
      | some (some ⟨_, s⟩) => ruledCheck sd ctx l s c && (match m.tree.2.meet 0 c.sender.toNat my.toNat with
        | some (_, res) => res.all fun y => decide (y ∉ Spec.newLeaves l s)
        | none => true)
      | _ => true) &&
  decide (c.sender ≠ my) &&
  decide (nodeAt (m.tree.2.flat Node.leaf Node.parent) (2 * my.toNat) = nodeAt (t.2.flat Node.leaf Node.parent) (2 * my.toNat))

theorem stepCheck_true {sd : SuiteDesc} {my : UInt32} {pending : List PendingProposal} {t : Ratchet.Any ParentNode}
    {c : Spec.Rfc.Committer} {proposals : List ProposalOrRef} {m : Spec.Rfc.Made} {ctx : GroupContext}
    (h : stepCheck sd ctx my pending t c proposals m = true) :
    (∀ k, .proposal (.add k) ∈ proposals → k.version = 1) ∧
    (∃ old r, nodeAt (t.2.flat Node.leaf Node.parent) (2 * c.sender.toNat) = some (.leaf old) ∧
      old.signatureKey = (toyPrims.sigKeyPair sd.sig r).1 ∧ c.signKey = (toyPrims.sigKeyPair sd.sig r).2) ∧
    sd.kem.seedSize = sd.kdf.size ∧
    (∀ l d s, Spec.resolve c.sender pending proposals = some l → Spec.applyProposals (some t) l = some (some ⟨d, s⟩) →
      Spec.Rfc.Ruled toyPrims sd ctx l s c true ∧ (true = true → ∀ x res,
        m.tree.2.meet 0 c.sender.toNat my.toNat = some (x, res) → ∀ y ∈ res, y ∉ Spec.newLeaves l s)) ∧
    c.sender ≠ my ∧
    nodeAt (m.tree.2.flat Node.leaf Node.parent) (2 * my.toNat) = nodeAt (t.2.flat Node.leaf Node.parent) (2 * my.toNat) := by
  unfold stepCheck at h
  simp only [Bool.and_eq_true, decide_eq_true_eq, List.all_eq_true] at h
  obtain ⟨⟨⟨⟨⟨h4, h5⟩, h6⟩, h7⟩, h8⟩, h9⟩ := h
  refine ⟨fun k hk' => ?_, ?_, h6, fun l d s e1 e2 => ?_, h8, h9⟩
  · simpa using h4 _ hk'
  · split at h5
    · next old ho => exact ⟨old, _, ho, of_decide_eq_true h5⟩
    · cases h5
  · rw [e1] at h7
    simp only [e2, Bool.and_eq_true] at h7
    refine ⟨ruledCheck_true h7.1, fun _ x res hx y hy => ?_⟩
    have := h7.2
    rw [hx] at this
    simpa using List.all_eq_true.1 this y hy

/-- Commits with paths, made one after the other. -/
def courseCheck (sd : SuiteDesc) (my : UInt32) : Spec.Epoch → Ratchet.Any ParentNode → List (WireFormat × Spec.Rfc.Committer × List ProposalOrRef) → Bool
  | _, _, [] => true
  | e, t, (wf, c, proposals) :: rest => match Spec.Rfc.makeCommit toyPrims sd e [] t.2 wf c proposals true with
    | none => false
    | some m => (Spec.Rfc.commitMessage toyPrims sd e t.1 toyEnvelope m).isSome && stepCheck sd e.context my [] t c proposals m &&
      courseCheck sd my m.epoch m.tree rest

theorem courseCheck_true {sd : SuiteDesc} {my : UInt32} {cs : List (WireFormat × Spec.Rfc.Committer × List ProposalOrRef)} {e : Spec.Epoch}
    {t : Ratchet.Any ParentNode} (h : courseCheck sd my e t cs = true) :
    ∃ raws e' t', raws.length = cs.length ∧ Spec.Rfc.Course toyPrims sd my e t raws e' t' := by
  induction cs generalizing e t with
  | nil => exact ⟨[], e, t, rfl, .nil _ _⟩
  | cons c cs ih =>
    obtain ⟨wf, c, proposals⟩ := c
    unfold courseCheck at h
    split at h
    · cases h
    · next m hm =>
      simp only [Bool.and_eq_true] at h
      obtain ⟨⟨h1, h2⟩, h3⟩ := h
      obtain ⟨raw, hraw⟩ := Option.isSome_iff_exists.1 h1
      obtain ⟨raws, e', t', g1, g2⟩ := ih h3
      obtain ⟨k2, k3, k4, k5, k6, k7⟩ := stepCheck_true h2
      exact ⟨raw :: raws, e', t', by simp [g1], .cons hm hraw k2 k3 (fun _ => k4) k5 (fun _ => k6) k7 g2⟩

set_option maxRecDepth 100000 in
/-- **A concrete case for C119_followed**: in the group of three, the member at leaf 1 makes commits as RFC 9420 says: with nothing but a path, with the
removal of the creator, and with another member in the creator's place; as a PublicMessage and as a PrivateMessage. The member at leaf 2 follows each of them. -/
example : ∃ a b c : GroupState, toyThree = .ok (a, b, c) ∧
    ∀ wf ∈ [WireFormat.publicMessage, WireFormat.privateMessage], ∀ proposals ∈ [[], [ProposalOrRef.proposal (.remove 0)], [.proposal (.remove 0), .proposal (.add (toyMember 3).pub)]], ∃ sd m raw,
      suite c.group.groupContext.cipherSuite = .ok sd ∧
      Spec.Rfc.makeCommit toyPrims sd c.group.keyState c.group.pendingProposals (ratchetOf c.vtree 2 0) wf (toyCommitter 9) proposals true = some m ∧
      Spec.Rfc.commitMessage toyPrims sd c.group.keyState 2 toyEnvelope m = some raw ∧
      ∀ now : GoTime, ∃ st', unmarshalAndProcessMessage toyPrims c raw now = (.ok none, st') ∧ st'.vtree = m.tree.2.flat .leaf .parent ∧
        st'.group.keyState = m.epoch ∧ st'.group.pendingProposals = [] ∧ st'.group.myLeafIndex = c.group.myLeafIndex ∧ Keyed toyPrims st' := by
  obtain ⟨⟨a, b, c⟩, h, hx⟩ := Res.holds_ok (x := toyThree) (f := fun x => toyKeyed x.2.2 2 &&
    decide (x.2.2.vtree = (ratchetOf x.2.2.vtree 2 0).flat Node.leaf Node.parent) && (suite x.2.2.group.groupContext.cipherSuite).holds fun sd =>
    ([WireFormat.publicMessage, WireFormat.privateMessage].all fun wf => [[], [ProposalOrRef.proposal (.remove 0)], [.proposal (.remove 0), .proposal (.add (toyMember 3).pub)]].all fun proposals =>
      match Spec.Rfc.makeCommit toyPrims sd x.2.2.group.keyState x.2.2.group.pendingProposals (ratchetOf x.2.2.vtree 2 0) wf (toyCommitter 9) proposals true with
      | none => false
      | some m => (Spec.Rfc.commitMessage toyPrims sd x.2.2.group.keyState 2 toyEnvelope m).isSome &&
        stepCheck sd x.2.2.group.groupContext x.2.2.group.myLeafIndex x.2.2.group.pendingProposals ⟨2, ratchetOf x.2.2.vtree 2 0⟩ (toyCommitter 9) proposals m))
    (by decide +kernel)
  simp only [Bool.and_eq_true, decide_eq_true_eq] at hx
  obtain ⟨⟨h1, h2⟩, h3⟩ := hx
  obtain ⟨sd, hsd, h4⟩ := Res.holds_ok h3
  refine ⟨a, b, c, h, fun wf hwf ps hps => ?_⟩
  simp only [List.all_eq_true] at h4
  have h5 := h4 wf hwf ps hps
  split at h5
  · cases h5
  · next m hm =>
    simp only [Bool.and_eq_true] at h5
    obtain ⟨raw, hraw⟩ := Option.isSome_iff_exists.1 h5.1
    obtain ⟨k2, k3, k4, k5, k6, k7⟩ := stepCheck_true h5.2
    exact ⟨sd, m, raw, hsd, hm, hraw, fun now => C119_followed toyPrims_correct (toyThree_reachable h).2.2 (toyKeyed_true h1) hsd h2 hm k2
      (by rw [h2]; exact k3) (fun _ => k4) k5 (fun _ => k6) (by rw [h2]; exact k7) hraw now⟩

set_option maxRecDepth 100000 in
/-- **A concrete case for C119_course**: three commits one after the other, the second removing the creator. -/
example : ∃ a b c : GroupState, toyThree = .ok (a, b, c) ∧ ∃ sd raws e' t', raws.length = 3 ∧
    Spec.Rfc.Course toyPrims sd c.group.myLeafIndex c.group.keyState ⟨2, ratchetOf c.vtree 2 0⟩ raws e' t' ∧
    ∀ msgs : List (Bytes × GoTime), msgs.map Prod.fst = raws → ∃ st', processAll toyPrims c msgs = (msgs.map fun _ => .ok none, st') ∧
      st'.vtree = t'.2.flat .leaf .parent ∧ st'.group.keyState = e' ∧ st'.group.pendingProposals = [] ∧ st'.group.myLeafIndex = c.group.myLeafIndex ∧
      Keyed toyPrims st' ∧ Reachable toyPrims st' := by
  obtain ⟨⟨a, b, c⟩, h, hx⟩ := Res.holds_ok (x := toyThree) (f := fun x => toyKeyed x.2.2 2 && x.2.2.group.pendingProposals.isEmpty &&
    decide (x.2.2.vtree = (ratchetOf x.2.2.vtree 2 0).flat Node.leaf Node.parent) && (suite x.2.2.group.groupContext.cipherSuite).holds fun sd =>
    courseCheck sd x.2.2.group.myLeafIndex x.2.2.group.keyState ⟨2, ratchetOf x.2.2.vtree 2 0⟩
      [(.publicMessage, toyCommitter 9, []), (.privateMessage, toyCommitter 8, [.proposal (.remove 0)]), (.privateMessage, toyCommitter 7, [])])
    (by decide +kernel)
  simp only [Bool.and_eq_true, decide_eq_true_eq, List.isEmpty_iff] at hx
  obtain ⟨⟨⟨h1, hp⟩, h2⟩, h3⟩ := hx
  obtain ⟨sd, hsd, h4⟩ := Res.holds_ok h3
  obtain ⟨raws, e', t', g1, g2⟩ := courseCheck_true h4
  exact ⟨a, b, c, h, sd, raws, e', t', g1, g2, fun _ => C119_course toyPrims_correct g2 (toyThree_reachable h).2.2 (toyKeyed_true h1) hsd rfl h2 rfl hp⟩

set_option maxRecDepth 100000 in
/-- **A concrete case for C119_refused**: the member at leaf 1 adds one at leaf 3, which the member at leaf 2 has in the resolution on its side. -/
example : ∃ a b c : GroupState, toyThree = .ok (a, b, c) ∧ ∃ sd m raw,
    suite c.group.groupContext.cipherSuite = .ok sd ∧
    Spec.Rfc.makeCommit toyPrims sd c.group.keyState c.group.pendingProposals (ratchetOf c.vtree 2 0) .privateMessage (toyCommitter 9)
      [.proposal (.add (toyMember 3).pub)] true = some m ∧
    Spec.Rfc.commitMessage toyPrims sd c.group.keyState 2 toyEnvelope m = some raw ∧
    (∃ a', unmarshalAndProcessMessage toyPrims a raw toyLater = (.ok none, a') ∧ a'.group.keyState = m.epoch) ∧
    ∀ now r, (unmarshalAndProcessMessage toyPrims c raw now).1 ≠ .ok r := by
  obtain ⟨⟨a, b, c⟩, h, hx⟩ := Res.holds_ok (x := toyThree) (f := fun x =>
    decide (x.2.2.vtree = (ratchetOf x.2.2.vtree 2 0).flat Node.leaf Node.parent) && (suite x.2.2.group.groupContext.cipherSuite).holds fun sd =>
    match Spec.resolve 1 x.2.2.group.pendingProposals [.proposal (.add (toyMember 3).pub)] with
    | none => false
    | some l => match Spec.applyProposals (some ⟨2, ratchetOf x.2.2.vtree 2 0⟩) l with
      | none => false
      | some none => false
      | some (some ⟨_, s⟩) => ruledCheck sd x.2.2.group.groupContext l s (toyCommitter 9) &&
        match Spec.Rfc.makeCommit toyPrims sd x.2.2.group.keyState x.2.2.group.pendingProposals (ratchetOf x.2.2.vtree 2 0) .privateMessage (toyCommitter 9)
          [.proposal (.add (toyMember 3).pub)] true with
        | none => false
        | some m => (match m.tree.2.meet 0 1 x.2.2.group.myLeafIndex.toNat with
            | none => false
            | some (_, res) => decide (6 ∈ res ∧ 6 ∈ Spec.newLeaves l s)) &&
          (match nodeAt x.2.2.vtree 2 with
            | some (.leaf old) => decide (old.signatureKey = [11, 1] ∧ (toyPrims.sigKeyPair sd.sig [11, 1]) = ([11, 1], [11, 1]))
            | _ => false) &&
          match Spec.Rfc.commitMessage toyPrims sd x.2.2.group.keyState 2 toyEnvelope m with
          | none => false
          | some raw => decide ((unmarshalAndProcessMessage toyPrims x.1 raw toyLater).1 = .ok none ∧
              (unmarshalAndProcessMessage toyPrims x.1 raw toyLater).2.group.keyState = m.epoch))
    (by decide +kernel)
  simp only [Bool.and_eq_true, decide_eq_true_eq] at hx
  obtain ⟨h1, h3⟩ := hx
  obtain ⟨sd, hsd, h4⟩ := Res.holds_ok h3
  split at h4
  · cases h4
  · next l hl =>
    split at h4
    · cases h4
    · cases h4
    · next d s hap =>
      simp only [Bool.and_eq_true] at h4
      obtain ⟨hru, h4⟩ := h4
      split at h4
      · cases h4
      · next m hm =>
        simp only [Bool.and_eq_true] at h4
        obtain ⟨⟨h5, h6⟩, h7⟩ := h4
        split at h5
        · cases h5
        · next x res hx =>
          simp only [decide_eq_true_eq] at h5
          split at h6
          · next old ho =>
            simp only [decide_eq_true_eq] at h6
            split at h7
            · cases h7
            · next raw hraw =>
              simp only [decide_eq_true_eq] at h7
              refine ⟨a, b, c, h, sd, m, raw, hsd, hm, hraw, ⟨_, Prod.ext h7.1 rfl, h7.2⟩, fun now r =>
                C119_refused toyPrims_correct (toyThree_reachable h).2.2 hsd h1 hm ?_ ?_ hl hap (ruledCheck_true hru) hx h5.1 h5.2 hraw now r⟩
              · intro k hk
                simp only [List.mem_singleton, ProposalOrRef.proposal.injEq, Proposal.add.injEq] at hk
                rw [hk]
                decide +kernel
              · exact ⟨old, [11, 1], ho, by rw [h6.1, h6.2], by rw [h6.2]; rfl⟩
          · cases h6

end Mls
