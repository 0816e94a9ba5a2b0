import Verif.Props.Crash
import Verif.Props.Welcomed
import Verif.Props.Calls
/-
C109: exactly which welcomes make a joiner panic.
-/
namespace Mls

open Spec (Ratchet nodeAt IsAncestor ITree)

variable {pr : Prims}

/-! ### Specification -/

/-- Going through the nodes numbered `xs` for one with the parent hash `ph`, a number outside the tree is met first. -/
def Spec.Strays (t : VTree) (xs : List Nat) (ph : Bytes) : Prop :=
  ∃ pre x post, xs = pre ++ x :: post ∧ t.length ≤ x ∧ ¬ Spec.HashIn t pre ph

/-- Looking for the child that the parent node `p` is linked to (compare Spec.ParentLink) goes outside the tree: below one of the
children an unmerged leaf is. -/
def Spec.LinkCrash (H : Bytes → Bytes) (t : VTree) {d : Nat} (off i : Nat) (p : ParentNode) (l r : Ratchet ParentNode d) : Prop :=
  ∃ lh rh li ri, (l.without p.unmergedLeaves i).treeHash H i = some lh ∧
    (r.without p.unmergedLeaves (i + 2 ^ d)).treeHash H (i + 2 ^ d) = some rh ∧
    Spec.parentHashInput p rh = some li ∧ Spec.parentHashInput p lh = some ri ∧
    (Spec.Strays t (l.resolution off) (H li) ∨ Spec.Strays t (r.resolution (off + 2 ^ (d + 1))) (H ri))

/-- At number `x` the array `t` has a parent node `p` above the subtrees `l` and `r` with 2 ^ k leaves each, whose nodes are numbered
from `off` and whose leaves from `i`. -/
def Spec.ParentAt (t : VTree) (x off i : Nat) {k : Nat} (p : ParentNode) (l r : Ratchet ParentNode k) : Prop :=
  ∃ j, x = idx (k + 1) j ∧ off = j * 2 ^ (k + 2) ∧ i = j * 2 ^ (k + 1) ∧ VAt t j (.node (some p) l r)

/-- If number `x` is a parent node, it is linked to exactly one child, and looking for it stays inside the tree. -/
def Spec.Linked (H : Bytes → Bytes) (t : VTree) (x : Nat) : Prop :=
  ∀ off i k p (l r : Ratchet ParentNode k), Spec.ParentAt t x off i p l r →
    Spec.ParentLink H t off i p l r ∧ ¬ Spec.LinkCrash H t off i p l r

/-- If leaf `i` is not blank: it is valid by itself, its credential type is counted for every member, and its keys are not those of a
leaf before it. -/
def Spec.LeafFits (pr : Prims) (ctx : GroupContext) (now : GoTime) (t : VTree) {d : Nat} (s : Ratchet ParentNode d) (i : Nat) : Prop :=
  ∀ l, nodeAt t (2 * i) = some (.leaf l) → Spec.LeafValid pr ctx now i l ∧
    ((s.leaves.filterMap id).flatMap fun m => m.capabilities.credentials).count l.credential.ty = (s.leaves.filterMap id).length ∧
    ∀ j < i, ∀ m, nodeAt t (2 * j) = some (.leaf m) → m.signatureKey ≠ l.signatureKey ∧ m.encryptionKey ≠ l.encryptionKey

/-- If number `x` is a parent node: its unmerged leaves are below it and recorded in between, and its key is not that of a leaf or of a
parent node before it. -/
def Spec.ParentFits (t : VTree) (d x : Nat) : Prop :=
  ∀ p, nodeAt t x = some (.parent p) → Spec.UnmergedValid t d x p.unmergedLeaves ∧
    (∀ y l, nodeAt t y = some (.leaf l) → l.encryptionKey ≠ p.encryptionKey) ∧
    ∀ y < x, ∀ q, nodeAt t y = some (.parent q) → q.encryptionKey ≠ p.encryptionKey

/-- The checks of the tree `t` panic. Either a node is at a place for the other kind; or the tree hash is right and, in the order of the
checks: a parent node whose link is looked for outside the tree, after linked ones; a leaf with a key that is no point, after others that are
valid; a parent node with an unmerged leaf outside the tree, after others that are in order. -/
def Spec.TreeCrash (pr : Prims) (H : Bytes → Bytes) (ctx : GroupContext) (now : GoTime) (t : VTree) : Prop :=
  ¬ Spec.IsTree t ∨ ∃ (d : Nat) (s : Ratchet ParentNode d), t = s.flat .leaf .parent ∧ s.treeHash H 0 = some ctx.treeHash ∧
    ((∃ x off i k p, ∃ l r : Ratchet ParentNode k, Spec.ParentAt t x off i p l r ∧ Spec.LinkCrash H t off i p l r ∧
        ∀ y < x, Spec.Linked H t y) ∨
      (∀ y, Spec.Linked H t y) ∧
        ((∃ i l tbs, nodeAt t (2 * i) = some (.leaf l) ∧ (Spec.Rfc.leafNodeTBS l ctx.groupID (UInt32.ofNat i).toNat).bytes = some tbs ∧
            Spec.BadPoint pr ctx.cipherSuite l.signatureKey "LeafNodeTBS" tbs l.signature ∧
            ∀ j < i, Spec.LeafFits pr ctx now t s j) ∨
          (∀ j, Spec.LeafFits pr ctx now t s j) ∧
            ∃ x p us u vs, nodeAt t x = some (.parent p) ∧ p.unmergedLeaves = us ++ u :: vs ∧ Spec.UnmergedValid t d x us ∧
              t.length ≤ Spec.leafNumber u ∧ ∀ y < x, Spec.ParentFits t d y))

/-- The path secret `ps` that a member at leaf `i` sends to a joiner at leaf `r` makes it panic: the KEM of the suite takes seeds of
another size than the KDF makes; or a node is blank, from where the two leaves meet upwards, and all below it have the keys expected. -/
def Spec.SecretCrash (pr : Prims) (sd : SuiteDesc) (t : VTree) (d i r : Nat) (ps : Bytes) : Prop :=
  sd.kem.seedSize ≠ sd.kdf.size ∨ ∃ m k, m ≤ k ∧ k ≤ d ∧ i / 2 ^ m = r / 2 ^ m ∧ (∀ m' < m, i / 2 ^ m' ≠ r / 2 ^ m') ∧
    nodeAt t (idx k (r / 2 ^ k)) = none ∧ ∀ j, m ≤ j → j < k → ∃ q, nodeAt t (idx j (r / 2 ^ j)) = some q ∧
      q.encryptionKey = (Spec.nodeKeys pr sd (Spec.pathSecret pr sd ps (if j = m then 0 else 1))).1

/-- The welcome `w` opens for the holder of the key package `kp`; the witnesses are those of Spec.WelcomeOk. -/
structure Spec.WelcomeOpened (pr : Prims) (w : Welcome) (kp : KeyPairPackage) (sk sd : SuiteDesc) (ref : Bytes)
    (entry : EncryptedGroupSecrets) (gs : GroupSecrets) (info : GroupInfo) (t : VTree) : Prop where
  packageSuite : (kp.pub.cipherSuite.toNat, sk) ∈ Spec.suites
  suite : (w.cipherSuite.toNat, sd) ∈ Spec.suites
  reference : Spec.Rfc.refHash pr sk "MLS 1.0 KeyPackage Reference" (Spec.Rfc.keyPackage kp.pub) = some ref
  addressed : w.secrets.find? (fun e => e.newMember == ref) = some entry
  size : w.encryptedGroupInfo.length < 2 ^ 30
  secrets : ∃ b, pr.hpkeOpen sd kp.priv.initKey (Spec.encryptContext "Welcome" w.encryptedGroupInfo)
    entry.encryptedGroupSecrets.kemOutput entry.encryptedGroupSecrets.ciphertext = some b ∧ unmarshal GroupSecrets.dec b = .ok gs
  psks : gs.psks = []
  opened : ∃ b, pr.aeadOpen sd.aead
    (Spec.expandWithLabel pr sd (Spec.welcomeSecret pr sd gs.joinerSecret) "key" [] sd.aead.keySize)
    (Spec.expandWithLabel pr sd (Spec.welcomeSecret pr sd gs.joinerSecret) "nonce" [] sd.aead.nonceSize)
    w.encryptedGroupInfo [] = some b ∧ unmarshal GroupInfo.dec b = .ok info
  tree : ∃ e, info.extensions.find? (fun e => e.ty == 2) = some e ∧ unmarshal decTree e.data = .ok t

/-- The check of the signature of a group info panics: who signed it is outside the tree, or a parent node is at that place; or the leaf there
has a key that is no point; or the group is of a suite that does not exist. -/
def Spec.SignerCrash (pr : Prims) (info : GroupInfo) (t : VTree) : Prop :=
  t.length ≤ 2 * (info.signer.toNat % 2 ^ 31) ∨
  (∃ p, t[2 * (info.signer.toNat % 2 ^ 31)]? = some (some (.parent p))) ∨
  ∃ signer tbs, t[2 * (info.signer.toNat % 2 ^ 31)]? = some (some (.leaf signer)) ∧ (Spec.Rfc.groupInfoTBS info).bytes = some tbs ∧
    (Spec.BadPoint pr info.groupContext.cipherSuite signer.signatureKey "GroupInfoTBS" tbs info.signature ∨
      (¬ ∃ sd, (info.groupContext.cipherSuite.toNat, sd) ∈ Spec.suites) ∧ ∃ m, Spec.signContent "GroupInfoTBS" tbs = some m)

/-- A group info is authentic: signed by a member, for the suite of the welcome, with the right confirmation tag. -/
structure Spec.InfoAuthentic (pr : Prims) (w : Welcome) (sd : SuiteDesc) (gs : GroupSecrets) (info : GroupInfo) (t : VTree) : Prop where
  signed : ∃ signer tbs, t[2 * (info.signer.toNat % 2 ^ 31)]? = some (some (.leaf signer)) ∧ (Spec.Rfc.groupInfoTBS info).bytes = some tbs ∧
    Spec.ValidSig pr info.groupContext.cipherSuite signer.signatureKey "GroupInfoTBS" tbs info.signature
  sameSuite : info.groupContext.cipherSuite = w.cipherSuite
  confirmed : ∃ raw, (Spec.Rfc.groupContext info.groupContext).bytes = some raw ∧ raw.length < 2 ^ 30 ∧
    info.confirmationTag = Spec.confirmationTag pr sd
      (Spec.epochSecret pr sd gs.joinerSecret (List.replicate sd.kdf.size 0) raw) info.groupContext.confirmedTranscriptHash

/-- The welcome `w` makes the holder of the key package `kp` panic: it is for that key package and of a suite that does not exist; or it opens,
and the check of the signature panics; or that of the tree, if the group info is authentic; or the path secret does, if the tree is valid and has
the leaf of the key package. -/
def Spec.WelcomeCrash (pr : Prims) (w : Welcome) (kp : KeyPairPackage) (now : GoTime) : Prop :=
  (∃ sk ref entry, (kp.pub.cipherSuite.toNat, sk) ∈ Spec.suites ∧
    Spec.Rfc.refHash pr sk "MLS 1.0 KeyPackage Reference" (Spec.Rfc.keyPackage kp.pub) = some ref ∧
    w.secrets.find? (fun e => e.newMember == ref) = some entry ∧ w.encryptedGroupInfo.length < 2 ^ 30 ∧
    ¬ ∃ sd, (w.cipherSuite.toNat, sd) ∈ Spec.suites) ∨
  ∃ sk sd ref entry gs info t, Spec.WelcomeOpened pr w kp sk sd ref entry gs info t ∧
    (Spec.SignerCrash pr info t ∨
      Spec.InfoAuthentic pr w sd gs info t ∧
        (Spec.TreeCrash pr (pr.hash sd.hash) info.groupContext now t ∨
          info.confirmationTag.length < 2 ^ 30 ∧ ∃ (d : Nat) (s : Ratchet ParentNode d) (own : LeafNode) (li : Nat) (ps : Bytes),
            Spec.TreeValid pr (pr.hash sd.hash) info.groupContext now t s ∧ li < 2 ^ d ∧
            nodeAt t (2 * li) = some (.leaf own) ∧ own.encryptionKey = kp.pub.leafNode.encryptionKey ∧
            (∃ b, (Spec.Rfc.leafNode own).bytes = some b ∧ (Spec.Rfc.leafNode kp.pub.leafNode).bytes = some b) ∧
            gs.pathSecret = some ps ∧ Spec.SecretCrash pr sd t d (info.signer.toNat % 2 ^ 31) li ps))

/-! ### The first to panic -/

/-- Going up from `i`: some number has `C`, and those before it have `K`. -/
def First (C K : Nat → Prop) (i : Nat) : Prop := ∃ x, i ≤ x ∧ C x ∧ ∀ y, i ≤ y → y < x → K y

theorem First.step {α : Type} {C K : Nat → Prop} {i : Nat} {r rest : Res α} (hC : C i → r = .panic) (hK : ¬ C i → K i → r = rest)
    (hN : ¬ C i → ¬ K i → r.Fine) (hrest : ¬ C i → K i → rest.PanicIff (First C K (i + 1))) : r.PanicIff (First C K i) := by
  by_cases c : C i
  · rw [hC c]
    exact ⟨⟨fun _ => ⟨i, Nat.le_refl _, c, fun y h1 h2 => by omega⟩, fun _ => rfl⟩, fun h => (by cases h)⟩
  · by_cases k : K i
    · rw [hK c k]
      refine (hrest c k).congr ⟨?_, ?_⟩
      · rintro ⟨x, h1, h2, h3⟩
        refine ⟨x, by omega, h2, fun y h4 h5 => ?_⟩
        rcases Nat.eq_or_lt_of_le h4 with rfl | h4
        · exact k
        · exact h3 y h4 h5
      · rintro ⟨x, h1, h2, h3⟩
        rcases Nat.eq_or_lt_of_le h1 with rfl | h1
        · exact absurd h2 c
        · exact ⟨x, h1, h2, fun y h4 h5 => h3 y (by omega) h5⟩
    · refine (hN c k).panicIff ?_
      rintro ⟨x, h1, h2, h3⟩
      rcases Nat.eq_or_lt_of_le h1 with rfl | h1
      · exact c h2
      · exact k (h3 i (Nat.le_refl _) h1)

/-- The same with what a call without a panic amounts to. -/
theorem First.step' {C K : Nat → Prop} {i : Nat} {r rest : Res Bool} (hCK : C i → ¬ K i) (hC : C i → r = .panic)
    (hK : ¬ C i → K i → r = rest) (hN : ¬ C i → ¬ K i → r = .ok false)
    (hrest : ¬ C i → K i → rest.PanicIff (First C K (i + 1)) ∧ (rest = .ok true ↔ ∀ y, i + 1 ≤ y → K y)) :
    r.PanicIff (First C K i) ∧ (r = .ok true ↔ ∀ y, i ≤ y → K y) := by
  refine ⟨First.step hC hK (fun c k => (hN c k) ▸ Res.fine_ok _) fun c k => (hrest c k).1, ?_⟩
  by_cases c : C i
  · rw [hC c]
    exact ⟨fun h => (by cases h), fun h => absurd (h i (Nat.le_refl _)) (hCK c)⟩
  · by_cases k : K i
    · rw [hK c k, (hrest c k).2]
      constructor
      · intro h y hy
        rcases Nat.eq_or_lt_of_le hy with rfl | hy
        · exact k
        · exact h y hy
      · exact fun h y hy => h y (by omega)
    · rw [hN c k]
      exact ⟨fun h => (by cases h), fun h => absurd (h i (Nat.le_refl _)) k⟩

theorem Res.Fine.okOrErr {α : Type} {x : Res α} (h : x.Fine) : (∃ a, x = .ok a) ∨ x = .err := by
  match x, h with
  | .ok a, _ => exact .inl ⟨a, rfl⟩
  | .err, _ => exact .inr rfl
  | .panic, h => exact absurd rfl h.1
  | .hang, h => exact absurd rfl h.2

/-! ### The tree hash -/

/-- Every node can be encoded, which is so of a tree that was read. -/
def Encodes (t : VTree) : Prop := ∀ (x : Nat) n, t[x]? = some (some n) → ∃ b, (n.enc : Res Bytes) = .ok b

theorem tree_encodes {raw : Bytes} {t : VTree} (h : unmarshal decTree raw = .ok t) : Encodes t := by
  have key : ∀ (fuel : Nat) (t t' : VTree), padLoop fuel t = .ok t' → Encodes t → Encodes t' := by
    intro fuel
    induction fuel with
    | zero =>
      intro t t' h hk
      unfold padLoop at h
      split at h <;> cases h
      exact hk
    | succ fuel ih =>
      intro t t' h hk
      unfold padLoop at h
      split at h
      · cases h; exact hk
      · refine ih _ _ h fun x n hx => ?_
        rw [List.getElem?_append] at hx
        split at hx
        · exact hk x n hx
        · rw [List.getElem?_singleton] at hx
          split at hx <;> simp at hx
  have hopt : Yields decOptNode fun o => ∃ b, encOptNode o = .ok b := fun s a rest h =>
    let ⟨b, hb, _⟩ := optNode_canon s a rest h trivial
    ⟨b, hb⟩
  rw [unmarshal_ok_iff] at h
  unfold decTree at h
  rw [P.bind_ok_iff] at h
  obtain ⟨l, s, h1, h2⟩ := h
  have h2 : (padLoop (l.length + 1) l, s) = (.ok t, []) := h2
  refine key _ _ _ (congrArg Prod.fst h2) fun x n hx => ?_
  obtain ⟨b, hb⟩ := hopt.vector _ _ _ h1 (some n) (List.mem_of_getElem? hx)
  unfold encOptNode at hb
  rw [Enc.append_ok_iff] at hb
  obtain ⟨_, y, _, hy, _⟩ := hb
  exact ⟨y, hy⟩

theorem leaf_encodes {n : LeafNode} {b : Bytes} (h : (Node.enc (.leaf n) : Res Bytes) = .ok b) : ∃ c, (n.enc : Res Bytes) = .ok c := by
  unfold Node.enc at h
  obtain ⟨_, c, _, hc, _⟩ := Enc.append_ok_iff.1 h
  exact ⟨c, hc⟩

theorem parent_encodes {n : ParentNode} {b : Bytes} (h : (Node.enc (.parent n) : Res Bytes) = .ok b) : ∃ c, (n.enc : Res Bytes) = .ok c := by
  unfold Node.enc at h
  obtain ⟨_, c, _, hc, _⟩ := Enc.append_ok_iff.1 h
  exact ⟨c, hc⟩

/-- Without an error on the way the tree hash either is made or panics. -/
theorem treeHashLoop_made (hc : pr.Correct) {cs : UInt16} {sd : SuiteDesc} (hsd : suite cs = .ok sd) {t : VTree} (hlen : t.length < 2 ^ 32)
    (he : Encodes t) : ∀ (k j fuel : Nat), k ≤ 31 → k < fuel →
      (computeTreeHashLoop pr cs t [] fuel (idx k j) = .panic ∨ ∃ x, computeTreeHashLoop pr cs t [] fuel (idx k j) = .ok x ∧
        x.length = sd.hash.size) := by
  intro k
  induction k with
  | zero =>
    intro j fuel _ hf
    obtain ⟨fuel, rfl⟩ : ∃ f, fuel = f + 1 := ⟨fuel - 1, by omega⟩
    rw [computeTreeHashLoop]
    rcases Nat.lt_or_ge (idx 0 j) t.length with hj | hj
    · rw [(Res.idx_ok_iff.2 (List.getElem?_eq_getElem hj) : Res.idx t (idx 0 j) = .ok _), Res.ok_bind, leafOfNode_idx_zero]
      have hn := List.getElem?_eq_getElem hj
      generalize t[idx 0 j] = n at hn
      have hin : ∀ l : Option LeafNode, (∀ n, l = some n → ∃ c, (n.enc : Res Bytes) = .ok c) →
          ∃ c, (encLeafNodeHashInput j l : Res Bytes) = .ok c := by
        intro l hl
        unfold encLeafNodeHashInput
        cases l with
        | none => exact ⟨_, rfl⟩
        | some l =>
          obtain ⟨c, hcc⟩ := hl l rfl
          exact ⟨_, Enc.append_ok_iff.2 ⟨_, _, rfl, Enc.append_ok_iff.2 ⟨_, _, rfl, hcc, rfl⟩, rfl⟩⟩
      match n, hn with
      | some (.parent p), hn => left; simp [hashedLeaf]
      | none, hn =>
        obtain ⟨c, hcc⟩ := hin none (by simp)
        right
        simp only [hashedLeaf, Res.ok_bind, hcc, hsd]
        exact ⟨_, rfl, hc.hash_length _ _⟩
      | some (.leaf l), hn =>
        obtain ⟨_, hb⟩ := he _ _ hn
        obtain ⟨c, hcc⟩ := hin (some l) (fun n e => Option.some.inj e ▸ leaf_encodes hb)
        right
        simp only [hashedLeaf, List.contains_nil, Bool.false_eq_true, if_false, Res.ok_bind, hcc, hsd]
        exact ⟨_, rfl, hc.hash_length _ _⟩
    · left
      rw [Res.idx_panic_iff.2 hj]
      rfl
  | succ k ih =>
    intro j fuel hk hf
    obtain ⟨fuel, rfl⟩ : ∃ f, fuel = f + 1 := ⟨fuel - 1, by omega⟩
    rw [computeTreeHashLoop]
    rcases Nat.lt_or_ge (idx (k + 1) j) t.length with hj | hj
    · rw [(Res.idx_ok_iff.2 (List.getElem?_eq_getElem hj) : Res.idx t (idx (k + 1) j) = .ok _), Res.ok_bind, leafOfNode_idx_succ,
        children_idx_succ (by omega) (by omega)]
      have hn := List.getElem?_eq_getElem hj
      generalize t[idx (k + 1) j] = n at hn
      dsimp only
      rcases ih (2 * j) fuel (by omega) (by omega) with h1 | ⟨lh, h1, l1⟩
      · left; rw [h1]; rfl
      rcases ih (2 * j + 1) fuel (by omega) (by omega) with h2 | ⟨rh, h2, l2⟩
      · left; rw [h1, h2]; rfl
      have hin : ∀ p : Option ParentNode, (∀ n, p = some n → ∃ c, (n.enc : Res Bytes) = .ok c) →
          ∃ c, (encParentNodeHashInput p lh rh : Res Bytes) = .ok c := by
        intro p hp
        have hsz : sd.hash.size < 2 ^ 30 := by cases sd.hash <;> decide
        unfold encParentNodeHashInput
        cases p with
        | none =>
          exact ⟨_, Enc.append_ok_iff.2 ⟨_, _, Enc.append_ok_iff.2 ⟨_, _, rfl, writeOpaqueVec_vec (by omega), rfl⟩,
            writeOpaqueVec_vec (by omega), rfl⟩⟩
        | some p =>
          obtain ⟨c, hcc⟩ := hp p rfl
          exact ⟨_, Enc.append_ok_iff.2 ⟨_, _, Enc.append_ok_iff.2 ⟨_, _,
            Enc.append_ok_iff.2 ⟨_, _, rfl, Enc.append_ok_iff.2 ⟨_, _, rfl, hcc, rfl⟩, rfl⟩, writeOpaqueVec_vec (by omega), rfl⟩,
            writeOpaqueVec_vec (by omega), rfl⟩⟩
      match n, hn with
      | some (.leaf l), hn => left; simp [hashedParent, h1, h2]
      | none, hn =>
        obtain ⟨c, hcc⟩ := hin none (by simp)
        right
        simp only [h1, h2, hashedParent, Res.ok_bind, hcc, hsd]
        exact ⟨_, rfl, hc.hash_length _ _⟩
      | some (.parent p), hn =>
        obtain ⟨_, hb⟩ := he _ _ hn
        obtain ⟨c, hcc⟩ := hin (some p) (fun n e => Option.some.inj e ▸ parent_encodes hb)
        right
        simp only [h1, h2, hashedParent, List.length_nil, gt_iff_lt, Nat.lt_irrefl, and_false, if_false, Res.ok_bind, hcc, hsd]
        exact ⟨_, rfl, hc.hash_length _ _⟩
    · left
      rw [Res.idx_panic_iff.2 hj]
      rfl

/-- The tree hash panics exactly on what is not a tree. -/
theorem rootHash_panic (hc : pr.Correct) {cs : UInt16} {sd : SuiteDesc} (hsd : suite cs = .ok sd) {t : VTree} {d : Nat} (hd : d ≤ 31)
    (hl : t.length = 2 ^ (d + 1) - 1) (he : Encodes t) (hk : KnownTree t) : (computeRootTreeHash pr cs t).PanicIff (¬ Spec.IsTree t) := by
  by_cases ht : Spec.IsTree t
  · exact (computeRootTreeHash_fine hsd ht hk).panicIff (fun h => h ht)
  · have hlt := pow_tree_lt hd
    have hp : computeRootTreeHash pr cs t = .panic := by
      rcases treeHashLoop_made hc hsd (by omega : t.length < 2 ^ 32) he d 0 34 hd (by omega) with h | ⟨x, h, _⟩
      · unfold computeRootTreeHash computeTreeHash
        rw [numLeaves_pow hd hl, root_idx hd]
        exact h
      · exfalso
        refine ht ?_
        have h' : computeRootTreeHash pr cs t = .ok x := by
          unfold computeRootTreeHash computeTreeHash
          rw [numLeaves_pow hd hl, root_idx hd]
          exact h
        obtain ⟨s, hs⟩ := tree_of_rootHash hd hl h'
        exact isTree_iff.2 ⟨d, hd, s, hs⟩
    rw [hp]
    exact ⟨⟨fun _ => ht, fun _ => rfl⟩, fun h => (by cases h)⟩

/-! ### Parent hashes -/

theorem findParentHash_panic {t : VTree} {ph : Bytes} : ∀ xs : List Nat, (findParentHash t ph xs).PanicIff (Spec.Strays t xs ph) := by
  intro xs
  induction xs with
  | nil => exact (Res.fine_ok _).panicIff (by simp [Spec.Strays])
  | cons x xs ih =>
    unfold findParentHash
    rcases Nat.lt_or_ge x t.length with hx | hx
    · have hn := List.getElem?_eq_getElem hx
      rw [(Res.idx_ok_iff.2 hn : Res.idx t x = .ok _), Res.ok_bind]
      generalize t[x] = n at hn
      have hcons : (∀ m, n = some m → Spec.parentHashOf m ≠ ph) → (Spec.Strays t xs ph ↔ Spec.Strays t (x :: xs) ph) := by
        intro hne
        constructor
        · rintro ⟨pre, y, post, rfl, h1, h2⟩
          refine ⟨x :: pre, y, post, rfl, h1, ?_⟩
          rintro ⟨z, hz, m, hm, he⟩
          rcases List.mem_cons.1 hz with rfl | hz
          · rw [nodeAt_eq hn] at hm
            exact hne m hm he
          · exact h2 ⟨z, hz, m, hm, he⟩
        · rintro ⟨pre, y, post, e, h1, h2⟩
          cases pre with
          | nil =>
            obtain ⟨rfl, _⟩ := List.cons.inj e
            omega
          | cons z pre =>
            obtain ⟨rfl, rfl⟩ := List.cons.inj e
            exact ⟨pre, y, post, rfl, h1, fun ⟨z, hz, h⟩ => h2 ⟨z, List.mem_cons_of_mem _ hz, h⟩⟩
      cases n with
      | none => exact ih.congr (hcons (by simp))
      | some m =>
        have key : ((if Spec.parentHashOf m = ph then pure true else findParentHash t ph xs : Res Bool)).PanicIff
            (Spec.Strays t (x :: xs) ph) := by
          by_cases he : Spec.parentHashOf m = ph
          · rw [if_pos he]
            refine (Res.fine_ok _).panicIff ?_
            rintro ⟨pre, y, post, e, h1, h2⟩
            cases pre with
            | nil =>
              obtain ⟨rfl, _⟩ := List.cons.inj e
              omega
            | cons z pre =>
              obtain ⟨rfl, rfl⟩ := List.cons.inj e
              exact h2 ⟨x, List.mem_cons_self .., m, nodeAt_eq hn, he⟩
          · rw [if_neg he]
            exact ih.congr (hcons (by rintro _ ⟨⟩; exact he))
        cases m <;> exact key
    · rw [Res.idx_panic_iff.2 hx]
      exact ⟨⟨fun _ => ⟨[], x, xs, rfl, hx, by simp [Spec.HashIn]⟩, fun _ => rfl⟩, fun h => (by cases h)⟩

theorem vat_unique {t : VTree} {k j : Nat} {s s' : Ratchet ParentNode k} (h : VAt t j s) (h' : VAt t j s') : s = s' := by
  induction s generalizing j with
  | leaf n =>
    cases s' with
    | leaf n' =>
      have e := h.symm.trans h'
      cases n <;> cases n' <;> simp at e ⊢
      exact e
  | node p l r ihl ihr =>
    cases s' with
    | node p' l' r' =>
      obtain ⟨a, b, c⟩ := h
      obtain ⟨a', b', c'⟩ := h'
      have e := a.symm.trans a'
      rw [ihl b b', ihr c c']
      cases p <;> cases p' <;> simp at e ⊢
      exact e

/-- Some parent node at `x` has its link looked for outside the tree. -/
def LinkCrashAt (H : Bytes → Bytes) (t : VTree) (x : Nat) : Prop :=
  ∃ off i k p, ∃ l r : Ratchet ParentNode k, Spec.ParentAt t x off i p l r ∧ Spec.LinkCrash H t off i p l r

theorem linkCrashAt_iff {H : Bytes → Bytes} {t : VTree} {k j : Nat} {p : ParentNode} {l r : Ratchet ParentNode k}
    (h : VAt t j (.node (some p) l r)) :
    LinkCrashAt H t (idx (k + 1) j) ↔ Spec.LinkCrash H t (j * 2 ^ (k + 2)) (j * 2 ^ (k + 1)) p l r := by
  constructor
  · rintro ⟨off, i, k', p', l', r', ⟨j', e, rfl, rfl, h'⟩, hc⟩
    obtain ⟨e1, e2⟩ := idx_inj e
    obtain rfl : k = k' := by omega
    subst e2
    cases vat_unique h h'
    exact hc
  · exact fun hc => ⟨_, _, _, _, _, _, ⟨j, rfl, rfl, rfl, h⟩, hc⟩

theorem linkedAt_iff {H : Bytes → Bytes} {t : VTree} {k j : Nat} {p : ParentNode} {l r : Ratchet ParentNode k}
    (h : VAt t j (.node (some p) l r)) :
    Spec.Linked H t (idx (k + 1) j) ↔ Spec.ParentLink H t (j * 2 ^ (k + 2)) (j * 2 ^ (k + 1)) p l r ∧
      ¬ Spec.LinkCrash H t (j * 2 ^ (k + 2)) (j * 2 ^ (k + 1)) p l r := by
  constructor
  · exact fun hl => hl _ _ _ _ _ _ ⟨j, rfl, rfl, rfl, h⟩
  · rintro hl off i k' p' l' r' ⟨j', e, rfl, rfl, h'⟩
    obtain ⟨e1, e2⟩ := idx_inj e
    obtain rfl : k = k' := by omega
    subst e2
    cases vat_unique h h'
    exact hl

theorem parentAt_node {t : VTree} {x off i k : Nat} {p : ParentNode} {l r : Ratchet ParentNode k} (h : Spec.ParentAt t x off i p l r) :
    t[x]? = some (some (.parent p)) := by
  obtain ⟨j, rfl, _, _, h⟩ := h
  exact h.1

theorem parentHashes_panic (hc : pr.Correct) {cs : UInt16} {sd : SuiteDesc} (hsd : suite cs = .ok sd) {t : VTree} (ht : Spec.IsTree t)
    (hk : KnownTree t) : ∀ (ns : List (Option Node)) (i : Nat), t.drop i = ns → (verifyParentHashesLoop pr cs t i ns).PanicIff
      (First (LinkCrashAt (pr.hash sd.hash) t) (Spec.Linked (pr.hash sd.hash) t) i) ∧
      (verifyParentHashesLoop pr cs t i ns = .ok true ↔ ∀ y, i ≤ y → Spec.Linked (pr.hash sd.hash) t y) := by
  have hCK : ∀ x, LinkCrashAt (pr.hash sd.hash) t x → ¬ Spec.Linked (pr.hash sd.hash) t x := by
    rintro x ⟨off, i, k, p, l, r, h1, h2⟩ h
    exact (h off i k p l r h1).2 h2
  intro ns
  induction ns with
  | nil =>
    intro i hi
    have := List.drop_eq_nil_iff.1 hi
    refine ⟨(Res.fine_ok _).panicIff ?_, fun _ y hy off i' k p l r h2 => ?_, fun _ => rfl⟩
    · rintro ⟨x, h1, ⟨off, i', k, p, l, r, h2, _⟩, _⟩
      have := (List.getElem?_eq_some_iff.1 (parentAt_node h2)).1
      omega
    · have := (List.getElem?_eq_some_iff.1 (parentAt_node h2)).1
      omega
  | cons n ns ih =>
    intro i hi
    have hlt : i < t.length := by
      rcases Nat.lt_or_ge i t.length with h | h
      · exact h
      · rw [List.drop_of_length_le h] at hi; cases hi
    have hget : t[i]? = some n := by
      rw [← Nat.add_zero i, ← List.getElem?_drop, hi]; rfl
    have hnext : t.drop (i + 1) = ns := by
      rw [← List.drop_drop, hi]; rfl
    have ih := ih (i + 1) hnext
    have hskip : (∀ p, n ≠ some (.parent p)) → (verifyParentHashesLoop pr cs t (i + 1) ns).PanicIff
        (First (LinkCrashAt (pr.hash sd.hash) t) (Spec.Linked (pr.hash sd.hash) t) i) ∧
        (verifyParentHashesLoop pr cs t (i + 1) ns = .ok true ↔ ∀ y, i ≤ y → Spec.Linked (pr.hash sd.hash) t y) := by
      intro hne
      refine First.step' (rest := verifyParentHashesLoop pr cs t (i + 1) ns) (hCK i) ?_ (fun _ _ => rfl) ?_ (fun _ _ => ih)
      · rintro ⟨off, i', k, p, l, r, h2, _⟩
        have := parentAt_node h2
        rw [hget] at this
        exact absurd (Option.some.inj this) (hne p)
      · intro _ hn
        refine absurd (fun off i' k p l r h2 => ?_) hn
        have := parentAt_node h2
        rw [hget] at this
        exact absurd (Option.some.inj this) (hne p)
    obtain ⟨d, hd, s, hs⟩ := isTree_iff.1 ht
    have hlen : t.length = 2 ^ (d + 1) - 1 := by rw [hs, flat_length]
    have hp32 := pow_tree_lt hd
    have h32 : i % 2 ^ 32 = i := Nat.mod_eq_of_lt (by omega)
    cases n with
    | none => exact hskip (by simp)
    | some n =>
      unfold verifyParentHashesLoop
      rw [h32]
      cases n with
      | leaf l =>
        have hev := ht.2.1 i l hget
        have : children i = none := by
          have : i = idx 0 (i / 2) := by rw [idx_zero]; omega
          rw [this]
          exact children_idx_zero _
        rw [this]
        exact hskip (by simp)
      | parent p =>
        clear hskip
        have hodd := ht.2.2 i p hget
        obtain ⟨m, j, hb, rfl⟩ := exists_below (hlen ▸ hlt)
        obtain ⟨s', hs'⟩ := at_sub (at_flat Node.leaf Node.parent s) hb
        rw [← hs] at hs'
        have hm := hb.1
        cases s' with
        | leaf o =>
          rw [idx_zero] at hodd
          omega
        | @node k p' l r =>
          have hp' := hs'.1
          rw [hget] at hp'
          cases p' with
          | none => simp at hp'
          | some p' =>
          obtain rfl : p = p' := by simpa using hp'
          rw [children_idx_succ (by omega) (by omega)]
          dsimp only
          have e1 : 2 * j * 2 ^ k = j * 2 ^ (k + 1) := by rw [Nat.pow_succ]; ring
          have e2 : (2 * j + 1) * 2 ^ k = j * 2 ^ (k + 1) + 2 ^ k := by rw [Nat.pow_succ]; ring
          have t32 : t.length < 2 ^ 32 := by omega
          have hll : idx k (2 * j) < t.length := at_root hs'.2.1
          have hrl : idx k (2 * j + 1) < t.length := at_root hs'.2.2
          have fl := computeTreeHash_fine (pr := pr) hsd ht hk hll p.unmergedLeaves
          have fr := computeTreeHash_fine (pr := pr) hsd ht hk hrl p.unmergedLeaves
          have rl : resolve t (idx k (2 * j)) = .ok (l.resolution (j * 2 ^ (k + 2))) := by
            rw [resolve_spec t32 hs'.2.1 (by omega), off_succ_left]
          have rr : resolve t (idx k (2 * j + 1)) = .ok (r.resolution (j * 2 ^ (k + 2) + 2 ^ (k + 1))) := by
            rw [resolve_spec t32 hs'.2.2 (by omega), off_succ_right]
          have il : ∀ x, computeTreeHash pr cs t (idx k (2 * j)) p.unmergedLeaves = .ok x ↔ _ := fun x =>
            computeTreeHash_iff hc hsd t32 _ hs'.2.1 (by omega) x
          have ir : ∀ x, computeTreeHash pr cs t (idx k (2 * j + 1)) p.unmergedLeaves = .ok x ↔ _ := fun x =>
            computeTreeHash_iff hc hsd t32 _ hs'.2.2 (by omega) x
          rw [e1] at il
          rw [e2] at ir
          have ip : ∀ sh x, p.computeParentHash pr cs sh = .ok x ↔ _ := fun sh x => computeParentHash_iff (x := x) hsd
          have fp := computeParentHash_fine (pr := pr) hsd p
          have hCi := linkCrashAt_iff (H := pr.hash sd.hash) hs'
          have hKi := linkedAt_iff (H := pr.hash sd.hash) hs'
          have stop : (¬ ∃ lh rh li ri, (l.without p.unmergedLeaves (j * 2 ^ (k + 1))).treeHash (pr.hash sd.hash) (j * 2 ^ (k + 1)) = some lh ∧
              (r.without p.unmergedLeaves (j * 2 ^ (k + 1) + 2 ^ k)).treeHash (pr.hash sd.hash) (j * 2 ^ (k + 1) + 2 ^ k) = some rh ∧
              Spec.parentHashInput p rh = some li ∧ Spec.parentHashInput p lh = some ri) →
              (Res.ok false).PanicIff (First (LinkCrashAt (pr.hash sd.hash) t) (Spec.Linked (pr.hash sd.hash) t) (idx (k + 1) j)) ∧
              (Res.ok false = .ok true ↔ ∀ y, idx (k + 1) j ≤ y → Spec.Linked (pr.hash sd.hash) t y) := by
            intro hno
            refine First.step' (rest := .ok false) (hCK _) ?_ ?_ (fun _ _ => rfl) ?_
            · intro hcc
              obtain ⟨a, b, c, d, h1, h2, h3, h4, _⟩ := hCi.1 hcc
              exact absurd ⟨a, b, c, d, h1, h2, h3, h4⟩ hno
            · exact fun _ _ => rfl
            · intro _ hkk
              obtain ⟨⟨a, b, c, d, h1, h2, h3, h4, _⟩, _⟩ := hKi.1 hkk
              exact absurd ⟨a, b, c, d, h1, h2, h3, h4⟩ hno
          rcases fl.okOrErr with ⟨lh, hlh⟩ | hlh
          swap
          · rw [hlh]
            refine stop ?_
            rintro ⟨a, b, c, d, h1, h2, h3, h4⟩
            rw [(il a).2 h1] at hlh
            cases hlh
          rcases fr.okOrErr with ⟨rh, hrh⟩ | hrh
          swap
          · rw [hlh, hrh]
            refine stop ?_
            rintro ⟨a, b, c, d, h1, h2, h3, h4⟩
            rw [(ir b).2 h2] at hrh
            cases hrh
          have slh := (il lh).1 hlh
          have srh := (ir rh).1 hrh
          rcases (fp rh).okOrErr with ⟨lp, hlp⟩ | hlp
          swap
          · rw [hlh, hrh]
            simp only [orFalse]
            rw [hlp]
            refine stop ?_
            rintro ⟨a, b, c, d, h1, h2, h3, h4⟩
            obtain rfl := Option.some.inj (h2.symm.trans srh)
            rw [(ip b _).2 ⟨c, h3, rfl⟩] at hlp
            cases hlp
          rcases (fp lh).okOrErr with ⟨rp, hrp⟩ | hrp
          swap
          · rw [hlh, hrh]
            simp only [orFalse]
            rw [hlp, hrp]
            refine stop ?_
            rintro ⟨a, b, c, d, h1, h2, h3, h4⟩
            obtain rfl := Option.some.inj (h1.symm.trans slh)
            rw [(ip a _).2 ⟨d, h4, rfl⟩] at hrp
            cases hrp
          obtain ⟨li, hli, rfl⟩ := (ip rh lp).1 hlp
          obtain ⟨ri, hri, rfl⟩ := (ip lh rp).1 hrp
          rw [hlh, hrh]
          simp only [orFalse]
          rw [hlp, hrp]
          simp only [rl, rr, Res.ok_bind]
          have hC : Spec.LinkCrash (pr.hash sd.hash) t (j * 2 ^ (k + 2)) (j * 2 ^ (k + 1)) p l r ↔
              (Spec.Strays t (l.resolution (j * 2 ^ (k + 2))) (pr.hash sd.hash li) ∨
                Spec.Strays t (r.resolution (j * 2 ^ (k + 2) + 2 ^ (k + 1))) (pr.hash sd.hash ri)) := by
            constructor
            · rintro ⟨a, b, c, d, h1, h2, h3, h4, h5⟩
              obtain rfl := Option.some.inj (h1.symm.trans slh)
              obtain rfl := Option.some.inj (h2.symm.trans srh)
              obtain rfl := Option.some.inj (h3.symm.trans hli)
              obtain rfl := Option.some.inj (h4.symm.trans hri)
              exact h5
            · exact fun h => ⟨_, _, _, _, slh, srh, hli, hri, h⟩
          have hK : Spec.ParentLink (pr.hash sd.hash) t (j * 2 ^ (k + 2)) (j * 2 ^ (k + 1)) p l r ↔ _ :=
            ⟨fun ⟨a, b, c, d, h1, h2, h3, h4, h5⟩ => by
              obtain rfl := Option.some.inj (h1.symm.trans slh)
              obtain rfl := Option.some.inj (h2.symm.trans srh)
              obtain rfl := Option.some.inj (h3.symm.trans hli)
              obtain rfl := Option.some.inj (h4.symm.trans hri)
              exact h5, fun h => ⟨_, _, _, _, slh, srh, hli, hri, h⟩⟩
          have pa := findParentHash_panic (t := t) (ph := pr.hash sd.hash li) (l.resolution (j * 2 ^ (k + 2)))
          have pb := findParentHash_panic (t := t) (ph := pr.hash sd.hash ri) (r.resolution (j * 2 ^ (k + 2) + 2 ^ (k + 1)))
          have boolFine : ∀ {x : Res Bool} {P : Prop}, x.PanicIff P → ¬ P → x ≠ .err → ∃ b, x = .ok b := by
            intro x P h1 h2 h3
            match x, h1, h3 with
            | .ok b, _, _ => exact ⟨b, rfl⟩
            | .err, _, h3 => exact absurd rfl h3
            | .panic, h1, _ => exact absurd (h1.1.1 rfl) h2
            | .hang, h1, _ => exact absurd rfl h1.2
          have noErr : ∀ ph xs, findParentHash t ph xs ≠ .err := by
            intro ph xs
            induction xs with
            | nil => exact fun h => by cases h
            | cons x xs ih =>
              unfold findParentHash
              rcases Nat.lt_or_ge x t.length with hx | hx
              · rw [(Res.idx_ok_iff.2 (List.getElem?_eq_getElem hx) : Res.idx t x = .ok _), Res.ok_bind]
                generalize t[x] = n
                cases n with
                | none => exact ih
                | some m =>
                  have key : (if Spec.parentHashOf m = ph then pure true else findParentHash t ph xs : Res Bool) ≠ .err := by
                    split
                    · exact fun h => by cases h
                    · exact ih
                  cases m <;> exact key
              · rw [Res.idx_panic_iff.2 hx]
                exact fun h => by cases h
          by_cases ca : Spec.Strays t (l.resolution (j * 2 ^ (k + 2))) (pr.hash sd.hash li)
          · rw [pa.1.2 ca]
            refine First.step' (rest := .panic) (hCK _) (fun _ => rfl) (fun _ _ => rfl) ?_ ?_
            · exact fun h => absurd (hCi.2 (hC.2 (.inl ca))) h
            · exact fun h => absurd (hCi.2 (hC.2 (.inl ca))) h
          obtain ⟨a, ha⟩ := boolFine pa ca (noErr _ _)
          rw [ha, Res.ok_bind]
          by_cases cb : Spec.Strays t (r.resolution (j * 2 ^ (k + 2) + 2 ^ (k + 1))) (pr.hash sd.hash ri)
          · rw [pb.1.2 cb]
            refine First.step' (rest := .panic) (hCK _) (fun _ => rfl) (fun _ _ => rfl) ?_ ?_
            · exact fun h => absurd (hCi.2 (hC.2 (.inr cb))) h
            · exact fun h => absurd (hCi.2 (hC.2 (.inr cb))) h
          obtain ⟨b, hb'⟩ := boolFine pb cb (noErr _ _)
          rw [hb', Res.ok_bind]
          have hnc : ¬ LinkCrashAt (pr.hash sd.hash) t (idx (k + 1) j) := by
            rw [hCi, hC]
            exact fun h => h.elim ca cb
          have hkk : Spec.Linked (pr.hash sd.hash) t (idx (k + 1) j) ↔ a ≠ b := by
            rw [hKi, hK, ← findParentHash_ok ha, ← findParentHash_ok hb', hC]
            have : ¬ (Spec.Strays t (l.resolution (j * 2 ^ (k + 2))) (pr.hash sd.hash li) ∨
                Spec.Strays t (r.resolution (j * 2 ^ (k + 2) + 2 ^ (k + 1))) (pr.hash sd.hash ri)) := fun h => h.elim ca cb
            cases a <;> cases b <;> simp [this]
          refine First.step' (rest := verifyParentHashesLoop pr cs t (idx (k + 1) j + 1) ns) (hCK _) (fun h => absurd h hnc) ?_ ?_ (fun _ _ => ih)
          · intro _ h
            have := hkk.1 h
            cases a <;> cases b <;> simp at this ⊢
          · intro _ h
            rw [hkk] at h
            have : a = b := Classical.not_not.1 h
            rw [if_pos (by simp [this])]
            rfl

/-! ### Leaves -/

/-- Leaf `i` has a key that is no point, so that the check of its signature panics. -/
def LeafCrashAt (pr : Prims) (ctx : GroupContext) (t : VTree) (i : Nat) : Prop :=
  ∃ l tbs, nodeAt t (2 * i) = some (.leaf l) ∧ (Spec.Rfc.leafNodeTBS l ctx.groupID (UInt32.ofNat i).toNat).bytes = some tbs ∧
    Spec.BadPoint pr ctx.cipherSuite l.signatureKey "LeafNodeTBS" tbs l.signature

theorem supportedCreds_eq {t : VTree} {d : Nat} {s : Ratchet ParentNode d} (hd : d ≤ 31) (ht : t = s.flat .leaf .parent) :
    supportedCreds t = .ok (((s.leaves.filterMap id).flatMap fun l => l.capabilities.credentials).filter fun ct =>
      ((s.leaves.filterMap id).flatMap fun l => l.capabilities.credentials).count ct == (s.leaves.filterMap id).length) := by
  unfold supportedCreds
  rw [members_eq hd ht]
  rfl

theorem creds_iff {t : VTree} {d : Nat} {s : Ratchet ParentNode d} (hd : d ≤ 31) (ht : t = s.flat .leaf .parent) {creds : List UInt16}
    (hcr : supportedCreds t = .ok creds) {i : Nat} {l : LeafNode} (hl : nodeAt t (2 * i) = some (.leaf l)) : l.credential.ty ∈ creds ↔
      ((s.leaves.filterMap id).flatMap fun m => m.capabilities.credentials).count l.credential.ty = (s.leaves.filterMap id).length := by
  rw [supportedCreds_eq hd ht, Res.ok.injEq] at hcr
  subst hcr
  have hi : i < 2 ^ d := by
    have := nodeAt_lt hl
    rw [ht, flat_length, Nat.pow_succ] at this
    omega
  have hm : l ∈ s.leaves.filterMap id := by
    obtain ⟨o, _, ho, ho'⟩ := getLeaf_at hd ht hi
    rw [hl] at ho
    cases o with
    | none => cases ho
    | some l0 =>
      cases ho
      simpa using List.mem_of_getElem? ho'
  rw [List.mem_filter, beq_iff_eq, and_iff_right_iff_imp]
  intro h
  refine List.count_pos_iff.1 ?_
  rw [h]
  exact List.length_pos_of_mem hm

theorem leaves_panic {ctx : GroupContext} {sd : SuiteDesc} (hsd : suite ctx.cipherSuite = .ok sd) {t : VTree} {d : Nat}
    {s : Ratchet ParentNode d} (hd : d ≤ 31) (ht : t = s.flat .leaf .parent) (hk : KnownTree t) {now : GoTime} {creds : List UInt16}
    (hcr : supportedCreds t = .ok creds) : ∀ (k li : Nat) (sigs encs : List Bytes), li + k = 2 ^ d →
      (∀ x, x ∈ sigs ↔ ∃ j m, j < li ∧ nodeAt t (2 * j) = some (.leaf m) ∧ m.signatureKey = x) →
      (∀ x, x ∈ encs ↔ ∃ j m, j < li ∧ nodeAt t (2 * j) = some (.leaf m) ∧ m.encryptionKey = x) →
      (verifyLeavesLoop pr ctx now creds t k li sigs encs).PanicIff (First (LeafCrashAt pr ctx t) (Spec.LeafFits pr ctx now t s) li) := by
  intro k
  have hlen : t.length = 2 ^ (d + 1) - 1 := by rw [ht, flat_length]
  induction k with
  | zero =>
    intro li sigs encs he _ _
    refine (Res.fine_ok _).panicIff ?_
    rintro ⟨x, h1, ⟨l, tbs, h2, _⟩, _⟩
    have := nodeAt_lt h2
    rw [hlen, Nat.pow_succ] at this
    omega
  | succ k ih =>
    intro li sigs encs he hs1 hs2
    obtain ⟨o, ho, hat, _⟩ := getLeaf_at hd ht (i := li) (by omega)
    unfold verifyLeavesLoop
    rw [ho, Res.ok_bind]
    have grow : ∀ (f : LeafNode → Bytes) (acc : List Bytes), (∀ x, x ∈ acc ↔ ∃ j m, j < li ∧ nodeAt t (2 * j) = some (.leaf m) ∧ f m = x) →
        ∀ x, x ∈ (o.map f).toList ++ acc ↔ ∃ j m, j < li + 1 ∧ nodeAt t (2 * j) = some (.leaf m) ∧ f m = x := by
      intro f acc hacc x
      rw [List.mem_append, hacc]
      constructor
      · rintro (h | ⟨j, m, h1, h2⟩)
        · rw [Option.mem_toList] at h
          obtain ⟨l, rfl, rfl⟩ := Option.map_eq_some_iff.1 h
          exact ⟨li, l, by omega, hat, rfl⟩
        · exact ⟨j, m, by omega, h2⟩
      · rintro ⟨j, m, h1, h2, h3⟩
        rcases Nat.eq_or_lt_of_le (Nat.le_of_lt_succ h1) with rfl | h1
        · rw [hat] at h2
          obtain ⟨l, rfl, e⟩ := Option.map_eq_some_iff.1 h2
          cases e
          exact .inl (by simp [h3])
        · exact .inr ⟨j, m, h1, h2, h3⟩
    cases o with
    | none =>
      refine First.step (rest := verifyLeavesLoop pr ctx now creds t k (li + 1) sigs encs) ?_ (fun _ _ => rfl) ?_
        (fun _ _ => ih _ _ _ (by omega) (grow _ _ hs1) (grow _ _ hs2))
      · rintro ⟨l, _, h, _⟩
        rw [hat] at h
        cases h
      · intro _ h
        refine absurd (fun l hl => ?_) h
        rw [hat] at hl
        cases hl
    | some l =>
      dsimp only
      have hkl : l.credential.Known := hk _ l (by simpa using nodeAt_some.1 hat)
      have hp := leafNode_panic (pr := pr) hkl (o := { cipherSuite := ctx.cipherSuite, groupID := ctx.groupID, leafIndex := UInt32.ofNat li, supportedCreds := creds, signatureKeys := sigs, encryptionKeys := encs, now }) hsd
      have hC : LeafCrashAt pr ctx t li ↔ ∃ tbs, (Spec.Rfc.leafNodeTBS l ctx.groupID (UInt32.ofNat li).toNat).bytes = some tbs ∧
          Spec.BadPoint pr ctx.cipherSuite l.signatureKey "LeafNodeTBS" tbs l.signature := by
        constructor
        · rintro ⟨l', tbs, h, h'⟩
          rw [hat] at h
          cases h
          exact ⟨tbs, h'⟩
        · exact fun ⟨tbs, h⟩ => ⟨l, tbs, hat, h⟩
      have hK : Spec.LeafFits pr ctx now t s li ↔ LeafOk pr ctx now creds li l ∧ l.signatureKey ∉ sigs ∧ l.encryptionKey ∉ encs := by
        unfold LeafOk
        rw [creds_iff hd ht hcr hat, hs1, hs2]
        constructor
        · intro h
          obtain ⟨a, b, c⟩ := h l hat
          exact ⟨⟨a, b⟩, fun ⟨j, m, h1, h2, h3⟩ => (c j h1 m h2).1 h3, fun ⟨j, m, h1, h2, h3⟩ => (c j h1 m h2).2 h3⟩
        · rintro ⟨⟨a, b⟩, c, e⟩ l' hl'
          rw [hat] at hl'
          cases hl'
          exact ⟨a, b, fun j h1 m h2 => ⟨fun h3 => c ⟨j, m, h1, h2, h3⟩, fun h3 => e ⟨j, m, h1, h2, h3⟩⟩⟩
      refine First.step (rest := verifyLeavesLoop pr ctx now creds t k (li + 1) (l.signatureKey :: sigs) (l.encryptionKey :: encs)) ?_ ?_ ?_
        (fun _ _ => ih _ _ _ (by omega) (grow _ _ hs1) (grow _ _ hs2))
      · intro h
        rw [hp.1.2 (hC.1 h)]
        rfl
      · intro _ h
        rw [leafVerify_iff.2 (hK.1 h)]
        rfl
      · intro h1 h2
        have : l.verify pr { cipherSuite := ctx.cipherSuite, groupID := ctx.groupID, leafIndex := UInt32.ofNat li, supportedCreds := creds, signatureKeys := sigs, encryptionKeys := encs, now } = .err := by
          match hx : l.verify pr { cipherSuite := ctx.cipherSuite, groupID := ctx.groupID, leafIndex := UInt32.ofNat li, supportedCreds := creds, signatureKeys := sigs, encryptionKeys := encs, now } with
          | .ok () => exact absurd (hK.2 (leafVerify_iff.1 hx)) h2
          | .err => rfl
          | .panic => exact absurd (hC.2 (hp.1.1 hx)) h1
          | .hang => exact absurd hx hp.2
        rw [this]
        exact Res.fine_err

/-- The leaves are accepted exactly if all fit. -/
theorem leavesOk_iff {ctx : GroupContext} {t : VTree} {d : Nat} {s : Ratchet ParentNode d} (hd : d ≤ 31) (ht : t = s.flat .leaf .parent)
    {now : GoTime} {creds : List UInt16} (hcr : supportedCreds t = .ok creds) :
    LeavesOk pr ctx now creds t (2 ^ d) 0 [] [] ↔ ∀ j, Spec.LeafFits pr ctx now t s j := by
  have hin : ∀ {i l}, nodeAt t (2 * i) = some (.leaf l) → i < 2 ^ d := by
    intro i l hl
    have := nodeAt_lt hl
    rw [ht, flat_length, Nat.pow_succ] at this
    omega
  constructor
  · intro h i l hl
    obtain ⟨⟨a, b⟩, _, _, e⟩ := h i l (Nat.zero_le _) (by have := hin hl; omega) hl
    exact ⟨a, (creds_iff hd ht hcr hl).1 b, fun j hj m hm => e j m (Nat.zero_le _) hj hm⟩
  · intro h i l _ _ hl
    obtain ⟨a, b, c⟩ := h i l hl
    exact ⟨⟨a, (creds_iff hd ht hcr hl).2 b⟩, by simp, by simp, fun j m _ hj hm => c j hj m hm⟩

/-! ### Parent nodes -/

theorem unmerged_panic {t : VTree} {d : Nat} {s : Ratchet ParentNode d} (hd : d ≤ 31) (ht : t = s.flat .leaf .parent) {p : Nat}
    (hp : p < t.length) : ∀ lis : List UInt32, (unmergedListLoop t (2 ^ d) p lis).PanicIff
      (∃ us u vs, lis = us ++ u :: vs ∧ Spec.UnmergedValid t d p us ∧ t.length ≤ Spec.leafNumber u) := by
  have hlen : t.length = 2 ^ (d + 1) - 1 := by rw [ht, flat_length]
  intro lis
  induction lis with
  | nil => exact (Res.fine_ok _).panicIff (by rintro ⟨us, u, vs, h, _⟩; simp at h)
  | cons u us ih =>
    unfold unmergedListLoop
    have hx : nodeOfLeaf u.toNat = Spec.leafNumber u := rfl
    have hlt : Spec.leafNumber u < 2 ^ 32 := Nat.mod_lt _ (by decide)
    rcases Nat.lt_or_ge (Spec.leafNumber u) t.length with hu | hu
    · have hf : (unmergedLoop t (2 ^ d) p u 64 (nodeOfLeaf u.toNat)).Fine := by
        rw [← hx, nodeOfLeaf_mod, nodeOfLeaf_idx (Nat.mod_lt _ (by decide)), hlen, idx_zero, Nat.pow_succ] at hu
        rw [nodeOfLeaf_mod, nodeOfLeaf_idx (Nat.mod_lt _ (by decide))]
        refine unmergedLoop_fine hd ht d (by omega) ?_ (by omega)
        rw [Nat.sub_zero]
        exact Nat.div_eq_of_lt (by omega)
      refine (hf.bindPanic fun _ _ => ih).congr ?_
      rw [show (∃ a : Unit, unmergedLoop t (2 ^ d) p u 64 (nodeOfLeaf u.toNat) = .ok a ∧ ∃ us' u' vs, us = us' ++ u' :: vs ∧
        Spec.UnmergedValid t d p us' ∧ t.length ≤ Spec.leafNumber u') ↔ (unmergedLoop t (2 ^ d) p u 64 (nodeOfLeaf u.toNat) = .ok () ∧
        ∃ us' u' vs, us = us' ++ u' :: vs ∧ Spec.UnmergedValid t d p us' ∧ t.length ≤ Spec.leafNumber u') from
        ⟨fun ⟨_, h⟩ => h, fun h => ⟨(), h⟩⟩, unmergedLoop_valid hd ht hp]
      constructor
      · rintro ⟨h1, us', u', vs, rfl, h2, h3⟩
        exact ⟨u :: us', u', vs, rfl, List.forall_mem_cons.2 ⟨h1, h2⟩, h3⟩
      · rintro ⟨us', u', vs, e, h2, h3⟩
        cases us' with
        | nil =>
          obtain ⟨rfl, _⟩ := List.cons.inj e
          omega
        | cons v us' =>
          obtain ⟨rfl, rfl⟩ := List.cons.inj e
          obtain ⟨h1, h2⟩ := List.forall_mem_cons.1 h2
          exact ⟨h1, us', u', vs, rfl, h2, h3⟩
    · obtain ⟨x', h1, h2, h3⟩ := parent_outside hd hlt (by omega)
      have : unmergedLoop t (2 ^ d) p u 64 (nodeOfLeaf u.toNat) = .panic := by
        rw [hx, unmergedLoop, h1]
        dsimp only
        rw [if_neg (by omega), Res.idx_panic_iff.2 (by omega)]
        rfl
      rw [this]
      exact ⟨⟨fun _ => ⟨[], u, us, rfl, fun _ h => (by cases h), hu⟩, fun _ => rfl⟩, fun h => (by cases h)⟩

/-- The parent node at `x` has an unmerged leaf outside the tree, after others that are valid. -/
def ParentCrashAt (t : VTree) (d x : Nat) : Prop :=
  ∃ p us u vs, nodeAt t x = some (.parent p) ∧ p.unmergedLeaves = us ++ u :: vs ∧ Spec.UnmergedValid t d x us ∧ t.length ≤ Spec.leafNumber u

theorem parents_panic {t : VTree} {d : Nat} {s : Ratchet ParentNode d} (hd : d ≤ 31) (ht : t = s.flat .leaf .parent) :
    ∀ (ns : List (Option Node)) (i : Nat) (encs : List Bytes), t.drop i = ns →
      (∀ x, x ∈ encs ↔ (∃ y l, nodeAt t y = some (.leaf l) ∧ l.encryptionKey = x) ∨
        ∃ y p, y < i ∧ nodeAt t y = some (.parent p) ∧ p.encryptionKey = x) →
      (verifyParentsLoop t (2 ^ d) i ns encs).PanicIff (First (ParentCrashAt t d) (Spec.ParentFits t d) i) := by
  have hlen : t.length = 2 ^ (d + 1) - 1 := by rw [ht, flat_length]
  have hp32 := pow_tree_lt hd
  intro ns
  induction ns with
  | nil =>
    intro i encs hi _
    have := List.drop_eq_nil_iff.1 hi
    refine (Res.fine_ok _).panicIff ?_
    rintro ⟨x, h1, ⟨p, us, u, vs, h2, _⟩, _⟩
    have := nodeAt_lt h2
    omega
  | cons n ns ih =>
    intro i encs hi hen
    have hlt : i < t.length := by
      rcases Nat.lt_or_ge i t.length with h | h
      · exact h
      · rw [List.drop_of_length_le h] at hi; cases hi
    have hget : t[i]? = some n := by
      rw [← Nat.add_zero i, ← List.getElem?_drop, hi]; rfl
    have hnext : t.drop (i + 1) = ns := by
      rw [← List.drop_drop, hi]; rfl
    have hskip : (∀ p, n ≠ some (.parent p)) → (verifyParentsLoop t (2 ^ d) (i + 1) ns encs).PanicIff
        (First (ParentCrashAt t d) (Spec.ParentFits t d) i) := by
      intro hne
      refine First.step (rest := verifyParentsLoop t (2 ^ d) (i + 1) ns encs) ?_ (fun _ _ => rfl) ?_ (fun _ _ => ih _ _ hnext fun x => ?_)
      · rintro ⟨p, _, _, _, h, _⟩
        rw [nodeAt_eq hget] at h
        exact absurd h (hne p)
      · intro _ h
        refine absurd (fun p hp => ?_) h
        rw [nodeAt_eq hget] at hp
        exact absurd hp (hne p)
      · rw [hen]
        refine or_congr Iff.rfl ⟨fun ⟨y, p, h1, h2⟩ => ⟨y, p, by omega, h2⟩, fun ⟨y, p, h1, h2, h3⟩ => ⟨y, p, ?_, h2, h3⟩⟩
        rcases Nat.eq_or_lt_of_le (Nat.le_of_lt_succ h1) with rfl | h1
        · rw [nodeAt_eq hget] at h2
          exact absurd h2 (hne p)
        · exact h1
    match n, hget, hskip with
    | none, _, hskip => exact hskip (by simp)
    | some (.leaf _), _, hskip => exact hskip (by simp)
    | some (.parent p), hget, _ =>
      unfold verifyParentsLoop
      rw [Nat.mod_eq_of_lt (by omega)]
      have hat := nodeAt_eq hget
      have hu := unmerged_panic hd ht hlt p.unmergedLeaves
      have hi' := unmergedListLoop_iff hd ht hlt (lis := p.unmergedLeaves)
      have hC : ParentCrashAt t d i ↔ ∃ us u vs, p.unmergedLeaves = us ++ u :: vs ∧ Spec.UnmergedValid t d i us ∧
          t.length ≤ Spec.leafNumber u := by
        constructor
        · rintro ⟨q, us, u, vs, h, h'⟩
          rw [hat] at h
          cases h
          exact ⟨us, u, vs, h'⟩
        · exact fun ⟨us, u, vs, h⟩ => ⟨p, us, u, vs, hat, h⟩
      have hK : Spec.ParentFits t d i ↔ Spec.UnmergedValid t d i p.unmergedLeaves ∧ p.encryptionKey ∉ encs := by
        rw [hen]
        constructor
        · intro h
          obtain ⟨a, b, c⟩ := h p hat
          refine ⟨a, ?_⟩
          rintro (⟨y, l, h1, h2⟩ | ⟨y, q, h1, h2, h3⟩)
          · exact b y l h1 h2
          · exact c y h1 q h2 h3
        · rintro ⟨a, b⟩ q hq
          rw [hat] at hq
          cases hq
          exact ⟨a, fun y l h1 h2 => b (.inl ⟨y, l, h1, h2⟩), fun y h1 q h2 h3 => b (.inr ⟨y, q, h1, h2, h3⟩)⟩
      refine First.step (rest := verifyParentsLoop t (2 ^ d) (i + 1) ns (p.encryptionKey :: encs)) ?_ ?_ ?_
        (fun _ _ => ih _ _ hnext fun x => ?_)
      · intro h
        rw [hu.1.2 (hC.1 h)]
        rfl
      · intro _ h
        obtain ⟨a, b⟩ := hK.1 h
        rw [hi'.2 a, Res.ok_bind, (Res.guardErr_ok_iff.2 (by simpa using b) : Res.guardErr _ = .ok ()), Res.ok_bind]
      · intro h1 h2
        rw [hC, ← hu.1] at h1
        refine Res.Fine.bind ⟨h1, hu.2⟩ fun _ ha => ?_
        have : encs.contains p.encryptionKey = true := by
          by_contra hh
          exact h2 (hK.2 ⟨hi'.1 ha, by simpa using hh⟩)
        rw [this]
        exact Res.fine_err
      · rw [List.mem_cons, hen]
        constructor
        · rintro (rfl | h | ⟨y, q, h1, h2⟩)
          · exact .inr ⟨i, p, by omega, hat, rfl⟩
          · exact .inl h
          · exact .inr ⟨y, q, by omega, h2⟩
        · rintro (h | ⟨y, q, h1, h2, h3⟩)
          · exact .inr (.inl h)
          · rcases Nat.eq_or_lt_of_le (Nat.le_of_lt_succ h1) with rfl | h1
            · rw [hat] at h2
              cases h2
              exact .inl h3.symm
            · exact .inr (.inr ⟨y, q, h1, h2, h3⟩)

/-! ### The tree -/

theorem integrity_panic (hc : pr.Correct) {ctx : GroupContext} {sd : SuiteDesc} (hsd : suite ctx.cipherSuite = .ok sd) {t : VTree} {d : Nat}
    (hd : d ≤ 31) (hl : t.length = 2 ^ (d + 1) - 1) (he : Encodes t) (hk : KnownTree t) (now : GoTime) :
    (verifyIntegrity pr t ctx now).PanicIff (Spec.TreeCrash pr (pr.hash sd.hash) ctx now t) := by
  have hroot := rootHash_panic hc hsd hd hl he hk
  by_cases ht : Spec.IsTree t
  swap
  · unfold verifyIntegrity
    rw [hroot.1.2 ht]
    exact ⟨⟨fun _ => .inl ht, fun _ => rfl⟩, fun h => (by cases h)⟩
  obtain ⟨s, hs⟩ : ∃ s : Ratchet ParentNode d, t = s.flat .leaf .parent := by
    obtain ⟨d', hd', s, hs⟩ := isTree_iff.1 ht
    have e : d' = d := by
      rw [hs, flat_length] at hl
      have h1 := Nat.two_pow_pos (d' + 1)
      have h2 := Nat.two_pow_pos (d + 1)
      have : 2 ^ (d' + 1) = 2 ^ (d + 1) := by omega
      have := Nat.pow_right_injective (Nat.le_refl 2) this
      omega
    subst e
    exact ⟨s, hs⟩
  have hnum : treeNumLeaves t = 2 ^ d := numLeaves_pow hd hl
  obtain ⟨hph, hphk⟩ := parentHashes_panic hc hsd ht hk t 0 rfl
  have hcr := supportedCreds_eq hd hs
  have hlv := leaves_panic (pr := pr) hsd hd hs hk (now := now) hcr (2 ^ d) 0 [] [] (by omega) (by simp) (by simp)
  have hroot' := fun x => computeRootTreeHash_iff (pr := pr) hc hsd hd s x
  rw [← hs] at hroot'
  unfold verifyIntegrity verifyParentHashes
  rw [hnum, hcr]
  refine (((computeRootTreeHash_fine hsd ht hk).bindPanic fun x hx => guard_panic fun hb => hph.bind fun b hb => guard_panic
    (Q := First (LeafCrashAt pr ctx t) (Spec.LeafFits pr ctx now t s) 0 ∨ (∀ j, Spec.LeafFits pr ctx now t s j) ∧
      First (ParentCrashAt t d) (Spec.ParentFits t d) 0) fun _ =>
    ok_panic rfl ((hlv.bind (Q := fun _ => First (ParentCrashAt t d) (Spec.ParentFits t d) 0) fun E hE => ?_).congr ?_))).congr ?_
  · obtain ⟨_, h2⟩ := verifyLeavesLoop_sound hd hs (by omega) hE
    refine parents_panic hd hs t 0 E rfl fun x => (h2 x).trans ?_
    constructor
    · rintro (h | ⟨i, l, _, _, h1, h2⟩)
      · cases h
      · exact .inl ⟨_, l, h1, h2⟩
    · rintro (⟨y, l, h1, h2⟩ | ⟨_, _, h, _⟩)
      · have h3 := nodeAt_lt h1
        have h4 := ht.2.1 y l (nodeAt_some.1 h1)
        rw [hl, Nat.pow_succ] at h3
        refine .inr ⟨y / 2, l, Nat.zero_le _, by omega, ?_, h2⟩
        rwa [show 2 * (y / 2) = y by omega]
      · omega
  · refine or_congr Iff.rfl ?_
    rw [← leavesOk_iff hd hs hcr]
    exact ⟨fun ⟨E, hE, h⟩ => ⟨(verifyLeavesLoop_sound hd hs (by omega) hE).1, h⟩,
      fun ⟨h1, h⟩ => let ⟨E, hE⟩ := verifyLeavesLoop_complete hd hs (by omega) h1; ⟨E, hE, h⟩⟩
  · have hF : ∀ {C K : Nat → Prop}, First C K 0 ↔ ∃ x, C x ∧ ∀ y < x, K y := by
      intro C K
      exact ⟨fun ⟨x, _, h1, h2⟩ => ⟨x, h1, fun y hy => h2 y (Nat.zero_le _) hy⟩, fun ⟨x, h1, h2⟩ => ⟨x, Nat.zero_le _, h1, fun y _ hy => h2 y hy⟩⟩
    simp only [hF, beq_iff_eq]
    have hall : (verifyParentHashesLoop pr ctx.cipherSuite t 0 t = .ok true) ↔ ∀ y, Spec.Linked (pr.hash sd.hash) t y :=
      hphk.trans ⟨fun h y => h y (Nat.zero_le _), fun h y _ => h y⟩
    constructor
    · rintro ⟨x, hx, rfl, h⟩
      refine .inr ⟨d, s, hs, (hroot' _).1 hx, ?_⟩
      rcases h with ⟨x, ⟨off, i, k, p, l, r, h1, h2⟩, h3⟩ | ⟨b, hb, rfl, h⟩
      · exact .inl ⟨x, off, i, k, p, l, r, h1, h2, h3⟩
      · refine .inr ⟨hall.1 hb, ?_⟩
        rcases h with ⟨i, ⟨l, tbs, h1, h2, h3⟩, h4⟩ | ⟨h0, x, ⟨p, us, u, vs, h1, h2, h3, h4⟩, h5⟩
        · exact .inl ⟨i, l, tbs, h1, h2, h3, h4⟩
        · exact .inr ⟨h0, x, p, us, u, vs, h1, h2, h3, h4, h5⟩
    · rintro (h | ⟨d', s', hs', hh, h⟩)
      · exact absurd ht h
      obtain rfl : d' = d := by
        have e := hl
        rw [hs', flat_length] at e
        have h1 := Nat.two_pow_pos (d' + 1)
        have h2 := Nat.two_pow_pos (d + 1)
        have : 2 ^ (d' + 1) = 2 ^ (d + 1) := by omega
        have := Nat.pow_right_injective (Nat.le_refl 2) this
        omega
      obtain rfl : s = s' := vat_unique (t := t) (j := 0) (by rw [hs]; exact at_flat _ _ s) (by rw [hs']; exact at_flat _ _ s')
      refine ⟨_, (hroot' _).2 hh, rfl, ?_⟩
      rcases h with ⟨x, off, i, k, p, l, r, h1, h2, h3⟩ | ⟨h0, h⟩
      · exact .inl ⟨x, ⟨off, i, k, p, l, r, h1, h2⟩, h3⟩
      · refine .inr ⟨true, hall.2 h0, rfl, ?_⟩
        rcases h with ⟨i, l, tbs, h1, h2, h3, h4⟩ | ⟨h0, x, p, us, u, vs, h1, h2, h3, h4, h5⟩
        · exact .inl ⟨i, ⟨l, tbs, h1, h2, h3⟩, h4⟩
        · exact .inr ⟨h0, x, ⟨p, us, u, vs, h1, h2, h3, h4⟩, h5⟩

/-! ### The path secret -/

theorem nodePriv_panic (hc : pr.Correct) {cs : UInt16} {sd : SuiteDesc} (hsd : suite cs = .ok sd) (ps pub : Bytes) :
    (nodePrivFromPathSecret pr cs ps pub).PanicIff (sd.kem.seedSize ≠ sd.kdf.size) := by
  have hlen : (Spec.deriveSecret pr sd ps "node").length = sd.kdf.size := hc.expand_length _ _ _ _ (expandable_secret _)
  unfold nodePrivFromPathSecret deriveEncryptionKeyPair
  rw [deriveSecret_eq hsd _ lblNode_name (by decide), hsd]
  simp only [Res.ok_bind, hlen]
  by_cases e : sd.kem.seedSize = sd.kdf.size
  · rw [if_neg (by omega)]
    refine Res.Fine.panicIff ?_ (by simp [e])
    simp only [Res.pure_eq, Res.ok_bind]
    split
    · exact Res.fine_ok _
    · exact Res.fine_err
  · rw [if_pos (by omega)]
    exact ⟨⟨fun _ => e, fun _ => rfl⟩, fun h => (by cases h)⟩

theorem nodeKey_panic {t : VTree} {x : Nat} (h : nodeAt t x = none) : nodeKey t x = .panic := by
  unfold nodeKey
  unfold nodeAt at h
  unfold Res.idx
  cases hx : t[x]? with
  | none => rfl
  | some o =>
    rw [hx] at h
    cases o with
    | none => rfl
    | some n => cases h

theorem pathLoop_panic (hc : pr.Correct) {cs : UInt16} {sd : SuiteDesc} (hsd : suite cs = .ok sd) (hs : sd.kem.seedSize = sd.kdf.size)
    {v : VTree} {ps : Bytes} {d r : Nat} (hd : d ≤ 31) (hr : r < 2 ^ d) (hl : v.length = 2 ^ (d + 1) - 1) :
    ∀ (fuel k : Nat) (pt : List (Option Bytes)), k ≤ d → d - k < fuel → pt.length = v.length →
      (processPathSecretLoop pr cs v ps fuel (idx k (r / 2 ^ k)) pt).PanicIff (∃ k', k < k' ∧ k' ≤ d ∧ nodeAt v (idx k' (r / 2 ^ k')) = none ∧
        ∀ j, k < j → j < k' → ∃ q, nodeAt v (idx j (r / 2 ^ j)) = some q ∧
          q.encryptionKey = (Spec.nodeKeys pr sd (Spec.pathSecret pr sd ps 1)).1) := by
  intro fuel
  induction fuel with
  | zero => intro k pt _ h; omega
  | succ fuel ih =>
    intro k pt hk hf hp
    unfold processPathSecretLoop
    rw [numLeaves_pow hd hl]
    rcases Nat.lt_or_ge k d with hkd | hkd
    · have hz : r / 2 ^ k / 2 ^ (d - k) = 0 := by
        rw [Nat.div_div_eq_div_mul, ← Nat.pow_add, show k + (d - k) = d from by omega]
        exact Nat.div_eq_of_lt hr
      have hpar := parent_idx hd hkd hz
      rw [Nat.div_div_eq_div_mul, ← Nat.pow_succ] at hpar
      rw [hpar]
      have hlt : idx (k + 1) (r / 2 ^ (k + 1)) < pt.length := by
        rw [hp, hl]
        exact idx_lt_tree hkd hr
      simp only [deriveSecret_eq hsd _ lblPath_name (by decide), Res.ok_bind]
      cases hn : nodeAt v (idx (k + 1) (r / 2 ^ (k + 1))) with
      | none =>
        rw [nodeKey_panic hn]
        exact ⟨⟨fun _ => ⟨k + 1, by omega, hkd, hn, fun j h1 h2 => by omega⟩, fun _ => rfl⟩, fun h => (by cases h)⟩
      | some q =>
        rw [nodeKey_of hn, Res.ok_bind]
        by_cases hq : q.encryptionKey = (Spec.nodeKeys pr sd (Spec.pathSecret pr sd ps 1)).1
        · have h3 := nodePriv_of hc hsd hs hq
          rw [Spec.pathSecret, Spec.pathSecret] at h3
          rw [h3, Res.ok_bind, Res.setIdx_of_lt _ hlt, Res.ok_bind]
          refine (ih _ _ (by omega) (by omega) (by rw [List.length_set, hp])).congr ⟨?_, ?_⟩
          · rintro ⟨k', h1, h2, h3, h4⟩
            refine ⟨k', by omega, h2, h3, fun j h5 h6 => ?_⟩
            rcases Nat.eq_or_lt_of_le h5 with rfl | h5
            · exact ⟨q, hn, hq⟩
            · exact h4 j h5 h6
          · rintro ⟨k', h1, h2, h3, h4⟩
            rcases Nat.eq_or_lt_of_le h1 with rfl | h1
            · rw [hn] at h3
              cases h3
            · exact ⟨k', h1, h2, h3, fun j h5 h6 => h4 j (by omega) h6⟩
        · have he : nodePrivFromPathSecret pr cs (Spec.deriveSecret pr sd ps "path") q.encryptionKey = .err := by
            match hx : nodePrivFromPathSecret pr cs (Spec.deriveSecret pr sd ps "path") q.encryptionKey with
            | .ok priv => exact absurd (congrArg Prod.fst ((nodePriv_iff hc hsd).1 hx).2).symm hq
            | .err => rfl
            | .panic => exact absurd hs ((nodePriv_panic hc hsd _ _).1.1 hx)
            | .hang => exact absurd hx (nodePriv_panic hc hsd _ _).2
          rw [he]
          refine Res.fine_err.panicIff ?_
          rintro ⟨k', h1, h2, h3, h4⟩
          rcases Nat.eq_or_lt_of_le h1 with rfl | h1
          · rw [hn] at h3
            cases h3
          · obtain ⟨q', h5, h6⟩ := h4 (k + 1) (by omega) h1
            rw [hn] at h5
            cases h5
            exact hq h6
    · obtain rfl : k = d := by omega
      rw [Nat.div_eq_of_lt hr, parent_root hd]
      refine (Res.fine_ok _).panicIff ?_
      rintro ⟨k', h1, h2, _⟩
      omega

theorem joinerPrivTree_panic (hc : pr.Correct) {cs : UInt16} {sd : SuiteDesc} (hsd : suite cs = .ok sd) {v : VTree} {d i r : Nat}
    (hd : d ≤ 31) (hl : v.length = 2 ^ (d + 1) - 1) (hi : i < 2 ^ d) (hr : r < 2 ^ d) {signer : UInt32} (hsg : signer.toNat % 2 ^ 31 = i)
    (ek : Bytes) (o : Option Bytes) :
    (joinerPrivTree pr cs v r signer ek o).PanicIff (∃ ps, o = some ps ∧ Spec.SecretCrash pr sd v d i r ps) := by
  have h31 : 2 ^ d ≤ 2 ^ 31 := Nat.pow_le_pow_right (by decide) hd
  have hr31 : r < 2 ^ 31 := by omega
  have hi31 : i < 2 ^ 31 := by omega
  have hlt : idx 0 r < (List.replicate v.length (none : Option Bytes)).length := by
    rw [idx_zero, List.length_replicate, hl, Nat.pow_succ]; omega
  unfold joinerPrivTree
  simp only [nodeOfLeaf_idx hr31, Res.setIdx_of_lt _ hlt, Res.ok_bind]
  cases o with
  | none => exact (Res.fine_ok _).panicIff (by simp)
  | some ps =>
    obtain ⟨m, hmeet, hmin, hca⟩ := commonAncestor_leaves hr31 hi31
    have hmd : m ≤ d := hmin d (by rw [Nat.div_eq_of_lt hi, Nat.div_eq_of_lt hr])
    have hnl : nodeOfLeaf signer.toNat = idx 0 i := by rw [nodeOfLeaf_mod31, hsg, idx_zero]
    have hlt2 : idx m (r / 2 ^ m) < v.length := by
      rw [hl]
      exact idx_lt_tree hmd hr
    have huniq : ∀ m', i / 2 ^ m' = r / 2 ^ m' → (∀ m'' < m', i / 2 ^ m'' ≠ r / 2 ^ m'') → m' = m := by
      intro m' h1 h2
      have h3 := hmin m' h1.symm
      rcases Nat.lt_or_ge m m' with hlt' | hge
      · exact absurd hmeet.symm (h2 m hlt')
      · omega
    have hbelow : ∀ m' < m, i / 2 ^ m' ≠ r / 2 ^ m' := fun m' hm' he => absurd (hmin m' he.symm) (by omega)
    dsimp only
    rw [hnl, hca]
    unfold processPathSecret
    refine Res.PanicIff.congr (P := Spec.SecretCrash pr sd v d i r ps) ?_ (by simp)
    cases hn : nodeAt v (idx m (r / 2 ^ m)) with
    | none =>
      rw [nodeKey_panic hn]
      exact ⟨⟨fun _ => .inr ⟨m, m, Nat.le_refl _, hmd, hmeet.symm, hbelow, hn, fun j h1 h2 => by omega⟩, fun _ => rfl⟩, fun h => (by cases h)⟩
    | some q =>
      rw [nodeKey_of hn, Res.ok_bind]
      by_cases hs : sd.kem.seedSize = sd.kdf.size
      swap
      · rw [(nodePriv_panic hc hsd _ _).1.2 hs]
        exact ⟨⟨fun _ => .inl hs, fun _ => rfl⟩, fun h => (by cases h)⟩
      by_cases hq : q.encryptionKey = (Spec.nodeKeys pr sd ps).1
      · rw [nodePriv_of hc hsd hs hq, Res.ok_bind, Res.setIdx_of_lt _ (by simpa using hlt2), Res.ok_bind]
        refine (pathLoop_panic hc hsd hs hd hr hl 64 m _ hmd (by omega) (by simp)).congr ⟨?_, ?_⟩
        · rintro ⟨k, h1, h2, h3, h4⟩
          refine .inr ⟨m, k, by omega, h2, hmeet.symm, hbelow, h3, fun j h5 h6 => ?_⟩
          rcases Nat.eq_or_lt_of_le h5 with rfl | h5
          · rw [if_pos rfl]
            exact ⟨q, hn, hq⟩
          · rw [if_neg (by omega)]
            exact h4 j h5 h6
        · rintro (h | ⟨m', k, h1, h2, h3, h4, h5, h6⟩)
          · exact absurd hs h
          · obtain rfl := huniq m' h3 h4
            refine ⟨k, ?_, h2, h5, fun j h7 h8 => ?_⟩
            · rcases Nat.eq_or_lt_of_le h1 with rfl | h1
              · rw [hn] at h5
                cases h5
              · exact h1
            · have := h6 j (by omega) h8
              rwa [if_neg (by omega)] at this
      · have he : nodePrivFromPathSecret pr cs ps q.encryptionKey = .err := by
          match hx : nodePrivFromPathSecret pr cs ps q.encryptionKey with
          | .ok priv => exact absurd (congrArg Prod.fst ((nodePriv_iff hc hsd).1 hx).2).symm hq
          | .err => rfl
          | .panic => exact absurd hs ((nodePriv_panic hc hsd _ _).1.1 hx)
          | .hang => exact absurd hx (nodePriv_panic hc hsd _ _).2
        rw [he]
        refine Res.fine_err.panicIff ?_
        rintro (h | ⟨m', k, h1, h2, h3, h4, h5, h6⟩)
        · exact absurd hs h
        · obtain rfl := huniq m' h3 h4
          rcases Nat.eq_or_lt_of_le h1 with rfl | h1
          · rw [hn] at h5
            cases h5
          · obtain ⟨q', h7, h8⟩ := h6 m' (Nat.le_refl _) h1
            rw [if_pos rfl] at h8
            rw [hn] at h7
            cases h7
            exact hq h8

/-! ### The signature of the group info -/

theorem getLeaf_panic_any (t : VTree) (i : Nat) : (getLeaf t i).PanicIff (t.length ≤ 2 * (i % 2 ^ 31) ∨
    ∃ p, t[2 * (i % 2 ^ 31)]? = some (some (.parent p))) := by
  unfold getLeaf
  rw [nodeOfLeaf_mod31]
  rcases Nat.lt_or_ge (2 * (i % 2 ^ 31)) t.length with h | h
  · have hn := List.getElem?_eq_getElem h
    rw [(Res.idx_ok_iff.2 hn : Res.idx t _ = .ok _), Res.ok_bind]
    generalize t[2 * (i % 2 ^ 31)] = n at hn
    match n, hn with
    | none, hn => exact (Res.fine_ok _).panicIff (by rw [hn]; simp; omega)
    | some (.leaf l), hn => exact (Res.fine_ok _).panicIff (by rw [hn]; simp; omega)
    | some (.parent p), hn => exact ⟨⟨fun _ => .inr ⟨p, hn⟩, fun _ => rfl⟩, fun h => (by cases h)⟩
  · rw [Res.idx_panic_iff.2 h]
    exact ⟨⟨fun _ => .inl h, fun _ => rfl⟩, fun h => (by cases h)⟩

theorem infoSignature_panic (info : GroupInfo) (key : Bytes) : (info.verifySignature pr key).PanicIff
    (∃ tbs, (Spec.Rfc.groupInfoTBS info).bytes = some tbs ∧
      (Spec.BadPoint pr info.groupContext.cipherSuite key "GroupInfoTBS" tbs info.signature ∨
        (¬ ∃ sd, (info.groupContext.cipherSuite.toNat, sd) ∈ Spec.suites) ∧ ∃ m, Spec.signContent "GroupInfoTBS" tbs = some m)) := by
  simp only [infoTBS_some]
  refine orFalse_panic (groupInfo_encTBS_fine info) fun tbs _ => ?_
  rcases suite_ok_or_panic info.groupContext.cipherSuite with hp | ⟨sd, hsd⟩
  · have hno : ¬ ∃ sd, (info.groupContext.cipherSuite.toNat, sd) ∈ Spec.suites := by
      rintro ⟨sd, h⟩
      rw [← suite_iff_spec, hp] at h
      cases h
    unfold verifyWithLabel
    rw [encSignContent_eq (label := lblGroupInfoTBS) (name := "GroupInfoTBS") (by decide) (by decide)]
    cases hm : Spec.signContent "GroupInfoTBS" tbs with
    | none =>
      refine (Res.fine_ok _).panicIff ?_
      rintro (⟨sd, m, h, _⟩ | ⟨_, m, h⟩)
      · exact hno ⟨sd, h⟩
      · cases h
    | some m =>
      simp only [orErr, hp]
      exact ⟨⟨fun _ => .inr ⟨hno, m, rfl⟩, fun _ => rfl⟩, fun h => (by cases h)⟩
  · refine (verifyWithLabel_panic hsd (label := lblGroupInfoTBS) (name := "GroupInfoTBS") (by decide) (by decide) _ _ _).congr ?_
    refine ⟨.inl, fun h => h.elim id fun h => absurd ⟨sd, (suite_iff_spec _ _).1 hsd⟩ h.1⟩

theorem decryptGroupSecrets_panic {w : Welcome} (ref k : Bytes) : (w.decryptGroupSecrets pr ref k).PanicIff
    ((∃ entry, w.secrets.find? (fun e => e.newMember == ref) = some entry) ∧ w.encryptedGroupInfo.length < 2 ^ 30 ∧
      ¬ ∃ sd, (w.cipherSuite.toNat, sd) ∈ Spec.suites) := by
  rcases suite_ok_or_panic w.cipherSuite with hp | ⟨sd, hsd⟩
  · have hno : ¬ ∃ sd, (w.cipherSuite.toNat, sd) ∈ Spec.suites := by
      rintro ⟨sd, h⟩
      rw [← suite_iff_spec, hp] at h
      cases h
    unfold Welcome.decryptGroupSecrets Welcome.findSecret decryptWithLabel
    rw [hp]
    cases w.secrets.find? (fun e => e.newMember == ref) with
    | none => exact Res.fine_err.panicIff (by simp)
    | some e =>
      simp only [orErr, Res.ok_bind]
      have hf : Res.Fine (encEncryptContext lblWelcome w.encryptedGroupInfo : Res Bytes) := by unfold encEncryptContext; enc_fine
      rcases hf.okOrErr with ⟨b, hb⟩ | hb
      · have h2 := ((encryptContext_iff (label := lblWelcome) (name := "Welcome") (by decide) (by decide)).1 hb).1
        rw [hb]
        exact ⟨⟨fun _ => ⟨⟨_, rfl⟩, h2, hno⟩, fun _ => rfl⟩, fun h => (by cases h)⟩
      · rw [hb]
        refine Res.fine_err.panicIff ?_
        rintro ⟨_, h, _⟩
        rw [(encryptContext_iff (label := lblWelcome) (name := "Welcome") (by decide) (by decide)).2 ⟨h, rfl⟩] at hb
        cases hb
  · refine Res.Fine.panicIff ?_ (fun h => h.2.2 ⟨sd, (suite_iff_spec _ _).1 hsd⟩)
    exact (fine_orErr _).bind fun _ _ => (decryptWithLabel_fine hsd _ _ _ _).bind fun _ _ => unmarshal_safe groupSecrets_safe _

/-! ### C109 -/

/-- The last stage: the tree is valid, and what is left is to find the own leaf and to use the path secret. -/
def LastCrash (pr : Prims) (sd : SuiteDesc) (kp : KeyPairPackage) (now : GoTime) (gs : GroupSecrets) (info : GroupInfo) (t : VTree) : Prop :=
  info.confirmationTag.length < 2 ^ 30 ∧ ∃ (d : Nat) (s : Ratchet ParentNode d) (own : LeafNode) (li : Nat) (ps : Bytes),
    Spec.TreeValid pr (pr.hash sd.hash) info.groupContext now t s ∧ li < 2 ^ d ∧
    nodeAt t (2 * li) = some (.leaf own) ∧ own.encryptionKey = kp.pub.leafNode.encryptionKey ∧
    (∃ b, (Spec.Rfc.leafNode own).bytes = some b ∧ (Spec.Rfc.leafNode kp.pub.leafNode).bytes = some b) ∧
    gs.pathSecret = some ps ∧ Spec.SecretCrash pr sd t d (info.signer.toNat % 2 ^ 31) li ps

theorem last_panic (hc : pr.Correct) {sd : SuiteDesc} {kp : KeyPairPackage} (hcred : kp.pub.leafNode.credential.Known) {now : GoTime}
    {gs : GroupSecrets} {info : GroupInfo} (hsd : suite info.groupContext.cipherSuite = .ok sd) {t : VTree} {d : Nat} (hd : d ≤ 31)
    (hl : t.length = 2 ^ (d + 1) - 1) (hk : KnownTree t) (hsg : 2 * (info.signer.toNat % 2 ^ 31) < t.length)
    {s : Ratchet ParentNode d} (hv : Spec.TreeValid pr (pr.hash sd.hash) info.groupContext now t s) {psk raw : Bytes}
    (hraw : (Spec.Rfc.groupContext info.groupContext).bytes = some raw) (hrs : raw.length < 2 ^ 30) (f : Bytes → Bytes → Bytes → Nat → List (Option Bytes) → GroupState) :
    (do
      let epochSecret ← info.groupContext.extractEpochSecret pr gs.joinerSecret (some psk)
      let initSecret ← deriveSecret pr info.groupContext.cipherSuite epochSecret lblInit
      let interim ← nextInterimTranscriptHash pr info.groupContext.cipherSuite info.groupContext.confirmedTranscriptHash info.confirmationTag
      let found ← findLeaf t kp.pub.leafNode
      let myLeafIndex ← orErr found
      let privTree ← joinerPrivTree pr info.groupContext.cipherSuite t myLeafIndex info.signer kp.priv.encryptionKey gs.pathSecret
      return f epochSecret initSecret interim myLeafIndex privTree).PanicIff (LastCrash pr sd kp now gs info t) := by
  have hpd : 2 ^ (d + 1) = 2 * 2 ^ d := by rw [Nat.pow_succ]; omega
  have hsg' : info.signer.toNat % 2 ^ 31 < 2 ^ d := by omega
  have htree : Spec.IsTree t := isTree_iff.2 ⟨d, hd, s, hv.array⟩
  have hfl := fun i => findLeaf_iff hd hv.array (n := kp.pub.leafNode) hv.encryptionKeys (i := i) (2 ^ d) 0 (by omega)
  have hff := findLeafLoop_fine htree hk hcred (2 ^ d) 0 (by rw [numLeaves_pow hd hl]; omega)
  have hep := (epoch_iff (pr := pr) hsd (j := gs.joinerSecret) (p := psk)).2 ⟨raw, hraw, hrs, rfl⟩
  have hin := deriveSecret_eq (pr := pr) hsd (Spec.epochSecret pr sd gs.joinerSecret psk raw) (label := lblInit) (name := "init") lblInit_name (by decide)
  refine ok_panic hep (ok_panic hin ?_)
  refine ((nextInterim_fine hsd _ _).bindPanic (Q := fun _ => ∃ li, findLeafLoop t kp.pub.leafNode (2 ^ d) 0 = .ok (some li) ∧
    ∃ ps, gs.pathSecret = some ps ∧ Spec.SecretCrash pr sd t d (info.signer.toNat % 2 ^ 31) li ps) fun x hx => ?_).congr ?_
  · unfold findLeaf
    rw [numLeaves_pow hd hl]
    refine (hff.bindPanic fun o ho => (fine_orErr o).bindPanic fun li hli => Res.PanicIff.tail (joinerPrivTree_panic hc hsd hd hl hsg' ?_ rfl _ _)
      fun _ _ => Res.fine_ok _).congr ?_
    · rw [orErr_ok_iff] at hli
      subst hli
      exact ((hfl li).1 ho).2.1
    · simp only [orErr_ok_iff]
      exact ⟨fun ⟨o, h1, li, h2, h3⟩ => ⟨li, h2 ▸ h1, h3⟩, fun ⟨li, h1, h2⟩ => ⟨_, h1, li, rfl, h2⟩⟩
  · constructor
    · rintro ⟨x, hx, li, h1, ps, h2, h3⟩
      obtain ⟨_, h4, own, h5, h6, h7⟩ := (hfl li).1 h1
      obtain ⟨_, _, htl, _⟩ := nextInterim_ok hx
      exact ⟨htl, d, s, own, li, ps, hv, h4, h5, h6, h7, h2, h3⟩
    · rintro ⟨htl, d', s', own, li, ps, hv', h4, h5, h6, h7, h2, h3⟩
      obtain rfl : d' = d := by
        have e := hl
        rw [hv'.array, flat_length] at e
        have h1 := Nat.two_pow_pos (d' + 1)
        have h2 := Nat.two_pow_pos (d + 1)
        have : 2 ^ (d' + 1) = 2 ^ (d + 1) := by omega
        have := Nat.pow_right_injective (Nat.le_refl 2) this
        omega
      exact ⟨_, nextInterim_of (pr := pr) hsd info.groupContext.confirmedTranscriptHash htl, li, (hfl li).2 ⟨Nat.zero_le _, h4, own, h5, h6, h7⟩, ps, h2, h3⟩

/-- **C109**: GroupFromWelcome with an own key package in order panics exactly when the welcome satisfies Spec.WelcomeCrash, and always returns
otherwise. -/
theorem C109_panics (hc : pr.Correct) (w : Welcome) (kp : KeyPairPackage) (now : GoTime) (hown : ∃ sk, suite kp.pub.cipherSuite = .ok sk)
    (hcred : ∀ ty, kp.pub.leafNode.credential ≠ .other ty) : (groupFromWelcome pr w kp now).PanicIff (Spec.WelcomeCrash pr w kp now) := by
  obtain ⟨sk, hsk⟩ := hown
  have hcred := known_of_ne hcred
  unfold groupFromWelcome
  have href : (kp.pub.generateRef pr).Fine := Res.Fine.bind (keyPackage_enc_fine hcred) fun _ _ => refHash_fine hsk _ _
  refine (href.bindPanic (Q := fun ref => ((∃ entry, w.secrets.find? (fun e => e.newMember == ref) = some entry) ∧
      w.encryptedGroupInfo.length < 2 ^ 30 ∧ ¬ ∃ sd, (w.cipherSuite.toNat, sd) ∈ Spec.suites) ∨
      ∃ sd gs info t, suite w.cipherSuite = .ok sd ∧ w.decryptGroupSecrets pr ref kp.priv.initKey = .ok gs ∧ gs.psks = [] ∧
        w.decryptGroupInfo pr gs.joinerSecret (List.replicate sd.kdf.size 0) = .ok info ∧
        (∃ e, info.extensions.find? (fun e => e.ty == 2) = some e ∧ unmarshal decTree e.data = .ok t) ∧
        (Spec.SignerCrash pr info t ∨ Spec.InfoAuthentic pr w sd gs info t ∧
          (Spec.TreeCrash pr (pr.hash sd.hash) info.groupContext now t ∨ LastCrash pr sd kp now gs info t))) fun ref hr => ?_).congr ?_
  · refine ((decryptGroupSecrets_panic ref _).bind (Q := fun gs => ∃ sd info t, suite w.cipherSuite = .ok sd ∧ gs.psks = [] ∧
        w.decryptGroupInfo pr gs.joinerSecret (List.replicate sd.kdf.size 0) = .ok info ∧
        (∃ e, info.extensions.find? (fun e => e.ty == 2) = some e ∧ unmarshal decTree e.data = .ok t) ∧
        (Spec.SignerCrash pr info t ∨ Spec.InfoAuthentic pr w sd gs info t ∧
          (Spec.TreeCrash pr (pr.hash sd.hash) info.groupContext now t ∨ LastCrash pr sd kp now gs info t))) fun gs hgs => ?_).congr ?_
    · obtain ⟨sd, hsd⟩ : ∃ sd, suite w.cipherSuite = .ok sd := by
        unfold Welcome.decryptGroupSecrets decryptWithLabel at hgs
        simp only [Res.bind_ok_iff] at hgs
        obtain ⟨_, _, _, ⟨_, _, sd, hsd, _⟩, _⟩ := hgs
        exact ⟨sd, hsd⟩
      refine ((Res.fine_guardErr gs.verifySingleReinitOrBranchPSK).bindPanic fun _ _ => guard_panic
        (Q := ∃ info, w.decryptGroupInfo pr gs.joinerSecret (List.replicate sd.kdf.size 0) = .ok info ∧ ∃ t,
        (∃ e, info.extensions.find? (fun e => e.ty == 2) = some e ∧ unmarshal decTree e.data = .ok t) ∧
        (Spec.SignerCrash pr info t ∨ Spec.InfoAuthentic pr w sd gs info t ∧
          (Spec.TreeCrash pr (pr.hash sd.hash) info.groupContext now t ∨ LastCrash pr sd kp now gs info t))) fun h0 => ?_).congr ?_
      · rw [beq_iff_eq, List.length_eq_zero_iff] at h0
        unfold groupFromSecrets
        rw [h0, C38_none pr _ sd hsd, Res.ok_bind]
        have hfi : (w.decryptGroupInfo pr gs.joinerSecret (List.replicate sd.kdf.size 0)).Fine :=
          (welcomeKeyAndNonce_fine hsd _ _).bind fun _ _ => (aeadOpen_fine hsd _ _ _ _).bind fun _ _ => unmarshal_safe groupInfo_safe _
        refine hfi.bindPanic fun info hinfo => ?_
        refine ((fine_orErr _).bindPanic (Q := fun raw => ∃ t, unmarshal decTree raw = .ok t ∧ (Spec.SignerCrash pr info t ∨
          Spec.InfoAuthentic pr w sd gs info t ∧
          (Spec.TreeCrash pr (pr.hash sd.hash) info.groupContext now t ∨ LastCrash pr sd kp now gs info t))) fun raw hraw =>
            Res.Fine.bindPanic (C26_safe raw) fun t ht => ?_).congr ?_
        · have hk : KnownTree t := tree_yields.unmarshal ht
          have hen := tree_encodes ht
          refine ((getLeaf_panic_any t info.signer.toNat).bind (Q := fun o => ∃ signer, o = some signer ∧
            ((∃ tbs, (Spec.Rfc.groupInfoTBS info).bytes = some tbs ∧
              (Spec.BadPoint pr info.groupContext.cipherSuite signer.signatureKey "GroupInfoTBS" tbs info.signature ∨
                (¬ ∃ sd, (info.groupContext.cipherSuite.toNat, sd) ∈ Spec.suites) ∧ ∃ m, Spec.signContent "GroupInfoTBS" tbs = some m)) ∨
              Spec.InfoAuthentic pr w sd gs info t ∧
                (Spec.TreeCrash pr (pr.hash sd.hash) info.groupContext now t ∨ LastCrash pr sd kp now gs info t))) fun o ho => ?_).congr ?_
          · refine ((fine_orErr o).bindPanic fun signer hsig => (infoSignature_panic info signer.signatureKey).bind
              (Q := fun b => b = true ∧ Spec.InfoAuthentic pr w sd gs info t ∧
                (Spec.TreeCrash pr (pr.hash sd.hash) info.groupContext now t ∨ LastCrash pr sd kp now gs info t)) fun b hb =>
              guard_panic fun hb' => ?_).congr ?_
            · subst hb'
              rw [orErr_ok_iff] at hsig
              subst hsig
              obtain ⟨tbs, htbs, hvs⟩ := info_verifySignature_iff.1 hb
              obtain ⟨si, hsi⟩ : ∃ si, suite info.groupContext.cipherSuite = .ok si := by
                obtain ⟨si, m, h, _⟩ := hvs
                exact ⟨si, (suite_iff_spec _ _).2 h⟩
              rw [getLeaf_ok_some_iff, nodeOfLeaf_mod31] at ho
              have hsg := (List.getElem?_eq_some_iff.1 ho).1
              refine ((groupInfo_tag_fine hsi _ _).bindPanic (Q := fun b => b = true ∧ info.groupContext.cipherSuite = w.cipherSuite ∧
                (Spec.TreeCrash pr (pr.hash sd.hash) info.groupContext now t ∨ LastCrash pr sd kp now gs info t)) fun tagOk htag =>
                guard_panic fun hb => ?_).congr ?_
              · subst hb
                rw [← beq_iff_eq (a := info.groupContext.cipherSuite)]
                refine guard_panic fun hcs => ?_
                rw [beq_iff_eq] at hcs
                have hsd' : suite info.groupContext.cipherSuite = .ok sd := by rw [hcs]; exact hsd
                obtain ⟨raw, hraw, hrs, _⟩ := (confirmationTag_iff hsd').1 htag
                obtain ⟨k, hk31, hlen⟩ := C26_decoded_length ht
                cases k with
                | zero => rw [hlen] at hsg; simp at hsg
                | succ d =>
                  have hd : d ≤ 31 := by omega
                  refine ((integrity_panic hc hsd' hd hlen hen hk now).bind (Q := fun _ => LastCrash pr sd kp now gs info t) fun _ hok => ?_).congr ?_
                  · obtain ⟨sd', hsd'', s, hv⟩ := (C29_integrity hc hd hlen info.groupContext now).1 hok
                    rw [hsd'] at hsd''
                    cases hsd''
                    exact last_panic hc hcred hsd' hd hlen hk hsg hv hraw hrs _
                  · refine or_congr Iff.rfl ⟨fun ⟨_, _, h⟩ => h, fun h => ⟨(), ?_, h⟩⟩
                    obtain ⟨_, d', s', _, _, _, hv', _⟩ := h
                    obtain rfl : d' = d := by
                      have e := hlen
                      rw [hv'.array, flat_length] at e
                      have h1 := Nat.two_pow_pos (d' + 1)
                      have h2 := Nat.two_pow_pos (d + 1)
                      have : 2 ^ (d' + 1) = 2 ^ (d + 1) := by omega
                      have := Nat.pow_right_injective (Nat.le_refl 2) this
                      omega
                    exact (C29_integrity hc hd hlen info.groupContext now).2 ⟨sd, hsd', s', hv'⟩
              · constructor
                · rintro ⟨_, h1, rfl, h2, h3⟩
                  exact ⟨⟨⟨_, tbs, ho, htbs, hvs⟩, h2, (confirmationTag_iff (by rw [h2]; exact hsd)).1 h1⟩, h3⟩
                · rintro ⟨⟨_, h2, h1⟩, h3⟩
                  exact ⟨true, (confirmationTag_iff (by rw [h2]; exact hsd)).2 h1, rfl, h2, h3⟩
            · simp only [orErr_ok_iff]
              constructor
              · rintro ⟨signer, rfl, h | ⟨_, _, rfl, h⟩⟩
                · exact ⟨signer, rfl, .inl h⟩
                · exact ⟨signer, rfl, .inr h⟩
              · rintro ⟨signer, rfl, h | h⟩
                · exact ⟨signer, rfl, .inl h⟩
                · refine ⟨signer, rfl, .inr ⟨true, info_verifySignature_iff.2 ?_, rfl, h⟩⟩
                  obtain ⟨⟨⟨signer', tbs, h1, h2, h3⟩, _, _⟩, _⟩ := h
                  rw [getLeaf_ok_some_iff, nodeOfLeaf_mod31, h1] at ho
                  cases ho
                  exact ⟨tbs, h2, h3⟩
          · constructor
            · rintro ((h | h) | ⟨o, ho, signer, rfl, h⟩)
              · exact .inl (.inl h)
              · exact .inl (.inr (.inl h))
              · rw [getLeaf_ok_some_iff, nodeOfLeaf_mod31] at ho
                rcases h with ⟨tbs, h1, h2⟩ | h
                · exact .inl (.inr (.inr ⟨signer, tbs, ho, h1, h2⟩))
                · exact .inr h
            · rintro ((h | h | ⟨signer, tbs, ho, h1, h2⟩) | h)
              · exact .inl (.inl h)
              · exact .inl (.inr h)
              · exact .inr ⟨some signer, by rw [getLeaf_ok_some_iff, nodeOfLeaf_mod31]; exact ho, signer, rfl, .inl ⟨tbs, h1, h2⟩⟩
              · obtain ⟨signer, _, ho, _⟩ := h.1.signed
                exact .inr ⟨some signer, by rw [getLeaf_ok_some_iff, nodeOfLeaf_mod31]; exact ho, signer, rfl, .inr h⟩
        · simp only [Option.none_or, orErr_ok_iff, findExtensionData, Option.map_eq_some_iff]
          constructor
          · rintro ⟨_, ⟨e, he, rfl⟩, t, h1, h2⟩
            exact ⟨t, ⟨e, he, h1⟩, h2⟩
          · rintro ⟨t, ⟨e, he, h1⟩, h2⟩
            exact ⟨_, ⟨e, he, rfl⟩, t, h1, h2⟩
      · rw [beq_iff_eq, List.length_eq_zero_iff]
        constructor
        · rintro ⟨_, _, h0, info, h1, t, h2, h3⟩
          exact ⟨sd, info, t, hsd, h0, h1, h2, h3⟩
        · rintro ⟨sd', info, t, hsd', h0, h1, h2, h3⟩
          obtain rfl := Res.ok.inj (hsd.symm.trans hsd')
          refine ⟨(), ?_, h0, info, h1, t, h2, h3⟩
          unfold GroupSecrets.verifySingleReinitOrBranchPSK
          rw [h0]
          rfl
    · refine or_congr Iff.rfl ?_
      constructor
      · rintro ⟨gs, h1, sd, info, t, h2, h3⟩
        exact ⟨sd, gs, info, t, h2, h1, h3⟩
      · rintro ⟨sd, gs, info, t, h2, h1, h3⟩
        exact ⟨gs, h1, sd, info, t, h2, h3⟩
  · have hiff := fun ref => (C102_references (pr := pr) hsk ref).1 kp.pub rfl
    simp only [hiff]
    constructor
    · rintro ⟨ref, hr, ⟨⟨entry, h1⟩, h2, h3⟩ | ⟨sd, gs, info, t, h1, h2, h3, h4, h5, h6⟩⟩
      · exact .inl ⟨sk, ref, entry, (suite_iff_spec _ _).1 hsk, hr, h1, h2, h3⟩
      · obtain ⟨g1, entry, g2, g3⟩ := (decryptGroupSecrets_iff h1).1 h2
        exact .inr ⟨sk, sd, ref, entry, gs, info, t, ⟨(suite_iff_spec _ _).1 hsk, (suite_iff_spec _ _).1 h1, hr, g2, g1, g3, h3,
          (decryptGroupInfo_iff h1).1 h4, h5⟩, h6⟩
    · rintro (⟨sk', ref, entry, h0, hr, h1, h2, h3⟩ | ⟨sk', sd, ref, entry, gs, info, t, h, h6⟩)
      · obtain rfl := Res.ok.inj (hsk.symm.trans ((suite_iff_spec _ _).2 h0))
        exact ⟨ref, hr, .inl ⟨⟨entry, h1⟩, h2, h3⟩⟩
      · obtain rfl := Res.ok.inj (hsk.symm.trans ((suite_iff_spec _ _).2 h.packageSuite))
        have hsd := (suite_iff_spec _ _).2 h.suite
        exact ⟨ref, h.reference, .inr ⟨sd, gs, info, t, hsd, (decryptGroupSecrets_iff hsd).2 ⟨h.size, entry, h.addressed, h.secrets⟩, h.psks,
          (decryptGroupInfo_iff hsd).2 h.opened, h.tree, h6⟩⟩

/-- **C109**: with the suites that do not sign with ECDSA, a welcome for an own key package in order does not panic if its suite and that of the
group exist, who signed it is a member of the tree it carries, all nodes of that tree are at places for their kind and their unmerged
leaves inside, and no path secret is sent. So what can be done about the panics is to check this first. -/
theorem C109_returns (hc : pr.Correct) (w : Welcome) (kp : KeyPairPackage) (now : GoTime) (hown : ∃ sk, suite kp.pub.cipherSuite = .ok sk)
    (hcred : ∀ ty, kp.pub.leafNode.credential ≠ .other ty) (hw : ∃ sd, suite w.cipherSuite = .ok sd)
    (h : ∀ sk sd ref entry gs info t, Spec.WelcomeOpened pr w kp sk sd ref entry gs info t →
      info.groupContext.cipherSuite.toNat ∈ [1, 3, 4, 6] ∧ gs.pathSecret = none ∧ Spec.IsTree t ∧ 2 * (info.signer.toNat % 2 ^ 31) < t.length ∧
      ∀ x p, nodeAt t x = some (.parent p) → ∀ u ∈ p.unmergedLeaves, Spec.leafNumber u < t.length) :
    (groupFromWelcome pr w kp now).Fine := by
  have key := C109_panics hc w kp now hown hcred
  refine ⟨fun hp => ?_, key.2⟩
  rcases key.1.1 hp with ⟨sk, ref, entry, h0, hr, h1, h2, h3⟩ | ⟨sk, sd, ref, entry, gs, info, t, ho, hx⟩
  · obtain ⟨sd, hsd⟩ := hw
    exact h3 ⟨sd, (suite_iff_spec _ _).1 hsd⟩
  · obtain ⟨hcs, hps, ht, hsg, hu⟩ := h _ _ _ _ _ _ _ ho
    have hne : info.groupContext.cipherSuite.toNat ≠ 2 ∧ info.groupContext.cipherSuite.toNat ≠ 5 ∧ info.groupContext.cipherSuite.toNat ≠ 7 := by
      simp only [List.mem_cons, List.not_mem_nil, or_false] at hcs
      omega
    have hstray : ∀ {k j : Nat} (s : Ratchet ParentNode k), VAt t j s → ∀ ph, ¬ Spec.Strays t (s.resolution (j * 2 ^ (k + 1))) ph := by
      rintro k j s hs ph ⟨pre, x, post, e, h1, _⟩
      have := resolution_in hs hu x (by rw [e]; simp)
      omega
    rcases hx with (h1 | ⟨p, h1⟩ | ⟨signer, tbs, _, _, h1⟩) | ⟨_, h1 | ⟨_, d, s, own, li, ps, _, _, _, _, _, h1, _⟩⟩
    · omega
    · have := ht.2.2 _ p h1
      omega
    · rcases h1 with h1 | ⟨h1, _⟩
      · exact badPoint_edwards hne h1
      · refine h1 ?_
        simp only [List.mem_cons, List.not_mem_nil, or_false] at hcs
        rcases hcs with h | h | h | h <;> rw [h] <;> simp [Spec.suites]
    · rcases h1 with h1 | ⟨d, s, hs, _, h1⟩
      · exact h1 ht
      rcases h1 with ⟨x, off, i, k, p, l, r, ⟨j, rfl, rfl, rfl, hat⟩, ⟨_, _, _, _, _, _, _, _, h1⟩, _⟩ | ⟨_, h1⟩
      · rcases h1 with h1 | h1
        · rw [← off_succ_left] at h1
          exact hstray l hat.2.1 _ h1
        · rw [← off_succ_right] at h1
          exact hstray r hat.2.2 _ h1
      · rcases h1 with ⟨i, l, tbs, _, _, h1, _⟩ | ⟨_, x, p, us, u, vs, h1, h2, _, h3, _⟩
        · exact badPoint_edwards hne h1
        · have := hu x p h1 u (by rw [h2]; simp)
          omega
    · rw [hps] at h1
      cases h1

/-! ### Instances -/

/-- A welcome of suite `ws` with a group info for a group of suite `cs`, made by the holder of the first leaf of `tree` with the keys of
suite `s`. -/
def toyCrafted (ws cs s : UInt16) (signer : UInt32) (pathSecret : Option Bytes) (tree : VTree) (joiner : KeyPackage) : Res Welcome := do
  let (a, _) ← toyTwo
  let treeHash := match computeRootTreeHash toyPrims s tree with | .ok h => h | _ => []
  let ctx := { a.group.groupContext with treeHash, cipherSuite := s }
  let psk ← extractPSKSecret toyPrims s [] []
  let joinerSecret := List.replicate 32 5
  let es ← ctx.extractEpochSecret toyPrims joinerSecret (some psk)
  let confirmationTag ← ctx.signConfirmationTag toyPrims es
  let rawTree ← (encTree tree : Res Bytes)
  let info : GroupInfo := { groupContext := ctx, extensions := [{ ty := 2, data := rawTree }], confirmationTag, signer, signature := [] }
  let info ← info.sign toyPrims [11, 0] []
  let info := { info with groupContext := { ctx with cipherSuite := cs } }
  let encryptedGroupInfo ← info.encrypt toyPrims joinerSecret psk
  let gs : GroupSecrets := { joinerSecret, pathSecret, psks := [] }
  let secrets ← encryptSecretsLoop toyPrims s gs encryptedGroupInfo (fun _ => []) 0 [joiner]
  return { cipherSuite := ws, secrets, encryptedGroupInfo }

/-- The first leaf linked to the parent node `p` above it, where `sib` is the tree hash on the other side. -/
def toyLinked (p : ParentNode) (sib : Bytes) : Res LeafNode := do
  let (a, _) ← toyTwo
  let ph ← p.computeParentHash toyPrims 1 sib
  ({ (toyMember 0).pub.leafNode with source := .commit ph } : LeafNode).sign toyPrims 1 a.group.groupContext.groupID 0 [11, 0] []

/-- A tree with one parent node, linked to the leaf of `0` and above that of `5`, with the unmerged leaves `us`. -/
def toyPaired (us : List UInt32) : Res VTree := do
  let p : ParentNode := { encryptionKey := [7], parentHash := [], unmergedLeaves := us }
  let sib ← computeTreeHash toyPrims 1 [none, none, some (.leaf (toyMember 5).pub.leafNode)] 2 us
  let leaf ← toyLinked p sib
  return [some (.leaf leaf), some (.parent p), some (.leaf (toyMember 5).pub.leafNode)]

/-- Above it another parent node. -/
def toyStacked (us : List UInt32) : Res VTree := do
  let t ← toyPaired us
  return t ++ [some (.parent { encryptionKey := [8], parentHash := [], unmergedLeaves := [] }), none, none, none]

def toyJoins (w : Res Welcome) : Res Unit := do
  let w ← w
  let _ ← groupFromWelcome toyPrims w (toyMember 5) toyLater
  return ()

/-- Each of the ways to panic occurs; and with the fault gone the same welcome is joined with or refused. In turn: the suite of the
welcome; the place of who signed, outside or at a parent node; the suite of the group; a node at a place for the other kind; a link looked
for outside the tree; an unmerged leaf outside the tree; a path secret for blank nodes. -/
example :
    let t : VTree := [some (.leaf (toyMember 0).pub.leafNode), none, some (.leaf (toyMember 5).pub.leafNode)]
    let k := (toyMember 5).pub
    toyJoins (toyCrafted 1 1 1 0 none t k) = .ok () ∧
    toyJoins (toyCrafted 9 1 1 0 none t k) = .panic ∧
    toyJoins (toyCrafted 1 1 1 100 none t k) = .panic ∧
    toyJoins (toyCrafted 1 1 1 0 none [some (.parent { encryptionKey := [7], parentHash := [], unmergedLeaves := [] })] k) = .panic ∧
    toyJoins (toyCrafted 1 9 1 0 none t k) = .panic ∧
    toyJoins (toyCrafted 1 1 1 0 none [some (.leaf (toyMember 0).pub.leafNode), some (.leaf (toyMember 5).pub.leafNode)] k) = .panic ∧
    toyJoins (toyStacked [9] >>= fun t => toyCrafted 1 1 1 0 none t k) = .panic ∧
    toyJoins (toyStacked [1] >>= fun t => toyCrafted 1 1 1 0 none t k) = .err ∧
    toyJoins (toyPaired [] >>= fun t => toyCrafted 1 1 1 0 none t k) = .ok () ∧
    toyJoins (toyPaired [9] >>= fun t => toyCrafted 1 1 1 0 none t k) = .panic ∧
    toyJoins (toyCrafted 1 1 1 0 (some [1]) t k) = .panic := by
  decide +kernel

/-- With ECDSA, leaf 2 has a key that is no point. -/
example :
    let joins (t : VTree) : Res Unit := do
      let w ← toyCrafted 2 2 2 0 none t (toyPoint 5).pub
      let _ ← groupFromWelcome toyPrims w (toyPoint 5) toyLater
      return ()
    let t (l : LeafNode) : VTree := [some (.leaf (toyPoint 0).pub.leafNode), none, some (.leaf (toyPoint 5).pub.leafNode), none, some (.leaf l),
      none, none]
    joins (t (toyPoint 1).pub.leafNode) = .ok () ∧ joins (t (toyNoPoint 1).leafNode) = .panic := by
  decide +kernel

/-- The opening of a welcome as the code does it. -/
def toyOpen (w : Welcome) (kp : KeyPairPackage) : Res (GroupSecrets × GroupInfo × VTree) := do
  let ref ← kp.pub.generateRef toyPrims
  let gs ← w.decryptGroupSecrets toyPrims ref kp.priv.initKey
  let sd ← suite w.cipherSuite
  let info ← w.decryptGroupInfo toyPrims gs.joinerSecret (List.replicate sd.kdf.size 0)
  let e ← orErr (info.extensions.find? (fun e => e.ty == 2))
  let t ← unmarshal decTree e.data
  return (gs, info, t)

theorem toyOpen_of {w : Welcome} {kp : KeyPairPackage} {sk sd : SuiteDesc} {ref : Bytes} {entry : EncryptedGroupSecrets} {gs : GroupSecrets}
    {info : GroupInfo} {t : VTree} (h : Spec.WelcomeOpened toyPrims w kp sk sd ref entry gs info t) : toyOpen w kp = .ok (gs, info, t) := by
  have h1 := (suite_iff_spec _ _).2 h.suite
  have hr := ((C102_references (pr := toyPrims) ((suite_iff_spec _ _).2 h.packageSuite) ref).1 kp.pub rfl).2 h.reference
  have hs := (decryptGroupSecrets_iff h1).2 ⟨h.size, entry, h.addressed, h.secrets⟩
  have hi := (decryptGroupInfo_iff h1).2 h.opened
  obtain ⟨e, he, ht⟩ := h.tree
  unfold toyOpen
  rw [hr, Res.ok_bind, hs, Res.ok_bind, h1, Res.ok_bind, hi, Res.ok_bind, he]
  simp only [orErr, Res.ok_bind, ht]
  rfl

/-- The hypotheses of `C109_returns` for the welcome with which the first instance joins. -/
example : ∃ w, toyCrafted 1 1 1 0 none [some (.leaf (toyMember 0).pub.leafNode), none, some (.leaf (toyMember 5).pub.leafNode)] (toyMember 5).pub = .ok w ∧
    (groupFromWelcome toyPrims w (toyMember 5) toyLater).Fine := by
  obtain ⟨w, hw, h⟩ := Res.holds_ok (show ((toyCrafted 1 1 1 0 none [some (.leaf (toyMember 0).pub.leafNode), none,
      some (.leaf (toyMember 5).pub.leafNode)] (toyMember 5).pub).holds fun w => w.cipherSuite == 1 && (toyOpen w (toyMember 5)).holds fun (gs, info, t) =>
        info.groupContext.cipherSuite == 1 && gs.pathSecret.isNone && info.signer == 0 &&
          decide (t = [some (.leaf (toyMember 0).pub.leafNode), none, some (.leaf (toyMember 5).pub.leafNode)])) = true by decide +kernel)
  simp only [Bool.and_eq_true, beq_iff_eq] at h
  obtain ⟨⟨gs, info, t⟩, ho, h'⟩ := Res.holds_ok h.2
  simp only [Bool.and_eq_true, beq_iff_eq, decide_eq_true_eq, Option.isNone_iff_eq_none] at h'
  obtain ⟨⟨⟨h1, h2⟩, h3⟩, rfl⟩ := h'
  refine ⟨w, hw, C109_returns toyPrims_correct w (toyMember 5) toyLater
    ⟨_, by rw [show (toyMember 5).pub.cipherSuite = 1 by decide +kernel]; rfl⟩
    (by rw [show (toyMember 5).pub.leafNode.credential = .basic [5] by decide +kernel]; nofun) ⟨_, by rw [h.1]; rfl⟩ ?_⟩
  intro sk sd ref entry gs' info' t' hop
  have e := (toyOpen_of hop).symm.trans ho
  cases e
  refine ⟨by rw [h1]; decide, h2, ⟨⟨1, by decide⟩, ?_, ?_⟩, by rw [h3]; decide, ?_⟩
  all_goals
    intro x y hx
    rcases x with _ | _ | _ | x <;> simp_all [nodeAt]

end Mls
