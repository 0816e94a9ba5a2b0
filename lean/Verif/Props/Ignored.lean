import Verif.Props.Integrity
import Verif.Props.KeyPackages
import Mathlib.Data.List.Forall2
/-
Property C117: values of a leaf's capabilities that the library does not know make no difference.
-/
namespace Mls

open Spec (Ratchet nodeAt)

variable {pr : Prims}

/-! ### Specification -/

/-- The credential types of RFC 9420: basic and x509. -/
def Spec.KnownType (ct : UInt16) : Prop := ct = 1 ∨ ct = 2

/-- The capabilities `c` and `c'` say the same of the known credential types, and of the extensions `exts`. All else may differ: versions, cipher
suites, proposals, other extensions, other credential types, and the order. -/
structure Spec.SameKnown (exts : List Extension) (c c' : Capabilities) : Prop where
  credentials : ∀ ct, Spec.KnownType ct → c.credentials.count ct = c'.credentials.count ct
  extensions : ∀ e ∈ exts, e.ty ∈ c.extensions ↔ e.ty ∈ c'.extensions

/-- Two leaf nodes that are alike but for unknown capabilities, and for what depends on the bytes: signature and parent hash. -/
structure Spec.AlikeLeaf (l l' : LeafNode) : Prop where
  encryptionKey : l.encryptionKey = l'.encryptionKey
  signatureKey : l.signatureKey = l'.signatureKey
  credential : l.credential = l'.credential
  known : Spec.SameKnown l.extensions l.capabilities l'.capabilities
  source : l.source = l'.source ∨ ∃ h h', l.source = .commit h ∧ l'.source = .commit h'
  extensions : l.extensions = l'.extensions

/-- So for nodes; parent nodes may differ by the parent hash. -/
def Spec.AlikeNode : Option Node → Option Node → Prop
  | none, none => True
  | some (.leaf l), some (.leaf l') => Spec.AlikeLeaf l l'
  | some (.parent p), some (.parent p') => p.encryptionKey = p'.encryptionKey ∧ p.unmergedLeaves = p'.unmergedLeaves
  | _, _ => False

/-- The leaf node has a signature for the leaf `i` in the group of `ctx`. -/
def Spec.LeafSigned (pr : Prims) (cs : UInt16) (id : Bytes) (i : Nat) (l : LeafNode) : Prop :=
  ∃ tbs, (Spec.Rfc.leafNodeTBS l id i).bytes = some tbs ∧ Spec.ValidSig pr cs l.signatureKey "LeafNodeTBS" tbs l.signature

/-- What depends on the bytes of a tree is in order: the tree hash, the parent hashes and the signatures of the leaves. -/
structure Spec.SealedTree (pr : Prims) (ctx : GroupContext) (t : VTree) (d : Nat) : Prop where
  depth : d ≤ 31
  bytes : ∃ sd, suite ctx.cipherSuite = .ok sd ∧ ∃ s : Ratchet ParentNode d, t = s.flat .leaf .parent ∧
    s.treeHash (pr.hash sd.hash) 0 = some ctx.treeHash ∧ s.ParentHashValid (pr.hash sd.hash) t 0 0
  signatures : ∀ i l, i < 2 ^ d → nodeAt t (2 * i) = some (.leaf l) →
    Spec.LeafSigned pr ctx.cipherSuite ctx.groupID (UInt32.ofNat i).toNat l

/-! ### Proofs -/

theorem Spec.SameKnown.symm {exts : List Extension} {c c' : Capabilities} (h : Spec.SameKnown exts c c') : Spec.SameKnown exts c' c :=
  ⟨fun ct hc => (h.credentials ct hc).symm, fun e he => (h.extensions e he).symm⟩

theorem Spec.AlikeLeaf.symm {l l' : LeafNode} (h : Spec.AlikeLeaf l l') : Spec.AlikeLeaf l' l where
  encryptionKey := h.encryptionKey.symm
  signatureKey := h.signatureKey.symm
  credential := h.credential.symm
  known := by rw [← h.extensions]; exact h.known.symm
  source := h.source.elim (fun h => .inl h.symm) fun ⟨a, b, h1, h2⟩ => .inr ⟨b, a, h2, h1⟩
  extensions := h.extensions.symm

theorem Spec.AlikeNode.symm {a b : Option Node} (h : Spec.AlikeNode a b) : Spec.AlikeNode b a := by
  rcases a with _ | (l | p) <;> rcases b with _ | (l' | p') <;> simp only [Spec.AlikeNode] at h ⊢
  · exact Spec.AlikeLeaf.symm h
  · exact ⟨h.1.symm, h.2.symm⟩

theorem Spec.AlikeNode.leaf {a b : Option Node} (h : Spec.AlikeNode a b) {l : LeafNode} (ha : a = some (.leaf l)) :
    ∃ l', b = some (.leaf l') ∧ Spec.AlikeLeaf l l' := by
  subst ha
  rcases b with _ | (l' | p') <;> simp only [Spec.AlikeNode] at h
  exact ⟨l', rfl, h⟩

theorem Spec.AlikeNode.parent {a b : Option Node} (h : Spec.AlikeNode a b) {p : ParentNode} (ha : a = some (.parent p)) :
    ∃ p', b = some (.parent p') ∧ p.encryptionKey = p'.encryptionKey ∧ p.unmergedLeaves = p'.unmergedLeaves := by
  subst ha
  rcases b with _ | (l' | p') <;> simp only [Spec.AlikeNode] at h
  exact ⟨p', rfl, h⟩

theorem Spec.AlikeNode.key {a b : Option Node} (h : Spec.AlikeNode a b) {n : Node} (ha : a = some n) :
    ∃ n', b = some n' ∧ Spec.keyOf n = Spec.keyOf n' := by
  cases n with
  | leaf l => obtain ⟨l', h1, h2⟩ := h.leaf ha; exact ⟨_, h1, h2.encryptionKey⟩
  | parent p => obtain ⟨p', h1, h2, _⟩ := h.parent ha; exact ⟨_, h1, h2⟩

/-- The members, in their order. -/
theorem members_alike {t t' : VTree} {d : Nat} {s s' : Ratchet ParentNode d} (hd : d ≤ 31) (hs : t = s.flat .leaf .parent)
    (hs' : t' = s'.flat .leaf .parent) (h : ∀ x, Spec.AlikeNode (nodeAt t x) (nodeAt t' x)) :
    List.Forall₂ Spec.AlikeLeaf (s.leaves.filterMap id) (s'.leaves.filterMap id) := by
  have key : List.Forall₂ (fun a b : Option LeafNode => Spec.AlikeNode (a.map .leaf) (b.map .leaf)) s.leaves s'.leaves := by
    rw [List.forall₂_iff_get]
    refine ⟨by rw [leaves_length, leaves_length], fun i h1 h2 => ?_⟩
    rw [leaves_length] at h1
    obtain ⟨o, _, a1, a2⟩ := getLeaf_at hd hs h1
    obtain ⟨o', _, b1, b2⟩ := getLeaf_at hd hs' h1
    have := h (2 * i)
    rw [a1, b1] at this
    rw [List.getElem?_eq_some_iff] at a2 b2
    obtain ⟨_, rfl⟩ := a2
    obtain ⟨_, rfl⟩ := b2
    exact this
  generalize s.leaves = a at key ⊢
  generalize s'.leaves = b at key ⊢
  induction key with
  | nil => exact .nil
  | @cons a b _ _ hab _ ih =>
    cases a <;> cases b <;> simp only [Option.map, Spec.AlikeNode] at hab
    · exact ih
    · exact .cons hab ih

theorem count_alike {ms ms' : List LeafNode} (h : List.Forall₂ Spec.AlikeLeaf ms ms') {ct : UInt16} (hc : Spec.KnownType ct) :
    (ms.flatMap fun m => m.capabilities.credentials).count ct = (ms'.flatMap fun m => m.capabilities.credentials).count ct := by
  induction h with
  | nil => rfl
  | cons h _ ih => rw [List.flatMap_cons, List.flatMap_cons, List.count_append, List.count_append, ih, h.known.credentials ct hc]

/-! ### C117 -/

/-- **C117**: a leaf node with other unknown capabilities is verified with the same result, if both have their signature. -/
theorem C117_leaf {l l' : LeafNode} (h : Spec.AlikeLeaf l l') (hct : Spec.KnownType l.credential.ty) {o : VerifyOptions} {creds : List UInt16}
    (hcr : ∀ ct, Spec.KnownType ct → (ct ∈ o.supportedCreds ↔ ct ∈ creds))
    (hsig : Spec.LeafSigned pr o.cipherSuite o.groupID o.leafIndex.toNat l) (hsig' : Spec.LeafSigned pr o.cipherSuite o.groupID o.leafIndex.toNat l') :
    l.verify pr o = l'.verify pr { o with supportedCreds := creds } := by
  unfold LeafNode.verify
  rw [leaf_verifySignature_iff.2 hsig, leaf_verifySignature_iff.2 hsig']
  have e1 : o.supportedCreds.contains l.credential.ty = creds.contains l'.credential.ty := by
    rw [← h.credential, Bool.eq_iff_iff, List.contains_iff_mem, List.contains_iff_mem]
    exact hcr _ hct
  have e2 : l.lifetimeOk o.now = l'.lifetimeOk o.now := by
    unfold LeafNode.lifetimeOk
    rcases h.source with h | ⟨a, b, h1, h2⟩
    · rw [h]
    · rw [h1, h2]
  have e3 : (l.extensions.all fun e => l.capabilities.extensions.contains e.ty) =
      l'.extensions.all fun e => l'.capabilities.extensions.contains e.ty := by
    rw [← h.extensions, Bool.eq_iff_iff]
    simp only [List.all_eq_true, List.contains_iff_mem]
    exact forall₂_congr fun e he => h.known.extensions e he
  simp only [e1, e2, e3, h.signatureKey, h.encryptionKey, Res.ok_bind]

/-- **C117**: the members of two trees that differ in unknown capabilities support the same known credential types. -/
theorem C117_supported {t t' : VTree} {d : Nat} {s s' : Ratchet ParentNode d} (hd : d ≤ 31) (hs : t = s.flat .leaf .parent)
    (hs' : t' = s'.flat .leaf .parent) (h : ∀ x, Spec.AlikeNode (nodeAt t x) (nodeAt t' x)) :
    ∃ creds creds', supportedCreds t = .ok creds ∧ supportedCreds t' = .ok creds' ∧
      ∀ ct, Spec.KnownType ct → (ct ∈ creds ↔ ct ∈ creds') := by
  have hm := members_alike hd hs hs' h
  unfold supportedCreds
  rw [members_eq hd hs, members_eq hd hs', Res.ok_bind, Res.ok_bind]
  refine ⟨_, _, rfl, rfl, fun ct hct => ?_⟩
  have hcount := count_alike hm hct
  rw [List.mem_filter, List.mem_filter, beq_iff_eq, beq_iff_eq, hcount, hm.length_eq, ← List.count_pos_iff, ← List.count_pos_iff, hcount]

theorem integrity_alike (hc : pr.Correct) {ctx ctx' : GroupContext} {t t' : VTree} {d : Nat} (h1 : Spec.SealedTree pr ctx t d)
    (h2 : Spec.SealedTree pr ctx' t' d) (h : ∀ x, Spec.AlikeNode (nodeAt t x) (nodeAt t' x))
    (hct : ∀ x l, nodeAt t x = some (.leaf l) → Spec.KnownType l.credential.ty) {now : GoTime}
    (hv : verifyIntegrity pr t ctx now = .ok ()) : verifyIntegrity pr t' ctx' now = .ok () := by
  obtain ⟨sd, hsd, s, hs, _, _⟩ := h1.bytes
  obtain ⟨sd', hsd', s', hs', hth, hph⟩ := h2.bytes
  have hd := h1.depth
  have hl : t.length = 2 ^ (d + 1) - 1 := by rw [hs, flat_length]
  have hl' : t'.length = 2 ^ (d + 1) - 1 := by rw [hs', flat_length]
  rw [C29_integrity hc hd hl] at hv
  obtain ⟨_, _, s0, v⟩ := hv
  have hs := v.array
  have hm := members_alike hd hs hs' h
  rw [C29_integrity hc hd hl']
  refine ⟨sd', hsd', s', hs', hth, hph, ?_, ?_, ?_, ?_, ?_⟩
  · intro i l' hi hx
    obtain ⟨l, g1, g2⟩ := (h (2 * i)).symm.leaf hx
    have g3 := v.leaves i l hi g1
    refine ⟨h2.signatures i l' hi hx, fun lt hlt => ?_, fun e he => ?_⟩
    · rcases g2.source with g | ⟨a, b, g, _⟩
      · exact g3.lifetime lt (g ▸ hlt)
      · rw [g] at hlt; cases hlt
    · rw [g2.known.extensions e he]
      exact g3.extensions e (g2.extensions ▸ he)
  · intro l' hl'
    obtain ⟨i, hi, he⟩ := List.getElem_of_mem hl'
    rw [leaves_length] at hi
    obtain ⟨o', _, a1, a2⟩ := getLeaf_at hd hs' hi
    rw [List.getElem?_eq_getElem (by rw [leaves_length]; exact hi), he, Option.some.injEq] at a2
    subst a2
    obtain ⟨l, g1, g2⟩ := (h (2 * i)).symm.leaf a1
    obtain ⟨o, _, b1, b2⟩ := getLeaf_at hd hs hi
    rw [g1] at b1
    have hk := hct _ l g1
    cases o with
    | none => cases b1
    | some l0 =>
      cases b1
      have := v.credentials l (List.mem_of_getElem? b2)
      rw [g2.credential, ← count_alike hm hk, ← hm.length_eq, this]
  · intro i j l m hi hj hne a b
    obtain ⟨l0, g1, g2⟩ := (h (2 * i)).symm.leaf a
    obtain ⟨m0, g3, g4⟩ := (h (2 * j)).symm.leaf b
    rw [g2.signatureKey, g4.signatureKey]
    exact v.signatureKeys i j l0 m0 hi hj hne g1 g3
  · intro x y n m hne a b
    obtain ⟨n0, g1, g2⟩ := (h x).symm.key a
    obtain ⟨m0, g3, g4⟩ := (h y).symm.key b
    rw [g2, g4]
    exact v.encryptionKeys x y n0 m0 hne g1 g3
  · intro x p hx li hli
    obtain ⟨p0, g1, _, g3⟩ := (h x).symm.parent hx
    obtain ⟨below, above, g4, g5⟩ := v.unmerged x p0 g1 li (g3 ▸ hli)
    refine ⟨below, above, g4, fun y hy q hq => ?_⟩
    obtain ⟨q0, k1, _, k2⟩ := (h y).symm.parent hq
    rw [k2]
    exact g5 y hy q0 k1

/-- **C117**: a joiner accepts both of two trees that differ in unknown capabilities, or neither; provided that in both the hashes and the
signatures are in order, which are of the bytes. -/
theorem C117_join (hc : pr.Correct) {ctx ctx' : GroupContext} {t t' : VTree} {d : Nat} (h1 : Spec.SealedTree pr ctx t d)
    (h2 : Spec.SealedTree pr ctx' t' d) (h : ∀ x, Spec.AlikeNode (nodeAt t x) (nodeAt t' x))
    (hct : ∀ x l, nodeAt t x = some (.leaf l) → Spec.KnownType l.credential.ty) (now : GoTime) :
    verifyIntegrity pr t ctx now = .ok () ↔ verifyIntegrity pr t' ctx' now = .ok () := by
  refine ⟨integrity_alike hc h1 h2 h hct, integrity_alike hc h2 h1 (fun x => (h x).symm) fun x l hx => ?_⟩
  obtain ⟨l0, g1, g2⟩ := (h x).symm.leaf hx
  rw [g2.credential]
  exact hct x l0 g1

/-- **C117**: and so for the key package in an Add proposal. -/
theorem C117_keyPackage {k k' : KeyPackage} {ctx : GroupContext} (h : Spec.AlikeLeaf k.leafNode k'.leafNode)
    (h1 : k.version = k'.version) (h2 : k.cipherSuite = k'.cipherSuite) (h3 : k.initKey = k'.initKey)
    (hsig : ∃ tbs, (Spec.Rfc.keyPackageTBS k).bytes = some tbs ∧
      Spec.ValidSig pr k.cipherSuite k.leafNode.signatureKey "KeyPackageTBS" tbs k.signature)
    (hsig' : ∃ tbs, (Spec.Rfc.keyPackageTBS k').bytes = some tbs ∧
      Spec.ValidSig pr k'.cipherSuite k'.leafNode.signatureKey "KeyPackageTBS" tbs k'.signature) :
    k.verify pr ctx = .ok () ↔ k'.verify pr ctx = .ok () := by
  rw [C59_verify, C59_verify]
  have e : (∃ lt, k.leafNode.source = .keyPackage lt) ↔ ∃ lt, k'.leafNode.source = .keyPackage lt := by
    rcases h.source with h | ⟨a, b, h1, h2⟩
    · rw [h]
    · simp [h1, h2]
  rw [e, h.encryptionKey, h1, h2, h3]
  rw [h2] at hsig
  simp only [hsig, hsig', true_and]

/-- The tree of two members in which the second lists these credential types. -/
def toyListed (creds : List UInt16) : VTree :=
  [some (.leaf (toySigned 0 [1] (.keyPackage ⟨1, 2⟩) 0)), none, some (.leaf (toySigned 1 creds (.keyPackage ⟨1, 2⟩) 1))]

theorem sealed_of_integrity (hc : pr.Correct) {ctx : GroupContext} {t : VTree} {d : Nat} (hd : d ≤ 31) (hl : t.length = 2 ^ (d + 1) - 1) {now : GoTime}
    (h : verifyIntegrity pr t ctx now = .ok ()) : Spec.SealedTree pr ctx t d := by
  rw [C29_integrity hc hd hl] at h
  obtain ⟨sd, hsd, s, v⟩ := h
  exact ⟨hd, ⟨sd, hsd, s, v.array, v.treeHash, v.parentHashes⟩, fun i l hi hx => (v.leaves i l hi hx).signature⟩

/-- The hypotheses hold of a tree in which a member lists 0x0A0A, a value that RFC 9420 reserves so that unknown ones are met, before the type basic. -/
example : toyListed [0x0A0A, 1] ≠ toyListed [1] ∧ Spec.SealedTree toyPrims (toyContext (toyListed [0x0A0A, 1])) (toyListed [0x0A0A, 1]) 1 ∧
    Spec.SealedTree toyPrims (toyContext (toyListed [1])) (toyListed [1]) 1 ∧
    (∀ x, Spec.AlikeNode (nodeAt (toyListed [0x0A0A, 1]) x) (nodeAt (toyListed [1]) x)) ∧
    ∀ x l, nodeAt (toyListed [0x0A0A, 1]) x = some (.leaf l) → Spec.KnownType l.credential.ty := by
  refine ⟨by decide +kernel, sealed_of_integrity toyPrims_correct (now := toyNow) (by decide) (by decide +kernel) (by decide +kernel),
    sealed_of_integrity toyPrims_correct (now := toyNow) (by decide) (by decide +kernel) (by decide +kernel), fun x => ?_, fun x l h => ?_⟩
  · match x with
    | 0 => exact ⟨rfl, rfl, rfl, ⟨fun _ _ => rfl, fun _ _ => Iff.rfl⟩, .inl rfl, rfl⟩
    | 1 => trivial
    | 2 =>
      refine ⟨by decide +kernel, by decide +kernel, by decide +kernel, ⟨?_, ?_⟩, .inl (by decide +kernel), by decide +kernel⟩
      · rintro ct (rfl | rfl) <;> decide +kernel
      · intro e he
        have : (toySigned 1 [0x0A0A, 1] (.keyPackage ⟨1, 2⟩) 1).extensions = [] := by decide +kernel
        rw [this] at he
        cases he
    | x + 3 => trivial
  · match x with
    | 0 => cases h; exact .inl (by decide +kernel)
    | 1 => cases h
    | 2 => cases h; exact .inl (by decide +kernel)
    | x + 3 => cases h

/-- And both are accepted. -/
example : verifyIntegrity toyPrims (toyListed [0x0A0A, 1]) (toyContext (toyListed [0x0A0A, 1])) toyNow = .ok () ∧
    verifyIntegrity toyPrims (toyListed [1]) (toyContext (toyListed [1])) toyNow = .ok () := by decide +kernel

end Mls
