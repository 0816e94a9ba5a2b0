import Mathlib.Data.List.Nodup
import Verif.Props.Library
import Verif.Props.Sending
/-
C118: groups whose members all use this library work, and no call fails, as long as everything fits into the vectors of RFC 9420.
-/
namespace Mls

open Spec (Ratchet nodeAt)
open Spec.Rfc (Sized Item)

variable {pr : Prims}

/-! ### Specification -/

/-- What the cryptography adds: the keys that are generated have at most `z` bytes, one can sign with them and encrypt to them, signatures and
KEM outputs have at most `z` bytes, and a ciphertext has at most `z` bytes more than the plaintext. For the suites of RFC 9420 `z` is 256 or
less: the largest is the signature of ECDSA with P-521. -/
structure Spec.Bounded (pr : Prims) (sd : SuiteDesc) (z : Nat) : Prop where
  encryptionKeys : ∀ r, (pr.kemKeyPair sd.kem r).1.length ≤ z
  signatureKeys : ∀ r, (pr.sigKeyPair sd.sig r).1.length ≤ z
  signs : ∀ r m rand, ∃ x, pr.sign sd.sig (pr.sigKeyPair sd.sig r).2 m rand = some x ∧ x.length ≤ z
  seals : ∀ k n p a c, pr.aeadSeal sd.aead k n p a = some c → c.length ≤ p.length + z
  encrypts : ∀ r info p rand, p.length < 2 ^ 16 → ∃ k c, pr.hpkeSeal sd (pr.kemKeyPair sd.kem r).1 info p rand = some (k, c) ∧
    k.length ≤ z ∧ c.length ≤ p.length + z

/-- The size of the identity in a basic credential. -/
def Spec.nameSize (c : Credential) : Nat := match c with
  | .basic name => name.length
  | _ => 0

/-- More than the bytes that a member takes in the messages of the group. -/
def Spec.weight (z : Nat) (l : LeafNode) : Nat := Spec.nameSize l.credential + 8 * z + 1024

/-! ### Sizes -/

theorem Spec.Rfc.Sized.mono {i : Item} {n m : Nat} (h : Sized i n) (hm : n ≤ m) : Sized i m := by
  obtain ⟨b, h1, h2⟩ := h
  exact ⟨b, h1, by omega⟩

theorem sized_vector {l : List Item} {n : Nat} (h : Sized (.struct l) n) (hn : n < 2 ^ 30) : Sized (.vector l) (n + 4) := by
  obtain ⟨b, h1, h2⟩ := h
  obtain ⟨x, h3, h4⟩ := sized_opaque (b := b) (by omega)
  rw [struct_bytes] at h1
  rw [opaque_bytes] at h3
  refine ⟨x, ?_, by omega⟩
  rw [Item.bytes, h1]
  exact h3

theorem sized_map {α : Type} {f : α → Item} {g : α → Nat} {l : List α} (h : ∀ a ∈ l, Sized (f a) (g a)) :
    Sized (.struct (l.map f)) (l.map g).sum := by
  induction l with
  | nil => exact sized_nil
  | cons a l ih =>
    rw [List.map_cons, List.map_cons, List.sum_cons]
    exact sized_cons (h a List.mem_cons_self) (ih fun b hb => h b (List.mem_cons_of_mem _ hb))

theorem sized_append {l l' : List Item} {n m : Nat} (h : Sized (.struct l) n) (h' : Sized (.struct l') m) : Sized (.struct (l ++ l')) (n + m) := by
  induction l generalizing n with
  | nil => exact h'.mono (by omega)
  | cons i l ih =>
    obtain ⟨b, hb, hl⟩ := h
    obtain ⟨x, y, h1, h2, rfl⟩ := struct_cons_bytes hb
    rw [List.length_append] at hl
    exact (sized_cons ⟨x, h1, Nat.le_refl _⟩ (ih ⟨y, h2, Nat.le_refl _⟩)).mono (by omega)

theorem sized_u16 (v : UInt16) : Sized (Spec.Rfc.uint16 v.toNat) 2 := sized_num v.toNat_lt
theorem sized_u32 (v : UInt32) : Sized (Spec.Rfc.uint32 v.toNat) 4 := sized_num v.toNat_lt
theorem sized_u64 (v : UInt64) : Sized (Spec.Rfc.uint64 v.toNat) 8 := sized_num v.toNat_lt

theorem sized_u16s (l : List UInt16) (h : l.length ≤ 8) : Sized (.vector (l.map fun v => Spec.Rfc.uint16 v.toNat)) (2 * l.length + 4) := by
  have hs : (l.map fun _ => 2).sum = 2 * l.length := by
    clear h
    induction l with
    | nil => rfl
    | cons a l ih => rw [List.map_cons, List.sum_cons, ih, List.length_cons]; omega
  have := sized_map (f := fun v : UInt16 => Spec.Rfc.uint16 v.toNat) (g := fun _ => 2) (l := l) fun a _ => sized_u16 a
  rw [hs] at this
  exact sized_vector this (by omega)

theorem hash_size_le (a : HashAlg) : a.size ≤ 64 := by cases a <;> decide

/-! ### What is generated -/

/-- What the size of a generated key package depends on. -/
structure GeneratedShape (pr : Prims) (cs : UInt16) (sd : SuiteDesc) (z : Nat) (k : KeyPackage) : Prop where
  init : ∃ r, k.initKey = (pr.kemKeyPair sd.kem r).1
  cipherSuite : k.cipherSuite = cs
  signature : k.signature.length ≤ z
  extensions : k.extensions = []
  encryptionKey : k.leafNode.encryptionKey.length ≤ z
  signatureKey : k.leafNode.signatureKey.length ≤ z
  leafSignature : k.leafNode.signature.length ≤ z
  credential : ∃ name, k.leafNode.credential = .basic name
  capabilities : k.leafNode.capabilities = { versions := [1], cipherSuites := [cs], extensions := [2], proposals := [1, 2, 3], credentials := [1] }
  source : ∃ lt, k.leafNode.source = .keyPackage lt
  leafExtensions : k.leafNode.extensions = []

theorem signWithLabel_size {cs : UInt16} {sd : SuiteDesc} {z : Nat} (hd : suite cs = .ok sd) (hb : Spec.Bounded pr sd z)
    {r label content rand sig : Bytes} (h : signWithLabel pr cs (pr.sigKeyPair sd.sig r).2 label content rand = .ok sig) : sig.length ≤ z := by
  unfold signWithLabel at h
  simp only [Res.bind_ok_iff, orErr_ok_iff] at h
  obtain ⟨m, _, d, h2, h3⟩ := h
  rw [hd] at h2
  cases h2
  obtain ⟨x, h4, h5⟩ := hb.signs r m rand
  rw [h4] at h3
  cases h3
  exact h5

theorem Spec.Generated.shaped {cs : UInt16} {sd : SuiteDesc} {z : Nat} (hd : suite cs = .ok sd) (hb : Spec.Bounded pr sd z) {kp : KeyPairPackage}
    (h : Spec.Generated pr cs kp) : GeneratedShape pr cs sd z kp.pub := by
  obtain ⟨name, r, h⟩ := h
  obtain ⟨d, leaf, k, hd', h1, h2, rfl⟩ := generate_split h
  rw [hd] at hd'
  cases hd'
  obtain ⟨_, _, _, h3, rfl⟩ := leafSign_split h1
  obtain ⟨_, _, _, h4, rfl⟩ := pkgSign_split h2
  exact ⟨⟨_, rfl⟩, rfl, signWithLabel_size hd hb h4, rfl, hb.encryptionKeys _, hb.signatureKeys _, signWithLabel_size hd hb h3, ⟨_, rfl⟩, rfl,
    ⟨_, rfl⟩, rfl⟩

theorem GeneratedShape.fields {cs : UInt16} {sd : SuiteDesc} {z : Nat} {k : KeyPackage} (h : GeneratedShape pr cs sd z k)
    (hs : Spec.nameSize k.leafNode.credential + z < 2 ^ 30) :
    Sized (.struct (Spec.Rfc.leafNodeFields k.leafNode)) (Spec.nameSize k.leafNode.credential + 2 * z + 69) := by
  obtain ⟨name, hn⟩ := h.credential
  obtain ⟨lt, hlt⟩ := h.source
  have h1 := h.encryptionKey
  have h2 := h.signatureKey
  unfold Spec.Rfc.leafNodeFields
  rw [hn] at hs ⊢
  have hs : name.length + z < 2 ^ 30 := hs
  rw [hlt, h.leafExtensions, h.capabilities]
  have := sized_cons (sized_opaque (b := k.leafNode.encryptionKey) (by omega)) <| sized_cons (sized_opaque (b := k.leafNode.signatureKey) (by omega)) <|
    sized_cons (i := Spec.Rfc.credential (.basic name)) (sized_cons (sized_num (k := 2) (v := 1) (by decide)) <|
      sized_cons (sized_opaque (b := name) (by omega)) sized_nil) <|
    sized_cons (i := Spec.Rfc.capabilities { versions := [1], cipherSuites := [cs], extensions := [2], proposals := [1, 2, 3], credentials := [1] })
      (sized_cons (sized_u16s [1] (by decide)) <| sized_cons (sized_u16s [cs] (by simp)) <| sized_cons (sized_u16s [2] (by decide)) <|
        sized_cons (sized_u16s [1, 2, 3] (by decide)) <| sized_cons (sized_u16s [1] (by decide)) sized_nil) <|
    sized_cons (sized_num (k := 1) (v := 1) (by decide)) <| sized_cons (i := Spec.Rfc.lifetime lt)
      (sized_cons (sized_u64 lt.notBefore) <| sized_cons (sized_u64 lt.notAfter) sized_nil) <|
    sized_cons (sized_vector (l := ([] : List Extension).map Spec.Rfc.extension) sized_nil (by decide)) sized_nil
  refine Spec.Rfc.Sized.mono this ?_
  simp only [List.length_cons, List.length_nil]
  show _ ≤ name.length + _ + _
  omega

theorem GeneratedShape.leaf {cs : UInt16} {sd : SuiteDesc} {z : Nat} {k : KeyPackage} (h : GeneratedShape pr cs sd z k)
    (hs : Spec.nameSize k.leafNode.credential + z < 2 ^ 30) :
    Sized (Spec.Rfc.leafNode k.leafNode) (Spec.nameSize k.leafNode.credential + 3 * z + 73) := by
  have := h.leafSignature
  exact (sized_append (h.fields hs) (sized_cons (sized_opaque (b := k.leafNode.signature) (by omega)) sized_nil)).mono (by omega)

theorem GeneratedShape.packageFields {cs : UInt16} {sd : SuiteDesc} {z : Nat} (hb : Spec.Bounded pr sd z) {k : KeyPackage} (h : GeneratedShape pr cs sd z k)
    (hs : Spec.nameSize k.leafNode.credential + z < 2 ^ 30) :
    Sized (.struct (Spec.Rfc.keyPackageFields k)) (Spec.nameSize k.leafNode.credential + 4 * z + 85) := by
  obtain ⟨r, hr⟩ := h.init
  have h1 := hb.encryptionKeys r
  rw [← hr] at h1
  have h2 := h.extensions
  unfold Spec.Rfc.keyPackageFields
  rw [h2]
  exact (sized_cons (sized_u16 k.version) <| sized_cons (sized_u16 k.cipherSuite) <| sized_cons (sized_opaque (b := k.initKey) (by omega)) <|
    sized_cons (h.leaf hs) <| sized_cons (i := Spec.Rfc.extensions [])
      (sized_vector (l := ([] : List Extension).map Spec.Rfc.extension) sized_nil (by decide)) sized_nil).mono (by omega)

theorem GeneratedShape.package {cs : UInt16} {sd : SuiteDesc} {z : Nat} (hb : Spec.Bounded pr sd z) {k : KeyPackage} (h : GeneratedShape pr cs sd z k)
    (hs : Spec.nameSize k.leafNode.credential + z < 2 ^ 30) :
    Sized (Spec.Rfc.keyPackage k) (Spec.nameSize k.leafNode.credential + 5 * z + 89) := by
  have := h.signature
  exact (sized_append (h.packageFields hb hs) (sized_cons (sized_opaque (b := k.signature) (by omega)) sized_nil)).mono (by omega)

/-! ### The tree -/

theorem withMembers_eq {d : Nat} (s : Ratchet ParentNode d) (kps : List KeyPackage) :
    (kps.map fun k => k.leafNode).foldl (fun t n => some (Ratchet.addOpt t n)) (some ⟨d, s⟩) = some (Spec.withMembers s kps) := by
  have key : ∀ (kps : List KeyPackage) (t : Ratchet.Any ParentNode),
      (kps.map fun k => k.leafNode).foldl (fun t n => some (Ratchet.addOpt t n)) (some t) = some (kps.foldl (fun t k => t.2.add k.leafNode) t) := by
    intro kps
    induction kps with
    | nil => intro t; rfl
    | cons k kps ih => intro t; exact ih _
  exact key kps _

/-- More than half of the leaves are in use. -/
def Dense (a : Ratchet.Any ParentNode) : Prop := 2 ^ a.1 < 2 * (a.2.leaves.filterMap id).length

theorem dense_add {d : Nat} {s : Ratchet ParentNode d} (h : Dense ⟨d, s⟩) (n : LeafNode) : Dense (s.add n) := by
  have hc := (members_add s n).length_eq
  rw [List.length_cons] at hc
  unfold Dense at h ⊢
  dsimp only at h
  have hl := leaves_length (s.add n).2
  rw [← hl, hc, leaves_add]
  cases hf : s.leaves.findIdx? (·.isNone) with
  | some i =>
    simp only [List.length_set]
    rw [leaves_length]
    omega
  | none =>
    have hall : (s.leaves.filterMap id).length = 2 ^ d := by
      rw [List.findIdx?_eq_none_iff] at hf
      rw [← leaves_length s]
      have : ∀ l : List (Option LeafNode), (∀ x ∈ l, x.isNone = false) → (l.filterMap id).length = l.length := by
        intro l
        induction l with
        | nil => intro _; rfl
        | cons a l ih =>
          intro hx
          have ha := hx a List.mem_cons_self
          cases a with
          | none => cases ha
          | some b =>
            show (List.filterMap id l).length + 1 = _
            rw [ih fun x hx' => hx x (List.mem_cons_of_mem _ hx'), List.length_cons]
      exact this _ (by simpa using hf)
    have := Nat.two_pow_pos d
    simp only [List.length_append, List.length_cons, List.length_replicate, leaves_length]
    omega

theorem dense_adds (ns : List LeafNode) {a b : Ratchet.Any ParentNode} (h : Dense a)
    (hf : ns.foldl (fun t n => some (Ratchet.addOpt t n)) (some a) = some b) : Dense b := by
  induction ns generalizing a with
  | nil => cases hf; exact h
  | cons n ns ih =>
    rw [List.foldl_cons] at hf
    exact ih (dense_add h n) hf

/-- What the sizes of a group in use depend on. -/
structure LibSize (pr : Prims) (st : GroupState) : Prop where
  dense : ∃ d s, st.vtree = Ratchet.flat (d := d) .leaf .parent s ∧ Dense ⟨d, s⟩
  treeHash : st.group.groupContext.treeHash.length ≤ 64
  transcript : st.group.groupContext.confirmedTranscriptHash.length ≤ 64

theorem treeHash_size (hc : pr.Correct) {cs : UInt16} {sd : SuiteDesc} (hsd : suite cs = .ok sd) {v : VTree} {d : Nat} (hd : d ≤ 31)
    {s : Ratchet ParentNode d} (hv : v = s.flat .leaf .parent) {th : Bytes} (h : computeRootTreeHash pr cs v = .ok th) : th.length ≤ 64 := by
  rw [hv, C102_tree_hash hc hsd hd] at h
  have : ∃ m, th = pr.hash sd.hash m := by
    cases s with
    | leaf n =>
      rw [Spec.Rfc.treeHash, Option.map_eq_some_iff] at h
      obtain ⟨m, _, rfl⟩ := h
      exact ⟨_, rfl⟩
    | node p l r =>
      rw [Spec.Rfc.treeHash] at h
      simp only [Option.bind_eq_bind, Option.bind_eq_some_iff, Option.pure_def, Option.some.injEq] at h
      obtain ⟨_, _, _, _, _, _, rfl⟩ := h
      exact ⟨_, rfl⟩
  obtain ⟨m, rfl⟩ := this
  rw [hc.hash_length]
  exact hash_size_le _

theorem InviteRun.size (hc : pr.Correct) {st : GroupState} (hi : GroupInv pr st) (hl : LibSize pr st) {kps : List KeyPackage} {r : WelcomeRand}
    {w : Welcome} {raw : Bytes} {hp : Heap} {t : RTree} {sd : SuiteDesc} {th psk sig cth js es tag rawTree isig : Bytes} {ctx : GroupContext}
    (run : InviteRun pr st kps r w raw hp t sd th psk sig cth js es tag rawTree isig ctx) {a : GroupState}
    (ha : AfterInvite pr a (derefTree hp t) ctx es tag) : LibSize pr a := by
  obtain ⟨d0, s0, d, s, hd0, hd, hs0, hs, hadd⟩ := run.ratchet hi
  obtain ⟨d1, s1, h1, h2⟩ := hl.dense
  rw [h1] at hs0
  obtain rfl : d1 = d0 := by
    have := congrArg List.length hs0
    rw [flat_length, flat_length] at this
    have h3 := Nat.two_pow_pos (d1 + 1)
    have h4 := Nat.two_pow_pos (d0 + 1)
    have := Nat.pow_right_injective (Nat.le_refl 2) (show 2 ^ (d1 + 1) = 2 ^ (d0 + 1) by omega)
    omega
  obtain rfl := flat_inj _ _ hs0
  refine ⟨⟨d, s, by rw [ha.tree, hs], dense_adds _ h2 hadd⟩, ?_, ?_⟩
  · rw [ha.context, run.context]
    exact treeHash_size hc run.suite hd hs run.hash
  · rw [ha.context, run.context]
    obtain ⟨_, _, rfl⟩ := ((C102_transcript run.suite cth).1 _ _ _ _).1 run.transcript
    rw [hc.hash_length]
    exact hash_size_le _

theorem Spec.Library.size (hc : pr.Correct) {cs : UInt16} {st : GroupState} (h : Spec.Library pr cs st) : LibSize pr st := by
  induction h with
  | @create id kp rand st hg h =>
    unfold createGroup at h
    simp only [Res.bind_ok_iff] at h
    obtain ⟨⟨hp, t⟩, h1, pt, h2, th, hth, d, h3, _, _, _, _, _, _, _, _, h⟩ := h
    have e : treeAdd [] [none] kp.pub.leafNode = .ok ([], [some (.leaf kp.pub.leafNode)]) := rfl
    rw [e] at h1
    cases h1
    cases h
    refine ⟨⟨0, .leaf (some kp.pub.leafNode), rfl, (by decide : (2 : Nat) ^ 0 < 2 * 1)⟩, ?_, ?_⟩
    · exact treeHash_size hc h3 (d := 0) (by decide) (s := .leaf (some kp.pub.leafNode)) rfl hth
    · show (List.replicate d.hash.size 0).length ≤ 64
      rw [List.length_replicate]
      exact hash_size_le _
  | @invite st st1 kps r o hl h ih =>
    have := (C51_partial pr st kps r).2.2 (hl.inv hc).flat
    rw [h] at this
    have : st1 = st := this
    rw [this]
    exact ih
  | @join st st1 j ks r w raw kp now hl hg h hk hcol hj ih =>
    have hv := hl.inv hc
    obtain ⟨hp, t, sd, th, psk, sig, cth, js, es, tag, rawTree, isig, ctx, run, -⟩ := createWelcome_run h
    obtain ⟨sd', hf⟩ := (hg kp hk).facts hc
    have hsu := run.suite
    rw [hv.suite, hf.suite] at hsu
    cases hsu
    have hcol' : ¬ RefCollision pr (ks.map fun k => k.pub) kp.pub := by
      rintro ⟨k', hk', hne, ref, h1, h2⟩
      obtain ⟨k, hk2, rfl⟩ := List.mem_map.1 hk'
      exact hcol k hk2 hne (h1.trans h2.symm)
    exact run.size hc (hv.reach.inv hc) ih (run.entered hc (hv.reach.inv hc) hv.snug hf.opens hcol' hj).1
  | @follow st st1 st2 st2' ks r w raw now d hl hl2 hv hg h ha ih ih2 =>
    obtain ⟨hp, t, sd, th, psk, sig, cth, js, es, tag, rawTree, isig, ctx, run, -⟩ := createWelcome_run h
    have hi := (hl.inv hc).reach.inv hc
    exact run.size hc hi ih (run.member hc hi ((hl2.inv hc).reach.inv hc) hv (LibInv.version_of hc hg) ha)
  | @read st st' raw data now hl h ih =>
    obtain ⟨a, e, _, ⟨_, _, he, _⟩ | ⟨_, _, he, _⟩ | ⟨_, _, _, he, _⟩⟩ := accepted_cases h
    · cases he
    · cases he
    · rw [he]; exact ih
  | @refuse st st' raw now hl h ih =>
    rw [(C43_partial pr st st' raw now h).2.2.2 (hl.inv hc).flat]
    exact ih

/-! ### The pieces of an invitation -/

theorem le_sum {α : Type} {f : α → Nat} {l : List α} {a : α} (h : a ∈ l) : f a ≤ (l.map f).sum := by
  induction l with
  | nil => cases h
  | cons b l ih =>
    rw [List.map_cons, List.sum_cons]
    rcases List.mem_cons.1 h with rfl | h
    · omega
    · have := ih h
      omega

theorem length_le_sum {α : Type} {f : α → Nat} {l : List α} {c : Nat} (h : ∀ a ∈ l, c ≤ f a) : c * l.length ≤ (l.map f).sum := by
  induction l with
  | nil => exact Nat.le_refl _
  | cons a l ih =>
    rw [List.map_cons, List.sum_cons, List.length_cons, Nat.mul_succ]
    have := h a List.mem_cons_self
    have := ih fun b hb => h b (List.mem_cons_of_mem _ hb)
    omega

/-- A tree without parent nodes, all of whose leaves can be encoded, has a tree hash. -/
theorem treeHash_some (hc : pr.Correct) {a : HashAlg} {d : Nat} {s : Ratchet ParentNode d} (hun : s.Unparented)
    (hl : ∀ l ∈ s.leaves.filterMap id, ∃ n, Sized (Spec.Rfc.leafNode l) n) {i : Nat} (hi : i + 2 ^ d ≤ 2 ^ 32) :
    ∃ m, Spec.Rfc.treeHash (pr.hash a) i s = some (pr.hash a m) := by
  induction s generalizing i with
  | leaf n =>
    have hi4 : i < 256 ^ 4 := by
      have : (2 : Nat) ^ 0 = 1 := rfl
      have : (256 : Nat) ^ 4 = 2 ^ 32 := by decide
      omega
    have : ∃ k, Sized (Spec.Rfc.leafHashInput i n) k := by
      have ho : ∃ k, Sized (Spec.Rfc.optional Spec.Rfc.leafNode n) k := by
        cases n with
        | none => exact ⟨_, sized_cons (sized_num (k := 1) (v := 0) (by decide)) sized_nil⟩
        | some l =>
          obtain ⟨k, hk⟩ := hl l (List.mem_filterMap.2 ⟨some l, List.mem_singleton.2 rfl, rfl⟩)
          exact ⟨_, sized_cons (sized_num (k := 1) (v := 1) (by decide)) (sized_cons hk sized_nil)⟩
      obtain ⟨k, hk⟩ := ho
      exact ⟨_, sized_cons (sized_num (k := 1) (v := 1) (by decide)) (sized_cons (sized_cons (sized_num hi4) (sized_cons hk sized_nil)) sized_nil)⟩
    obtain ⟨k, b, hb, _⟩ := this
    exact ⟨b, by rw [Spec.Rfc.treeHash, hb]; rfl⟩
  | @node d p l r ihl ihr =>
    obtain ⟨rfl, h1, h2⟩ := hun
    have hp : 2 ^ (d + 1) = 2 ^ d + 2 ^ d := by rw [Nat.pow_succ]; omega
    have h0 := Nat.two_pow_pos d
    simp only [Ratchet.leaves, List.filterMap_append, List.mem_append] at hl
    obtain ⟨ml, hml⟩ := ihl h1 (fun x hx => hl x (.inl hx)) (i := i) (by omega)
    obtain ⟨mr, hmr⟩ := ihr h2 (fun x hx => hl x (.inr hx)) (i := i + 2 ^ d) (by omega)
    have hsz := hash_size_lt a
    obtain ⟨b, hb, _⟩ := sized_cons (sized_num (k := 1) (v := 2) (by decide)) <| sized_cons
      (sized_cons (i := Spec.Rfc.optional Spec.Rfc.parentNode none) (sized_cons (sized_num (k := 1) (v := 0) (by decide)) sized_nil) <|
        sized_cons (sized_opaque (b := pr.hash a ml) (by rw [hc.hash_length]; exact hsz)) <|
        sized_cons (sized_opaque (b := pr.hash a mr) (by rw [hc.hash_length]; exact hsz)) sized_nil) sized_nil
    refine ⟨b, ?_⟩
    rw [Spec.Rfc.treeHash, hml, hmr]
    simp only [Option.bind_eq_bind, Option.bind_some]
    unfold Spec.Rfc.parentHashInput Spec.Rfc.uint8
    rw [hb]
    rfl

/-- The size of the tree that is sent. -/
theorem tree_sized {v : VTree} (hnp : ∀ p, some (Node.parent p) ∉ v) {g : LeafNode → Nat}
    (hl : ∀ l ∈ Spec.members v, Sized (Spec.Rfc.leafNode l) (g l)) :
    Sized (.struct ((Spec.trimmed v).map (Spec.Rfc.optional Spec.Rfc.node))) (v.length + ((Spec.members v).map fun l => g l + 1).sum) := by
  induction v with
  | nil => exact sized_nil
  | cons o v ih =>
    have hstep : ∀ k, Sized (Spec.Rfc.optional Spec.Rfc.node o) (k + 1) →
        ((Spec.members (o :: v)).map fun l => g l + 1).sum = k + ((Spec.members v).map fun l => g l + 1).sum →
        (∀ l ∈ Spec.members v, l ∈ Spec.members (o :: v)) →
        Sized (.struct ((Spec.trimmed (o :: v)).map (Spec.Rfc.optional Spec.Rfc.node)))
          ((o :: v).length + ((Spec.members (o :: v)).map fun l => g l + 1).sum) := by
      intro k h1 h2 h3
      have hi := ih (fun p hp => hnp p (List.mem_cons_of_mem _ hp)) (fun l hx => hl l (h3 l hx))
      have h4 := sized_cons h1 hi
      have hc : Spec.trimmed (o :: v) = [] ∨ Spec.trimmed (o :: v) = o :: Spec.trimmed v := by
        rw [Spec.trimmed.eq_def]
        dsimp only
        split
        · exact .inl rfl
        · exact .inr rfl
      rw [List.length_cons, h2]
      rcases hc with hc | hc
      · rw [hc]
        exact sized_nil.mono (by omega)
      · rw [hc]
        exact h4.mono (by omega)
    cases o with
    | none => exact hstep 0 (Spec.Rfc.Sized.mono (sized_cons (sized_num (k := 1) (v := 0) (by decide)) sized_nil) (by omega)) (by rw [Nat.zero_add]; rfl) (fun l hx => hx)
    | some n =>
      cases n with
      | parent p => exact absurd List.mem_cons_self (hnp p)
      | leaf l =>
        refine hstep (g l + 1) ?_ ?_ ?_
        · refine Spec.Rfc.Sized.mono (sized_cons (i := Spec.Rfc.uint8 1) (sized_num (k := 1) (v := 1) (by decide)) <| sized_cons
            (sized_cons (sized_num (k := 1) (v := 1) (by decide)) <| sized_cons (hl l List.mem_cons_self) sized_nil) sized_nil) (by omega)
        · rfl
        · exact fun x hx => List.mem_cons_of_mem _ hx

theorem sign_some {sd : SuiteDesc} {z : Nat} (hb : Spec.Bounded pr sd z) {key : Bytes} (hk : ∃ r, key = (pr.sigKeyPair sd.sig r).2) {label : String}
    (hl : (Spec.ascii ("MLS 1.0 " ++ label)).length < 2 ^ 30) {tbs : Item} {n : Nat} (ht : Sized tbs n) (hn : n < 2 ^ 30) (rand : Bytes) :
    ∃ x, Spec.Rfc.sign pr sd key label tbs rand = some x ∧ x.length ≤ z := by
  obtain ⟨r, rfl⟩ := hk
  obtain ⟨t, h1, h2⟩ := ht
  obtain ⟨m, h3, _⟩ := sized_cons (sized_opaque hl) <| sized_cons (sized_opaque (b := t) (by omega)) sized_nil
  obtain ⟨x, h4, h5⟩ := hb.signs r m rand
  refine ⟨x, ?_, h5⟩
  unfold Spec.Rfc.sign
  exact Option.bind_eq_some_iff.2 ⟨t, h1, Option.bind_eq_some_iff.2 ⟨m, h3, h4⟩⟩

theorem expand_some (hc : pr.Correct) {sd : SuiteDesc} {label : String} (hl : (Spec.ascii ("MLS 1.0 " ++ label)).length < 2 ^ 30) {context : Bytes}
    (hx : context.length < 2 ^ 30) (secret : Bytes) :
    ∃ x, Spec.Rfc.expandWithLabel pr sd secret label context sd.kdf.size = some x ∧ x.length ≤ 64 := by
  have hsz := hash_size_le sd.kdf
  obtain ⟨b, h1, _⟩ := sized_cons (sized_num (k := 2) (v := sd.kdf.size) (by omega)) <| sized_cons (sized_opaque hl) <|
    sized_cons (sized_opaque hx) sized_nil
  refine ⟨pr.expand sd.kdf secret b sd.kdf.size, ?_, ?_⟩
  · unfold Spec.Rfc.expandWithLabel
    rw [Option.map_eq_some_iff]
    exact ⟨b, h1, rfl⟩
  · rw [hc.expand_length _ _ _ _ (expandable_secret _)]
    exact hsz

theorem context_sized {ctx : GroupContext} (hx : ctx.extensions = []) (hg : ctx.groupID.length < 2 ^ 30) (ht : ctx.treeHash.length ≤ 64)
    (hc : ctx.confirmedTranscriptHash.length ≤ 64) : Sized (Spec.Rfc.groupContext ctx) (ctx.groupID.length + 156) := by
  unfold Spec.Rfc.groupContext
  rw [hx]
  exact (sized_cons (sized_u16 ctx.version) <| sized_cons (sized_u16 ctx.cipherSuite) <| sized_cons (sized_opaque hg) <|
    sized_cons (sized_u64 ctx.epoch) <| sized_cons (sized_opaque (b := ctx.treeHash) (by omega)) <|
    sized_cons (sized_opaque (b := ctx.confirmedTranscriptHash) (by omega)) <| sized_cons (i := Spec.Rfc.extensions [])
      (sized_vector (l := ([] : List Extension).map Spec.Rfc.extension) sized_nil (by decide)) sized_nil).mono (by omega)

/-- What can be encoded can be encrypted and sent. -/
theorem protect_some (hc : pr.Correct) {sd : SuiteDesc} {z : Nat} (hb : Spec.Bounded pr sd z) {ctx : GroupContext} {epochSecret : Bytes} {depth : Nat}
    {leaf : UInt32} {guard : Bytes4} {ty : ContentType} {c : PrivateMessageContent} {n : Nat}
    (hp : Sized (Spec.Rfc.privateMessageContent c []) n) (hg : ctx.groupID.length < 2 ^ 30) (hn : n + z + 12 < 2 ^ 30) :
    ∃ raw, Spec.Rfc.protect pr sd ctx epochSecret depth leaf guard ty c = some raw := by
  obtain ⟨pt, hpt, hptl⟩ := hp
  have hty : Sized (Spec.Rfc.contentType ty) 1 := by cases ty <;> exact sized_num (by decide)
  obtain ⟨aad, haad, _⟩ := sized_cons (sized_opaque hg) <| sized_cons (sized_u64 ctx.epoch) <| sized_cons
    hty <| sized_cons (sized_opaque (b := []) (by decide)) sized_nil
  obtain ⟨saad, hsaad, _⟩ := sized_cons (sized_opaque hg) <| sized_cons (sized_u64 ctx.epoch) <| sized_cons hty sized_nil
  obtain ⟨sb, hsb, hsbl⟩ := sized_cons (sized_u32 leaf) <| sized_cons (sized_num (k := 4) (v := 0) (by decide)) <|
    sized_cons (i := .fixed [guard.b0, guard.b1, guard.b2, guard.b3]) ⟨_, fixed_bytes _, Nat.le_refl 4⟩ sized_nil
  obtain ⟨ct, hct⟩ := hc.aead_seal sd.aead (Spec.messageKey pr sd epochSecret depth leaf.toNat ty 0)
    (Spec.messageNonce pr sd epochSecret depth leaf.toNat ty 0 [guard.b0, guard.b1, guard.b2, guard.b3]) pt aad
    (hc.expand_length _ _ _ _ (expandable_key _ _)) (by
      unfold Spec.messageNonce Spec.mask
      have : ∀ a b, (Spec.deriveTreeSecret pr sd a "nonce" b sd.aead.nonceSize).length = 12 :=
        fun a b => (hc.expand_length _ _ _ _ (expandable_nonce _ _)).trans (nonceSize_eq _)
      simp [this]) (by omega)
  have hctl := hb.seals _ _ _ _ _ hct
  obtain ⟨esd, hesd⟩ := hc.aead_seal sd.aead (Spec.senderDataKey pr sd epochSecret ct) (Spec.senderDataNonce pr sd epochSecret ct)
    sb saad (hc.expand_length _ _ _ _ (expandable_key _ _)) ((hc.expand_length _ _ _ _ (expandable_nonce _ _)).trans (nonceSize_eq _)) (by omega)
  have hesdl := hb.seals _ _ _ _ _ hesd
  obtain ⟨raw, hraw, _⟩ := sized_cons (sized_num (k := 2) (v := 1) (by decide)) <| sized_cons (sized_num (k := 2) (v := 2) (by decide)) <| sized_cons
    (sized_cons (sized_opaque hg) <| sized_cons (sized_u64 ctx.epoch) <| sized_cons hty <| sized_cons (sized_opaque (b := []) (by decide)) <|
      sized_cons (sized_opaque (b := esd) (by omega)) <| sized_cons (sized_opaque (b := ct) (by omega)) sized_nil) sized_nil
  refine ⟨raw, ?_⟩
  unfold Spec.Rfc.protect
  exact Option.bind_eq_some_iff.2 ⟨pt, hpt, Option.bind_eq_some_iff.2 ⟨aad, haad, Option.bind_eq_some_iff.2 ⟨ct, hct,
    Option.bind_eq_some_iff.2 ⟨saad, hsaad, Option.bind_eq_some_iff.2 ⟨sb, hsb, Option.bind_eq_some_iff.2 ⟨esd, hesd, hraw⟩⟩⟩⟩⟩⟩

theorem sum_slack {α : Type} {f g : α → Nat} {l : List α} {c : Nat} (h : ∀ a ∈ l, f a + c ≤ g a) : (l.map f).sum + c * l.length ≤ (l.map g).sum := by
  induction l with
  | nil => exact Nat.le_refl _
  | cons a l ih =>
    rw [List.map_cons, List.sum_cons, List.map_cons, List.sum_cons, List.length_cons, Nat.mul_succ]
    have := h a List.mem_cons_self
    have := ih fun b hb => h b (List.mem_cons_of_mem _ hb)
    omega

theorem weight_slack (z : Nat) (l : LeafNode) : Spec.nameSize l.credential + 3 * z + 73 + 1 + (5 * z + 950) ≤ Spec.weight z l := by
  unfold Spec.weight
  omega

theorem secretsFor_some (hc : pr.Correct) {cs : UInt16} {sd : SuiteDesc} {z : Nat} (hsd : suite cs = .ok sd) (hb : Spec.Bounded pr sd z)
    {context secrets : Bytes} (hs : secrets.length ≤ 80) {rand : Nat → Bytes} {kps : List KeyPackage}
    (hk : ∀ k ∈ kps, GeneratedShape pr cs sd z k) (hw : ∀ k ∈ kps, Spec.weight z k.leafNode < 2 ^ 30) (i : Nat) :
    ∃ l, Spec.Rfc.secretsFor pr sd context secrets rand i kps = some l ∧
      Sized (.struct (l.map Spec.Rfc.encryptedGroupSecrets)) (kps.map fun k => Spec.weight z k.leafNode).sum := by
  induction kps generalizing i with
  | nil => exact ⟨[], rfl, sized_nil⟩
  | cons k kps ih =>
    have hkk := hk k List.mem_cons_self
    have hww := hw k List.mem_cons_self
    have hwe : Spec.weight z k.leafNode = Spec.nameSize k.leafNode.credential + 8 * z + 1024 := rfl
    obtain ⟨l, h1, h2⟩ := ih (fun x hx => hk x (List.mem_cons_of_mem _ hx)) (fun x hx => hw x (List.mem_cons_of_mem _ hx)) (i + 1)
    obtain ⟨kb, h3, h4⟩ := hkk.package hb (by omega)
    obtain ⟨rb, h5, _⟩ := sized_cons (sized_opaque (b := Spec.ascii "MLS 1.0 KeyPackage Reference") (by decide)) <|
      sized_cons (sized_opaque (b := kb) (by omega)) sized_nil
    obtain ⟨r, hr⟩ := hkk.init
    obtain ⟨ko, ct, h6, h7, h8⟩ := hb.encrypts r context secrets (rand i) (by omega)
    rw [← hr] at h6
    have hh : (pr.hash sd.hash rb).length ≤ 64 := by rw [hc.hash_length]; exact hash_size_le _
    refine ⟨{ newMember := pr.hash sd.hash rb, encryptedGroupSecrets := { kemOutput := ko, ciphertext := ct } } :: l, ?_, ?_⟩
    · unfold Spec.Rfc.secretsFor
      refine Option.bind_eq_some_iff.2 ⟨sd, ?_, Option.bind_eq_some_iff.2 ⟨pr.hash sd.hash rb, ?_, Option.bind_eq_some_iff.2 ⟨(ko, ct), h6,
        Option.bind_eq_some_iff.2 ⟨l, h1, rfl⟩⟩⟩⟩
      · rw [hkk.cipherSuite]
        exact suite_lookup.1 hsd
      · unfold Spec.Rfc.refHash
        exact Option.bind_eq_some_iff.2 ⟨kb, h3, Option.bind_eq_some_iff.2 ⟨rb, h5, rfl⟩⟩
    · rw [List.map_cons, List.map_cons, List.sum_cons]
      exact sized_cons (Spec.Rfc.Sized.mono (sized_cons (sized_opaque (b := pr.hash sd.hash rb) (by omega)) <| sized_cons
        (sized_cons (sized_opaque (b := ko) (by omega)) <| sized_cons (sized_opaque (b := ct) (by omega)) sized_nil) sized_nil) (by omega)) h2

/-- The commit that adds generated key packages. -/
theorem commit_sized {cs : UInt16} {sd : SuiteDesc} {z : Nat} (hb : Spec.Bounded pr sd z) {kps : List KeyPackage} (hne : kps ≠ [])
    (hk : ∀ k ∈ kps, GeneratedShape pr cs sd z k) (hw : (kps.map fun k => Spec.weight z k.leafNode).sum < 2 ^ 30) :
    ∃ n, Sized (Spec.Rfc.commit { proposals := kps.map fun k => .proposal (.add k), path := none }) (n + 5) ∧
      n + 3 * z + 932 ≤ (kps.map fun k => Spec.weight z k.leafNode).sum := by
  have hwe : ∀ k : KeyPackage, Spec.weight z k.leafNode = Spec.nameSize k.leafNode.credential + 8 * z + 1024 := fun _ => rfl
  have h1 : ∀ k ∈ kps, Sized (Spec.Rfc.proposalOrRef (.proposal (.add k))) (Spec.nameSize k.leafNode.credential + 5 * z + 92) := by
    intro k hkm
    have := le_sum (f := fun k : KeyPackage => Spec.weight z k.leafNode) hkm
    have := hwe k
    have h := (hk k hkm).package hb (by omega)
    exact (sized_cons (sized_num (k := 1) (v := 1) (by decide)) <| sized_cons (sized_cons (sized_num (k := 2) (v := 1) (by decide)) <|
      sized_cons (sized_cons h sized_nil) sized_nil) sized_nil).mono (by omega)
  have h2 := sized_map h1
  have h3 := sum_slack (l := kps) (f := fun k : KeyPackage => Spec.nameSize k.leafNode.credential + 5 * z + 92)
    (g := fun k => Spec.weight z k.leafNode) (c := 3 * z + 932) (fun k _ => by have := hwe k; omega)
  have h4 : 1 ≤ kps.length := List.length_pos_iff.2 hne
  have h5 : 3 * z + 932 ≤ (3 * z + 932) * kps.length := Nat.le_mul_of_pos_right _ h4
  refine ⟨(kps.map fun k => Spec.nameSize k.leafNode.credential + 5 * z + 92).sum, ?_, ?_⟩
  rotate_left
  · omega
  · have hv := sized_vector h2 (by omega)
    unfold Spec.Rfc.commit
    rw [List.map_map]
    exact (sized_cons hv (sized_cons (i := Spec.Rfc.optional Spec.Rfc.updatePath none)
      (sized_cons (sized_num (k := 1) (v := 0) (by decide)) sized_nil) sized_nil)).mono (by omega)

/-- The invitation of RFC 9420 exists, and the welcome can be written, if everything fits. -/
theorem invitation_some (hc : pr.Correct) {cs : UInt16} {sd : SuiteDesc} {z : Nat} (hsd : suite cs = .ok sd) (hb : Spec.Bounded pr sd z)
    {ctx : GroupContext} (hext : ctx.extensions = []) (hth : ctx.treeHash.length ≤ 64)
    (hct : ctx.confirmedTranscriptHash.length ≤ 64) {signKey : Bytes} (hkey : ∃ r, signKey = (pr.sigKeyPair sd.sig r).2)
    {kps : List KeyPackage} (hne : kps ≠ []) (hk : ∀ k ∈ kps, GeneratedShape pr cs sd z k) {d : Nat} (hd : d ≤ 31) {s : Ratchet ParentNode d}
    (hun : s.Unparented) (hleaf : ∀ l ∈ s.leaves.filterMap id, ∃ k, GeneratedShape pr cs sd z k ∧ k.leafNode = l) (hdense : Dense ⟨d, s⟩)
    (hsub : (kps.map fun k => Spec.weight z k.leafNode).sum ≤ ((s.leaves.filterMap id).map (Spec.weight z)).sum)
    (hroom : 2 * ctx.groupID.length + ((s.leaves.filterMap id).map (Spec.weight z)).sum < 2 ^ 30)
    (epochSecret initSecret interim : Bytes) (depth : Nat) (leaf : UInt32) (r : WelcomeRand) :
    ∃ w raw, Spec.Rfc.invitation pr sd ctx epochSecret initSecret interim signKey depth leaf kps r s = some (w, raw) ∧
      ∃ b, (Spec.Rfc.mlsMessage { version := 1, body := .welcome w }).bytes = some b := by
  obtain ⟨n, hcom, hn⟩ := commit_sized hb hne hk (by omega)
  have hwe : ∀ l : LeafNode, Spec.weight z l = Spec.nameSize l.credential + 8 * z + 1024 := fun _ => rfl
  have hg : ctx.groupID.length < 2 ^ 30 := by omega
  -- the leaves
  have hlf : ∀ l ∈ s.leaves.filterMap id, Sized (Spec.Rfc.leafNode l) (Spec.nameSize l.credential + 3 * z + 73) := by
    intro l hl
    have := le_sum (f := Spec.weight z) hl
    have := hwe l
    obtain ⟨k, hks, rfl⟩ := hleaf l hl
    exact hks.leaf (by omega)
  have h2p : 2 ^ (d + 1) = 2 * 2 ^ d := by rw [Nat.pow_succ]; omega
  have h2d : 2 ^ d ≤ 2 ^ 31 := Nat.pow_le_pow_right (by decide) hd
  have hden : 2 ^ d < 2 * (s.leaves.filterMap id).length := hdense
  obtain ⟨m, hm⟩ := treeHash_some hc (a := sd.hash) hun (fun l hl => ⟨_, hlf l hl⟩) (i := 0) (by omega)
  have hml : (pr.hash sd.hash m).length ≤ 64 := by rw [hc.hash_length]; exact hash_size_le _
  have hmem : Spec.members (s.flat .leaf .parent) = s.leaves.filterMap id := members_flat s
  have htree := tree_sized (v := s.flat .leaf .parent) ((unparented_iff s).1 hun) (g := fun l => Spec.nameSize l.credential + 3 * z + 73)
    (by rw [hmem]; exact hlf)
  rw [hmem, flat_length] at htree
  have hsl := sum_slack (l := s.leaves.filterMap id) (f := fun l => Spec.nameSize l.credential + 3 * z + 73 + 1) (g := Spec.weight z)
    (c := 5 * z + 950) (fun l _ => weight_slack z l)
  generalize hW : ((s.leaves.filterMap id).map (Spec.weight z)).sum = W at *
  generalize hT : ((s.leaves.filterMap id).map fun l => Spec.nameSize l.credential + 3 * z + 73 + 1).sum = T at *
  generalize hM : (s.leaves.filterMap id).length = M at *
  generalize hK : (kps.map fun k => Spec.weight z k.leafNode).sum = K at *
  have hM1 : 1 ≤ M := by have := Nat.two_pow_pos d; omega
  have hz : 5 * z ≤ 5 * z * M := Nat.le_mul_of_pos_right _ hM1
  rw [Nat.add_mul] at hsl
  obtain ⟨tb, htb, htbl⟩ := sized_vector htree (by omega)
  -- the commit
  have hctx := context_sized hext hg hth hct
  have hframed : Sized (Spec.Rfc.framedContent (Spec.Rfc.framed ctx leaf (.commit { proposals := kps.map fun k => .proposal (.add k), path := none })))
      (ctx.groupID.length + n + 31) :=
    (sized_cons (sized_opaque hg) <| sized_cons (sized_u64 ctx.epoch) <| sized_cons (i := Spec.Rfc.sender (.member leaf))
      (sized_cons (sized_num (k := 1) (v := 1) (by decide)) <| sized_cons (sized_u32 leaf) sized_nil) <|
      sized_cons (sized_opaque (b := []) (by decide)) <| sized_cons (i := Spec.Rfc.contentType .commit) (sized_num (k := 1) (v := 3) (by decide)) <|
      sized_cons hcom sized_nil).mono (by rw [List.length_nil]; omega)
  obtain ⟨sig, hsig, hsigl⟩ := sign_some hb hkey (label := "FramedContentTBS") (by decide)
    (sized_cons (i := Spec.Rfc.uint16 1) (sized_num (k := 2) (v := 1) (by decide)) <|
      sized_cons (i := Spec.Rfc.wireFormat .privateMessage) (sized_num (k := 2) (v := 2) (by decide)) <|
      sized_cons hframed <| sized_cons hctx sized_nil) (by omega) r.commitSign
  obtain ⟨input, hinput, _⟩ := sized_cons (i := Spec.Rfc.wireFormat .privateMessage) (sized_num (k := 2) (v := 2) (by decide)) <|
    sized_cons hframed <| sized_cons (sized_opaque (b := sig) (by omega)) sized_nil
  -- the next epoch
  have hcl : (pr.hash sd.hash (interim ++ input)).length ≤ 64 := by rw [hc.hash_length]; exact hash_size_le _
  obtain ⟨next, hnx⟩ : ∃ next : GroupContext, next = {
      ctx with
      epoch := ctx.epoch + 1
      treeHash := pr.hash sd.hash m
      confirmedTranscriptHash := pr.hash sd.hash (interim ++ input) } := ⟨_, rfl⟩
  have hgn : next.groupID = ctx.groupID := by rw [hnx]
  have hnext := context_sized (ctx := next) (by rw [hnx]; exact hext) (by rw [hgn]; exact hg) (by rw [hnx]; exact hml) (by rw [hnx]; exact hcl)
  rw [hgn] at hnext
  obtain ⟨cb, hcb, hcbl⟩ := id hnext
  obtain ⟨joiner, hj, hjl⟩ := expand_some hc (sd := sd) (label := "joiner") (by decide) (context := cb) (by omega)
    (pr.extract sd.kdf (List.replicate sd.kdf.size 0) initSecret)
  obtain ⟨es, hes, _⟩ := expand_some hc (sd := sd) (label := "epoch") (by decide) (context := cb) (by omega)
    (pr.extract sd.kdf (List.replicate sd.kdf.size 0) joiner)
  have htl : (Spec.confirmationTag pr sd es (pr.hash sd.hash (interim ++ input))).length ≤ 64 := by
    unfold Spec.confirmationTag
    rw [hc.mac_length]
    exact hash_size_le _
  generalize htag : Spec.confirmationTag pr sd es (pr.hash sd.hash (interim ++ input)) = tag at htl
  -- the group info
  have hinfo : Sized (.struct (Spec.Rfc.groupInfoFields
      { groupContext := next, extensions := [{ ty := 2, data := tb }], confirmationTag := tag, signer := leaf, signature := [] }))
      (ctx.groupID.length + tb.length + 242) :=
    (sized_cons hnext <| sized_cons (i := Spec.Rfc.extensions [{ ty := 2, data := tb }])
      (sized_vector (sized_cons (i := Spec.Rfc.extension { ty := 2, data := tb })
        (sized_cons (sized_num (k := 2) (v := 2) (by decide)) <| sized_cons (sized_opaque (b := tb) (by omega)) sized_nil) sized_nil) (by omega)) <|
      sized_cons (sized_opaque (b := tag) (by omega)) <| sized_cons (sized_u32 leaf) sized_nil).mono (by omega)
  obtain ⟨isig, hisig, hisigl⟩ := sign_some hb hkey (label := "GroupInfoTBS") (by decide) hinfo (by omega) r.infoSign
  obtain ⟨ib, hib, hibl⟩ := sized_append hinfo (sized_cons (sized_opaque (b := isig) (by omega)) sized_nil)
  obtain ⟨egi, hegi⟩ := hc.aead_seal sd.aead (Spec.expandWithLabel pr sd (Spec.welcomeSecret pr sd joiner) "key" [] sd.aead.keySize)
    (Spec.expandWithLabel pr sd (Spec.welcomeSecret pr sd joiner) "nonce" [] sd.aead.nonceSize) ib []
    (hc.expand_length _ _ _ _ (expandable_key _ _)) ((hc.expand_length _ _ _ _ (expandable_nonce _ _)).trans (nonceSize_eq _)) (by omega)
  have hegil := hb.seals _ _ _ _ _ hegi
  have hprep : Spec.Rfc.prepared pr sd ctx initSecret interim signKey leaf kps r s =
      some { signature := sig, confirmationTag := tag, joinerSecret := joiner, encryptedGroupInfo := egi } := by
    unfold Spec.Rfc.prepared
    refine Option.bind_eq_some_iff.2 ⟨_, hm, Option.bind_eq_some_iff.2 ⟨sig, hsig, Option.bind_eq_some_iff.2 ⟨input, hinput,
      Option.bind_eq_some_iff.2 ⟨cb, by rw [← hnx]; exact hcb, Option.bind_eq_some_iff.2 ⟨joiner, hj, Option.bind_eq_some_iff.2 ⟨es, hes, ?_⟩⟩⟩⟩⟩⟩
    dsimp only
    rw [htag, ← hnx]
    exact Option.bind_eq_some_iff.2 ⟨tb, htb, Option.bind_eq_some_iff.2 ⟨isig, hisig, Option.bind_eq_some_iff.2 ⟨ib, hib,
      Option.bind_eq_some_iff.2 ⟨egi, hegi, rfl⟩⟩⟩⟩
  -- the secrets
  obtain ⟨gs, hgs, hgsl⟩ := sized_cons (sized_opaque (b := joiner) (by omega)) <|
    sized_cons (i := Spec.Rfc.optional (fun s : Bytes => .struct [.opaque s]) none) (sized_cons (sized_num (k := 1) (v := 0) (by decide)) sized_nil) <|
    sized_cons (sized_vector (l := ([] : List PreSharedKeyID).map Spec.Rfc.preSharedKeyID) sized_nil (by decide)) sized_nil
  obtain ⟨eb, heb, _⟩ := sized_cons (sized_opaque (b := Spec.ascii "MLS 1.0 Welcome") (by decide)) <|
    sized_cons (sized_opaque (b := egi) (by omega)) sized_nil
  obtain ⟨secrets, hsec, hsecl⟩ := secretsFor_some hc hsd hb (context := eb) (secrets := gs) (by omega) (rand := r.hpke) hk
    (fun k hkm => by have := le_sum (f := fun k : KeyPackage => Spec.weight z k.leafNode) hkm; omega) 0
  rw [hK] at hsecl
  -- the message
  obtain ⟨raw, hraw⟩ := protect_some hc hb (ctx := ctx) (epochSecret := epochSecret) (depth := depth) (leaf := leaf) (guard := r.guard) (ty := .commit)
    (c := ⟨.commit { proposals := kps.map fun k => .proposal (.add k), path := none }, { signature := sig, confirmationTag := tag }⟩)
    (sized_cons hcom <| sized_cons (i := .struct [.opaque sig, .opaque tag]) (sized_cons (sized_opaque (b := sig) (by omega)) <|
      sized_cons (sized_opaque (b := tag) (by omega)) sized_nil) <| sized_cons (i := .fixed []) ⟨[], fixed_bytes [], Nat.le_refl 0⟩ sized_nil)
    hg (by omega)
  obtain ⟨b, hb', _⟩ := sized_cons (i := Spec.Rfc.uint16 1) (sized_num (k := 2) (v := 1) (by decide)) <|
    sized_cons (i := Spec.Rfc.wireFormat .welcome) (sized_num (k := 2) (v := 3) (by decide)) <| sized_cons
      (sized_cons (sized_u16 ctx.cipherSuite) <| sized_cons (sized_vector hsecl (by omega)) <| sized_cons (sized_opaque (b := egi) (by omega)) sized_nil)
      sized_nil
  refine ⟨{ cipherSuite := ctx.cipherSuite, secrets, encryptedGroupInfo := egi }, raw, ?_, b, hb'⟩
  unfold Spec.Rfc.invitation
  refine Option.bind_eq_some_iff.2 ⟨_, hprep, Option.bind_eq_some_iff.2 ⟨(gs, eb), ?_, Option.bind_eq_some_iff.2 ⟨secrets, hsec,
    Option.bind_eq_some_iff.2 ⟨raw, hraw, rfl⟩⟩⟩⟩
  unfold Spec.Rfc.sealedSecrets
  exact Option.bind_eq_some_iff.2 ⟨gs, hgs, Option.bind_eq_some_iff.2 ⟨eb, heb, rfl⟩⟩

/-! ### C118 -/

theorem generated_fields {cs : UInt16} {sd : SuiteDesc} (hd : suite cs = .ok sd) {cred : Credential} {r : KeyPackageRand} {kp : KeyPairPackage}
    (h : generateKeyPairPackage pr cs cred r = .ok kp) :
    kp.pub.leafNode.credential = cred ∧ kp.pub.initKey = (pr.kemKeyPair sd.kem r.init).1 ∧
      kp.pub.leafNode.encryptionKey = (pr.kemKeyPair sd.kem r.enc).1 ∧ kp.pub.leafNode.signatureKey = (pr.sigKeyPair sd.sig r.sig).1 ∧
      kp.pub.leafNode.source = .keyPackage (newLifetime r.now1 (r.now2.add (30 * 24 * 3600 * 1000000000))) := by
  obtain ⟨d, leaf, k, hd', h1, h2, rfl⟩ := generate_split h
  rw [hd] at hd'
  cases hd'
  obtain ⟨_, _, _, _, rfl⟩ := leafSign_split h1
  obtain ⟨_, _, _, _, rfl⟩ := pkgSign_split h2
  exact ⟨rfl, rfl, rfl, rfl, rfl⟩

/-- **C118**, key packages: for every cipher suite and identity that fits, GenerateKeyPairPackage succeeds, and the key package can be written. -/
theorem C118_generate {cs : UInt16} {sd : SuiteDesc} {z : Nat} (hsd : (cs.toNat, sd) ∈ Spec.suites) (hb : Spec.Bounded pr sd z) (name : Bytes)
    (hn : name.length + 8 * z + 1024 < 2 ^ 30) (r : KeyPackageRand) :
    ∃ kp b, generateKeyPairPackage pr cs (.basic name) r = .ok kp ∧ kp.pub.leafNode.credential = .basic name ∧ kp.pub.bytes = .ok b := by
  have hd := (suite_iff_spec _ _).2 hsd
  have key : ∀ (leaf : LeafNode) (k : KeyPackage),
      (generatedLeaf cs (.basic name) (pr.kemKeyPair sd.kem r.enc).1 (pr.sigKeyPair sd.sig r.sig).1 r.now1 r.now2).sign pr cs [] 0
        (pr.sigKeyPair sd.sig r.sig).2 r.leafSign = .ok leaf →
      KeyPackage.sign pr ⟨1, cs, (pr.kemKeyPair sd.kem r.init).1, leaf, [], []⟩ (pr.sigKeyPair sd.sig r.sig).2 r.pkgSign = .ok k →
      generateKeyPairPackage pr cs (.basic name) r =
        .ok ⟨k, ⟨(pr.kemKeyPair sd.kem r.init).2, (pr.kemKeyPair sd.kem r.enc).2, (pr.sigKeyPair sd.sig r.sig).2⟩⟩ := by
    intro leaf k h1 h2
    unfold generateKeyPairPackage generateEncryptionKeyPair
    simp only [hd, Res.ok_bind, Res.pure_eq]
    rw [h1, Res.ok_bind, h2, Res.ok_bind]
  have hshape : ∀ sig, sig.length ≤ z → GeneratedShape pr cs sd z ⟨1, cs, (pr.kemKeyPair sd.kem r.init).1,
      { generatedLeaf cs (.basic name) (pr.kemKeyPair sd.kem r.enc).1 (pr.sigKeyPair sd.sig r.sig).1 r.now1 r.now2 with signature := sig }, [], []⟩ :=
    fun sig h => ⟨⟨_, rfl⟩, rfl, Nat.zero_le _, rfl, hb.encryptionKeys _, hb.signatureKeys _, h, ⟨_, rfl⟩, rfl, ⟨_, rfl⟩, rfl⟩
  have hs : ∀ sig, Spec.nameSize { generatedLeaf cs (.basic name) (pr.kemKeyPair sd.kem r.enc).1 (pr.sigKeyPair sd.sig r.sig).1 r.now1 r.now2 with
      signature := sig }.credential + z < 2 ^ 30 := by
    intro sig
    show name.length + z < 2 ^ 30
    omega
  have hns : ∀ sig, Spec.nameSize { generatedLeaf cs (.basic name) (pr.kemKeyPair sd.kem r.enc).1 (pr.sigKeyPair sd.sig r.sig).1 r.now1 r.now2 with
      signature := sig }.credential = name.length := fun _ => rfl
  obtain ⟨sig, h1, h1l⟩ := sign_some hb ⟨r.sig, rfl⟩ (label := "LeafNodeTBS") (by decide)
    (sized_append ((hshape [] (Nat.zero_le _)).fields (hs [])) (sized_cons sized_nil sized_nil)) (by rw [hns]; omega) r.leafSign
  have h2 := ((C102_signed hd (pr.sigKeyPair sd.sig r.sig).2 r.leafSign).2.1 (generatedLeaf cs (.basic name) (pr.kemKeyPair sd.kem r.enc).1
    (pr.sigKeyPair sd.sig r.sig).1 r.now1 r.now2) [] 0 { generatedLeaf cs (.basic name) (pr.kemKeyPair sd.kem r.enc).1
    (pr.sigKeyPair sd.sig r.sig).1 r.now1 r.now2 with signature := sig }).2 ⟨rfl, h1⟩
  have hsh := hshape sig h1l
  have hss := hs sig
  have hnn := hns sig
  generalize { generatedLeaf cs (.basic name) (pr.kemKeyPair sd.kem r.enc).1 (pr.sigKeyPair sd.sig r.sig).1 r.now1 r.now2 with
    signature := sig } = leaf at *
  obtain ⟨psig, h3, h3l⟩ := sign_some hb ⟨r.sig, rfl⟩ (label := "KeyPackageTBS") (by decide) (hsh.packageFields hb hss)
    (by dsimp only; rw [hnn]; omega) r.pkgSign
  have h4 := ((C102_signed hd (pr.sigKeyPair sd.sig r.sig).2 r.pkgSign).2.2.1 ⟨1, cs, (pr.kemKeyPair sd.kem r.init).1, leaf, [], []⟩
    ⟨1, cs, (pr.kemKeyPair sd.kem r.init).1, leaf, [], psig⟩ rfl).2 ⟨rfl, h3⟩
  have hgen := key _ _ h2 h4
  have hg : Spec.Generated pr cs _ := ⟨_, _, hgen⟩
  obtain ⟨b, hb', _⟩ := sized_cons (i := Spec.Rfc.uint16 1) (sized_num (k := 2) (v := 1) (by decide)) <|
    sized_cons (i := Spec.Rfc.wireFormat .keyPackage) (sized_num (k := 2) (v := 5) (by decide)) <|
    sized_cons ((hg.shaped hd hb).package hb hss) sized_nil
  refine ⟨_, b, hgen, ?_, ((C101_bytes _ default b).1).2 hb'⟩
  exact (generated_fields hd hgen).1

/-- **C118**, creation: with a generated key package CreateGroup succeeds, for every group ID. -/
theorem C118_create (hc : pr.Correct) {cs : UInt16} {sd : SuiteDesc} {z : Nat} (hsd : (cs.toNat, sd) ∈ Spec.suites) (hb : Spec.Bounded pr sd z)
    {kp : KeyPairPackage} (hg : Spec.Generated pr cs kp) (hn : Spec.weight z kp.pub.leafNode < 2 ^ 30) (id : Bytes) (rand : Nat → UInt8) :
    ∃ st, createGroup pr id kp rand = .ok st ∧ Spec.Library pr cs st ∧ st.group.groupContext.groupID = id ∧
      Spec.members st.vtree = [kp.pub.leafNode] := by
  have hd := (suite_iff_spec _ _).2 hsd
  have hsh := hg.shaped hd hb
  have hwe : Spec.weight z kp.pub.leafNode = Spec.nameSize kp.pub.leafNode.credential + 8 * z + 1024 := rfl
  obtain ⟨b, h1, _⟩ := hsh.leaf (by omega)
  obtain ⟨st, h⟩ := (C107_creation hc id kp rand).2 ⟨⟨sd, by rw [hsh.cipherSuite]; exact hsd⟩, b, h1⟩
  have h' := h
  unfold createGroup at h'
  simp only [Res.bind_ok_iff] at h'
  obtain ⟨⟨hp, t⟩, h1, pt, h2, _, _, d, h3, _, _, _, _, _, _, _, _, h'⟩ := h'
  have e : treeAdd [] [none] kp.pub.leafNode = .ok ([], [some (.leaf kp.pub.leafNode)]) := rfl
  rw [e] at h1
  cases h1
  cases h'
  exact ⟨_, h, .create hg h, rfl, rfl⟩

/-- **C118**, invitations: in a group whose members all use this library, an invitation of generated key packages succeeds, and the welcome can be
written, whenever the group ID and the members and the invited fit into the vectors of RFC 9420. Nothing is said about who is invited. -/
theorem C118_invite (hc : pr.Correct) {cs : UInt16} {sd : SuiteDesc} {z : Nat} (hsd : (cs.toNat, sd) ∈ Spec.suites) (hb : Spec.Bounded pr sd z)
    {st : GroupState} (hl : Spec.Library pr cs st) {ks : List KeyPairPackage} (hne : ks ≠ []) (hg : ∀ k ∈ ks, Spec.Generated pr cs k)
    (hroom : 2 * st.group.groupContext.groupID.length +
      ((Spec.members st.vtree ++ ks.map fun k => k.pub.leafNode).map (Spec.weight z)).sum < 2 ^ 30) (r : WelcomeRand) :
    ∃ w raw b, createWelcome pr st (ks.map fun k => k.pub) r = (.ok (w, raw), st) ∧ w.bytes = .ok b := by
  have hd := (suite_iff_spec _ _).2 hsd
  have hv := hl.inv hc
  have hz := hl.size hc
  obtain ⟨sd', d, s, hsd', hs, key⟩ := C107_invitation hc hv.reach
  rw [hv.suite] at hsd'
  have hsd'' := (suite_iff_spec _ _).2 hsd'
  rw [hd] at hsd''
  cases hsd''
  have hne' : (ks.map fun k => k.pub) ≠ [] := by simpa using hne
  obtain ⟨d1, s1, h1, h2⟩ := hz.dense
  rw [hs] at h1
  obtain rfl : d = d1 := by
    have := congrArg List.length h1
    rw [flat_length, flat_length] at this
    have h3 := Nat.two_pow_pos (d1 + 1)
    have h4 := Nat.two_pow_pos (d + 1)
    have := Nat.pow_right_injective (Nat.le_refl 2) (show 2 ^ (d + 1) = 2 ^ (d1 + 1) by omega)
    omega
  obtain rfl := flat_inj _ _ h1
  have hadd := withMembers_eq s (ks.map fun k => k.pub)
  have hperm : ((Spec.withMembers s (ks.map fun k => k.pub)).2.leaves.filterMap id).Perm
      (Spec.members st.vtree ++ ks.map fun k => k.pub.leafNode) := by
    have := members_adds _ hadd
    rw [hs, members_flat]
    simpa [Function.comp_def] using this
  have hdense := dense_adds _ h2 hadd
  have hun := unparented_adds _ (a := ⟨d, s⟩) (by rw [unparented_iff, ← hs]; exact noParents_iff.1 hv.flat) hadd
  have hsum : (((Spec.withMembers s (ks.map fun k => k.pub)).2.leaves.filterMap id).map (Spec.weight z)).sum =
      ((Spec.members st.vtree ++ ks.map fun k => k.pub.leafNode).map (Spec.weight z)).sum := (hperm.map _).sum_nat
  have hdep : (Spec.withMembers s (ks.map fun k => k.pub)).1 ≤ 31 := by
    have h3 : 2 ^ (Spec.withMembers s (ks.map fun k => k.pub)).1 < 2 * _ := hdense
    have h4 := length_le_sum (l := (Spec.withMembers s (ks.map fun k => k.pub)).2.leaves.filterMap id) (f := Spec.weight z) (c := 1024)
      (fun l _ => by unfold Spec.weight; omega)
    rw [hsum] at h4
    by_contra hlt
    have h5 : 2 ^ 32 ≤ 2 ^ (Spec.withMembers s (ks.map fun k => k.pub)).1 := Nat.pow_le_pow_right (by decide) (by omega)
    omega
  have hsub : ((ks.map fun k => k.pub).map fun k => Spec.weight z k.leafNode).sum ≤
      (((Spec.withMembers s (ks.map fun k => k.pub)).2.leaves.filterMap id).map (Spec.weight z)).sum := by
    rw [hsum, List.map_append, List.sum_append, List.map_map, List.map_map]
    exact Nat.le_add_left _ _
  have hk : ∀ k ∈ ks.map (fun k => k.pub), GeneratedShape pr cs sd z k := by
    intro k hk
    obtain ⟨k', hk', rfl⟩ := List.mem_map.1 hk
    exact (hg k' hk').shaped hd hb
  have hleaf : ∀ l ∈ (Spec.withMembers s (ks.map fun k => k.pub)).2.leaves.filterMap id, ∃ k, GeneratedShape pr cs sd z k ∧ k.leafNode = l := by
    intro l hl'
    rcases List.mem_append.1 (hperm.subset hl') with h | h
    · obtain ⟨kp, h1, h2⟩ := hv.generated l h
      exact ⟨kp.pub, h1.shaped hd hb, h2⟩
    · obtain ⟨kp, h1, rfl⟩ := List.mem_map.1 h
      exact ⟨kp.pub, (hg kp h1).shaped hd hb, rfl⟩
  obtain ⟨sd2, rs, leaf, k1, _, _, k4⟩ := hv.own
  rw [hv.suite, hd] at k1
  cases k1
  obtain ⟨w, raw, h3, b, h4⟩ := invitation_some hc hd hb hv.extensions hz.treeHash hz.transcript ⟨rs, k4⟩ hne' hk hdep hun hleaf hdense hsub
    (by rw [hsum]; exact hroom) st.group.epochSecret st.group.initSecret st.group.interimTranscriptHash d st.group.myLeafIndex r
  refine ⟨w, raw, b, Prod.ext ((key _ r w raw hne').2 ⟨hdep, h3⟩) ?_, ((C101_bytes default w b).2).2 h4⟩
  exact (C79_unchanged hc hl).1 _ _

/-- **C118**, application data: in such a group all data that fits can be sent, and everyone in the epoch reads it, at any time. -/
theorem C118_speak (hc : pr.Correct) {cs : UInt16} {sd : SuiteDesc} {z : Nat} (hsd : (cs.toNat, sd) ∈ Spec.suites) (hb : Spec.Bounded pr sd z)
    {st : GroupState} (hl : Spec.Library pr cs st) (data : Bytes)
    (hroom : 2 * st.group.groupContext.groupID.length + data.length + 2 * z + 1024 < 2 ^ 30) (sigRand : Bytes) (guard : Bytes4) :
    ∃ raw, createApplicationMessage pr st data sigRand guard = .ok raw ∧
      ∀ st2, SameView st st2 → ∀ now, unmarshalAndProcessMessage pr st2 raw now = (.ok (some data), st2) := by
  have hv := hl.inv hc
  have hz := hl.size hc
  obtain ⟨sd2, rs, leaf, k1, _, _, k4⟩ := hv.own
  rw [hv.suite, (suite_iff_spec _ _).2 hsd] at k1
  cases k1
  obtain ⟨cb, hcb, hcbl⟩ := context_sized hv.extensions (by omega) hz.treeHash hz.transcript
  obtain ⟨raw, h⟩ := C107_room hc hv.reach (by rw [hv.suite]; exact hsd) (sig := z) (tag := z)
    ⟨fun m r => by rw [k4]; exact hb.signs rs m r, hb.seals⟩ hcb data sigRand guard (by omega) (by omega)
  exact ⟨raw, h, fun st2 hs now => C79_speak hc hl hs h now⟩

/-- **C118**, the whole step: nothing fails. The invitation succeeds; every member in the epoch follows; everyone invited joins while all key packages
are in date; all of them are members of one group then, with the same group ID; and what one of them says, within the limits, all read. -/
theorem C118_grow (hc : pr.Correct) {cs : UInt16} {sd : SuiteDesc} {z : Nat} (hsd : (cs.toNat, sd) ∈ Spec.suites) (hb : Spec.Bounded pr sd z)
    {st : GroupState} (hl : Spec.Library pr cs st) {ks : List KeyPairPackage} (hne : ks ≠ []) (hg : ∀ k ∈ ks, Spec.Generated pr cs k)
    (hown : Spec.OwnKeys (Spec.members st.vtree ++ ks.map fun k => k.pub.leafNode))
    (hinit : ∀ k ∈ ks, k.pub.leafNode.encryptionKey ≠ k.pub.initKey) (href : Spec.OwnRefs pr ks)
    (hroom : 2 * st.group.groupContext.groupID.length +
      ((Spec.members st.vtree ++ ks.map fun k => k.pub.leafNode).map (Spec.weight z)).sum < 2 ^ 30) (r : WelcomeRand) :
    ∃ w raw b, createWelcome pr st (ks.map fun k => k.pub) r = (.ok (w, raw), st) ∧ w.bytes = .ok b ∧
      (∀ st2, Spec.Library pr cs st2 → SameView st st2 → ∀ now, ∃ a, unmarshalAndProcessMessage pr st2 raw now = (.ok none, a)) ∧
      (∀ kp ∈ ks, ∀ now, (∀ l ∈ Spec.members st.vtree ++ ks.map (fun k => k.pub.leafNode), Spec.InDate now l) →
        ∃ a, groupFromWelcome pr w kp now = .ok a) ∧
      ∀ a, Spec.Arrives pr cs st ks w raw a → Spec.Library pr cs a ∧ a.group.groupContext.groupID = st.group.groupContext.groupID ∧
        (Spec.members a.vtree).Perm (Spec.members st.vtree ++ ks.map fun k => k.pub.leafNode) ∧
        ∀ data, 2 * st.group.groupContext.groupID.length + data.length + 2 * z + 1024 < 2 ^ 30 → ∀ sigRand guard,
          ∃ m, createApplicationMessage pr a data sigRand guard = .ok m ∧
            ∀ a', Spec.Arrives pr cs st ks w raw a' → ∀ now, unmarshalAndProcessMessage pr a' m now = (.ok (some data), a') := by
  obtain ⟨w, raw, b, h, hwb⟩ := C118_invite hc hsd hb hl hne hg hroom r
  obtain ⟨hfollow, hjoin⟩ := C79_invite hc hl hg h hown hinit href
  refine ⟨w, raw, b, h, hwb, hfollow, fun kp hk now hdate => (hjoin kp hk now).2 hdate, ?_⟩
  obtain ⟨st', hst'⟩ := hfollow st hl ⟨rfl, rfl, rfl⟩ default
  have hid := (message_effect (pr := pr) st raw default).1.groupID
  rw [hst'] at hid
  have hself : Spec.Arrives pr cs st ks w raw st' := .follow hl ⟨rfl, rfl, rfl⟩ hst'
  intro a ha
  obtain ⟨h1, h2, _, h4⟩ := C79_together hc hl hg h href ha hself
  have hgid : a.group.groupContext.groupID = st.group.groupContext.groupID := by rw [h2.context]; exact hid
  refine ⟨h1, hgid, h4, fun data hdata sigRand guard => ?_⟩
  obtain ⟨m, h5, h6⟩ := C118_speak hc hsd hb h1 data (by rw [hgid]; exact hdata) sigRand guard
  exact ⟨m, h5, fun a' ha' now => h6 a' (C79_together hc hl hg h href ha ha').2.1 now⟩

/-- The program `ExampleGroup` (group_test.go:288-336): the first one creates a group, invites the second one, and follows; the second one joins; the
first one sends data, and the second one reads it. -/
def Spec.exampleGroup (pr : Prims) (cs : UInt16) (id name name' data : Bytes) (k k' : KeyPackageRand) (rand : Nat → UInt8) (r : WelcomeRand)
    (sigRand : Bytes) (guard : Bytes4) (now : GoTime) : Res (Option Bytes) := do
  let alice ← generateKeyPairPackage pr cs (.basic name) k
  let bob ← generateKeyPairPackage pr cs (.basic name') k'
  let a ← createGroup pr id alice rand
  let (o, a) := createWelcome pr a [bob.pub] r
  let (w, commit) ← o
  let (o, a) := unmarshalAndProcessMessage pr a commit now
  let _ ← o
  let b ← groupFromWelcome pr w bob now
  let m ← createApplicationMessage pr a data sigRand guard
  (unmarshalAndProcessMessage pr b m now).1

/-- **C118**, the example: for every cipher suite, all names, all group IDs and all data that fit, and all randomness with different keys, if the clock
reads the same month, the program runs to its end and the second one reads what the first one sent. -/
theorem C118_example (hc : pr.Correct) {cs : UInt16} {sd : SuiteDesc} {z : Nat} (hsd : (cs.toNat, sd) ∈ Spec.suites) (hb : Spec.Bounded pr sd z)
    (id name name' data : Bytes) (hroom : 2 * id.length + name.length + name'.length + data.length + 16 * z + 2048 < 2 ^ 30)
    (k k' : KeyPackageRand) (henc : (pr.kemKeyPair sd.kem k.enc).1 ≠ (pr.kemKeyPair sd.kem k'.enc).1)
    (hsig : (pr.sigKeyPair sd.sig k.sig).1 ≠ (pr.sigKeyPair sd.sig k'.sig).1)
    (hinit : (pr.kemKeyPair sd.kem k'.enc).1 ≠ (pr.kemKeyPair sd.kem k'.init).1) (rand : Nat → UInt8) (r : WelcomeRand) (sigRand : Bytes)
    (guard : Bytes4) (now : GoTime)
    (hnow : ∀ x ∈ [k, k'], (newLifetime x.now1 (x.now2.add (30 * 24 * 3600 * 1000000000))).verify now = true) :
    Spec.exampleGroup pr cs id name name' data k k' rand r sigRand guard now = .ok (some data) := by
  have hd := (suite_iff_spec _ _).2 hsd
  obtain ⟨alice, _, ha, han, _⟩ := C118_generate hsd hb name (by omega) k
  obtain ⟨bob, _, hbo, hbn, _⟩ := C118_generate hsd hb name' (by omega) k'
  have ga : Spec.Generated pr cs alice := ⟨_, _, ha⟩
  have gb : Spec.Generated pr cs bob := ⟨_, _, hbo⟩
  obtain ⟨_, a2, a3, a4, a5⟩ := generated_fields hd ha
  obtain ⟨_, b2, b3, b4, b5⟩ := generated_fields hd hbo
  have wa : Spec.weight z alice.pub.leafNode = name.length + 8 * z + 1024 := by unfold Spec.weight; rw [han]; rfl
  have wb : Spec.weight z bob.pub.leafNode = name'.length + 8 * z + 1024 := by unfold Spec.weight; rw [hbn]; rfl
  obtain ⟨st, hst, hl, hid, hmem⟩ := C118_create hc hsd hb ga (by omega) id rand
  obtain ⟨w, raw, b, h1, _, h2, h3, h4⟩ := C118_grow hc hsd hb hl (ks := [bob]) (by simp) (by simpa using gb)
    (by
      rw [hmem]
      refine ⟨?_, ?_⟩
      · simpa [a3, b3] using henc
      · simpa [a4, b4] using hsig)
    (by simpa [b2, b3] using hinit)
    (by
      intro x hx y hy hne
      rw [List.mem_singleton] at hx hy
      exact absurd (by rw [hx, hy]) hne)
    (by
      rw [hid, hmem]
      show 2 * id.length + (Spec.weight z alice.pub.leafNode + (Spec.weight z bob.pub.leafNode + 0)) < _
      omega) r
  obtain ⟨st', h5⟩ := h2 st hl ⟨rfl, rfl, rfl⟩ now
  obtain ⟨j, h6⟩ := h3 bob (List.mem_singleton.2 rfl) now (by
    rw [hmem]
    intro l hl lt hlt
    have hl : l ∈ [alice.pub.leafNode, bob.pub.leafNode] := hl
    rcases List.mem_cons.1 hl with rfl | hl
    · rw [a5] at hlt
      cases hlt
      exact .inr (hnow k (by simp))
    · rw [List.mem_singleton.1 hl, b5] at hlt
      cases hlt
      exact .inr (hnow k' (by simp)))
  obtain ⟨_, _, _, h7⟩ := h4 st' (.follow hl ⟨rfl, rfl, rfl⟩ h5)
  obtain ⟨m, h8, h9⟩ := h7 data (by rw [hid]; omega) sigRand guard
  have h10 := h9 j (.join (List.mem_singleton.2 rfl) h6) now
  have h1 : createWelcome pr st [bob.pub] r = (.ok (w, raw), st) := h1
  unfold Spec.exampleGroup
  rw [ha, Res.ok_bind, hbo, Res.ok_bind, hst, Res.ok_bind]
  simp only [h1, Res.ok_bind, h5, h6, h8, h10]

/-! ### Concrete cases -/

/-- The toy primitives with signatures of one byte, tags of sixteen, and keys of at most 32. -/
def fixedPrims : Prims :=
  { shortPrims with
    sigKeyPair := fun s r => shortPrims.sigKeyPair s (r.take 32)
    kemKeyPair := fun _ r => (r.take 32, r.take 32)
    hpkeSeal := fun _ pub info p _ => some (pub, toySum info :: p)
    hpkeOpen := fun _ priv info kemOut ct => if kemOut = priv then stripPrefix [toySum info] ct else none }

theorem fixedPrims_correct : fixedPrims.Correct :=
  { shortPrims_correct with
    hpke_open_gen := fun s r info p rand kemOut ct h => by
      simp only [fixedPrims, Option.some.injEq, Prod.mk.injEq] at h ⊢
      obtain ⟨rfl, rfl⟩ := h
      rw [if_pos rfl]
      exact stripPrefix_append [toySum info] p
    hpke_open_derive := fun s seed info p rand kemOut ct h => by
      simp only [fixedPrims, Option.some.injEq, Prod.mk.injEq] at h ⊢
      obtain ⟨rfl, rfl⟩ := h
      rw [if_pos (by rfl)]
      exact stripPrefix_append [toySum info] p
    sign_verify := fun s r m rand sig h => shortPrims_correct.sign_verify s (r.take 32) m rand sig h }

theorem fixedPrims_bounded (sd : SuiteDesc) : Spec.Bounded fixedPrims sd 32 where
  encryptionKeys r := by simp [fixedPrims]
  signatureKeys r := by
    simp only [fixedPrims, shortPrims, toyPrims]
    split <;> simp
  signs r m rand := ⟨_, rfl, by simp [fixedPrims]⟩
  seals k n p a c h := Nat.le_trans ((shortPrims_overhead sd []).seals k n p a c h) (by omega)
  encrypts r info p rand _ := ⟨_, _, rfl, by simp [fixedPrims], by simp⟩

/-- The hypotheses of C118_example are met, for a name of a million bytes and data of two million. -/
example : Spec.exampleGroup fixedPrims 2 [7, 7] (List.replicate 1000000 65) [66] (List.replicate 2000000 0) exKeyRand
    { exKeyRand with init := [4, 1], enc := [5, 2], sig := [6, 3] } (fun _ => 9) default [] ⟨1, 2, 3, 4⟩ ⟨62135596800 + 1790000100, 5⟩ =
    .ok (some (List.replicate 2000000 0)) :=
  C118_example fixedPrims_correct (sd := ⟨.sha256, .p256, .sha256, .aes128gcm, .ecdsaP256⟩) (by decide) (fixedPrims_bounded _) _ _ _ _
    (by rw [List.length_replicate, List.length_replicate]; decide) _ _ (by decide) (by decide) (by decide) _ _ _ _ _
    (by decide +kernel)

/-- A member with the name `n`. -/
def fixedMember (n : UInt8) : Res KeyPairPackage :=
  generateKeyPairPackage fixedPrims 1 (.basic [n]) { exKeyRand with init := [n, 1], enc := [n, 2], sig := [n, 3] }

/-- The hypotheses of C118_grow are met by the group of one and three invited at once. -/
example : ∃ (st : GroupState) (ks : List KeyPairPackage), Spec.Library fixedPrims 1 st ∧ ks.length = 3 ∧ (∀ k ∈ ks, Spec.Generated fixedPrims 1 k) ∧
    Spec.OwnKeys (Spec.members st.vtree ++ ks.map fun k => k.pub.leafNode) ∧ (∀ k ∈ ks, k.pub.leafNode.encryptionKey ≠ k.pub.initKey) ∧
    Spec.OwnRefs fixedPrims ks ∧
    2 * st.group.groupContext.groupID.length + ((Spec.members st.vtree ++ ks.map fun k => k.pub.leafNode).map (Spec.weight 32)).sum < 2 ^ 30 := by
  have key : (fixedMember 0).holds (fun a => (fixedMember 1).holds fun b => (fixedMember 2).holds fun c => (fixedMember 3).holds fun d =>
      (createGroup fixedPrims [7] a fun _ => 0).holds fun st =>
        decide (((Spec.members st.vtree ++ [b, c, d].map fun k => k.pub.leafNode).map fun l => l.encryptionKey).Nodup) &&
        decide (((Spec.members st.vtree ++ [b, c, d].map fun k => k.pub.leafNode).map fun l => l.signatureKey).Nodup) &&
        decide (∀ k ∈ [b, c, d], k.pub.leafNode.encryptionKey ≠ k.pub.initKey) && decide (([b, c, d].map fun k => k.pub.generateRef fixedPrims).Nodup) &&
        decide (2 * st.group.groupContext.groupID.length +
          ((Spec.members st.vtree ++ [b, c, d].map fun k => k.pub.leafNode).map (Spec.weight 32)).sum < 2 ^ 30)) = true := by decide +kernel
  obtain ⟨a, ha, key⟩ := Res.holds_ok key
  obtain ⟨b, hb, key⟩ := Res.holds_ok key
  obtain ⟨c, hc, key⟩ := Res.holds_ok key
  obtain ⟨d, hd, key⟩ := Res.holds_ok key
  obtain ⟨st, hst, key⟩ := Res.holds_ok key
  rw [Bool.and_eq_true, Bool.and_eq_true, Bool.and_eq_true, Bool.and_eq_true, decide_eq_true_eq, decide_eq_true_eq, decide_eq_true_eq,
    decide_eq_true_eq, decide_eq_true_eq] at key
  obtain ⟨⟨⟨⟨k1, k2⟩, k3⟩, k4⟩, k5⟩ := key
  refine ⟨st, [b, c, d], .create ⟨_, _, ha⟩ hst, rfl, ?_, ⟨k1, k2⟩, k3, ?_, k5⟩
  · intro k hk
    simp only [List.mem_cons, List.not_mem_nil, or_false] at hk
    rcases hk with rfl | rfl | rfl
    · exact ⟨_, _, hb⟩
    · exact ⟨_, _, hc⟩
    · exact ⟨_, _, hd⟩
  · intro x hx y hy hne he
    exact hne (by rw [List.inj_on_of_nodup_map k4 hx hy he])

end Mls
