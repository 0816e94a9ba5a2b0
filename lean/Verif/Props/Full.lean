import Verif.Props.Serial
import Verif.Props.Proposals
import Verif.Props.Integrity
import Verif.Props.Admission
import Verif.Props.PathSecret
import Verif.Props.Follow
import Verif.Props.Calls
import Verif.Props.Refs
/-
The full statements of the properties that the code does not have, and that it does not have them: what is accepted
by decoders and by joiners. The negations are for the toy primitives, which satisfy Prims.Correct, and for groups
that calls of the API lead to.
-/
namespace Mls.Full

open Spec (Ratchet nodeAt)

/-! ### Decoding -/

/-- The full statement of C05. -/
def C05 : Prop := ∀ raw k, unmarshalKeyPackage raw = .ok k → k.bytes = .ok raw

theorem C05_false : ¬ C05 := fun h => by
  obtain ⟨raw, k, h1, h2⟩ := C05_refuted
  exact h2 (h raw k h1)

/-- The full statement of C11. -/
def C11 : Prop := ∀ raw m, unmarshal MlsMessage.dec raw = .ok m → m.enc = .ok raw

theorem C11_false : ¬ C11 := fun h => by
  obtain ⟨⟨raw, m, h1, _, h2⟩, _⟩ := C11_refuted
  exact h2 (h raw m h1)

/-- The full statement of C26. -/
def C26 : Prop :=
  (∀ (t : VTree) raw d x, t.length = 2 ^ (d + 1) - 1 → 2 ^ d - 1 ≤ x → nodeAt t x ≠ none → encTree t = .ok raw → unmarshal decTree raw = .ok t) ∧
    ∀ raw t, unmarshal decTree raw = .ok t → Spec.IsTree t

/-- The first half of C26 holds: decoding gives back the tree. Missing: that what is decoded is a tree, with leaves and parents
in their places; it has the length of one. -/
theorem C26_partial :
    (∀ (t : VTree) raw d x, t.length = 2 ^ (d + 1) - 1 → 2 ^ d - 1 ≤ x → nodeAt t x ≠ none → encTree t = .ok raw → unmarshal decTree raw = .ok t) ∧
      ∀ raw (t : VTree), unmarshal decTree raw = .ok t → ∃ k, k ≤ 31 ∧ t.length = 2 ^ k - 1 :=
  ⟨fun _ _ _ _ hl hx hn h => C26_roundtrip hl hx hn h, fun _ _ h => C26_decoded_length h⟩

theorem C26_false : ¬ C26 := fun h => by
  obtain ⟨raw, t, h1, h2⟩ := C26_kinds_refuted
  exact h2 (h.2 raw t h1)

/-- The full statement of C64. -/
def C64 : Prop := ∀ raw raw' t, unmarshal decTree raw = .ok t → unmarshal decTree raw' = .ok t → raw = raw'

theorem C64_false : ¬ C64 := fun h => by
  obtain ⟨raw, raw', t, h1, h2, h3, _⟩ := C64_refuted
  exact h1 (h raw raw' t h2 h3)

/-- C64 holds of byte strings that are encodings of trees with a node in the right half. Missing: others, with blank nodes at the end. -/
theorem C64_partial {t t' u : VTree} {raw raw' : Bytes} {d d' x x' : Nat} (hl : t.length = 2 ^ (d + 1) - 1) (hx : 2 ^ d - 1 ≤ x) (hn : nodeAt t x ≠ none)
    (hl' : t'.length = 2 ^ (d' + 1) - 1) (hx' : 2 ^ d' - 1 ≤ x') (hn' : nodeAt t' x' ≠ none) (h : encTree t = .ok raw) (h' : encTree t' = .ok raw')
    (hu : unmarshal decTree raw = .ok u) (hu' : unmarshal decTree raw' = .ok u) : raw = raw' := by
  rw [C26_roundtrip hl hx hn h] at hu
  rw [C26_roundtrip hl' hx' hn' h'] at hu'
  cases hu
  cases hu'
  rw [h] at h'
  exact Res.ok.inj h'

/-- Such a tree, with two leaves. -/
example : ∃ raw, encTree [some (Node.leaf (toyLeaf 0)), none, some (Node.leaf (toyLeaf 1))] = .ok raw ∧ 2 ^ 1 - 1 ≤ 2 ∧
    nodeAt [some (Node.leaf (toyLeaf 0)), none, some (Node.leaf (toyLeaf 1))] 2 ≠ none := by
  have key : (encTree [some (Node.leaf (toyLeaf 0)), none, some (Node.leaf (toyLeaf 1))]).holds (fun _ => true) = true := by decide +kernel
  obtain ⟨raw, h, -⟩ := Res.holds_ok key
  exact ⟨raw, h, by decide, fun h => by cases h⟩

/-- The full statement of C100. -/
def C100 (pr : Prims) : Prop := ∀ raw k, unmarshalKeyPackage raw = .ok k → (k.generateRef pr).Fine

theorem C100_false : ∀ pr, ¬ C100 pr := fun pr h => by
  obtain ⟨raw, k, h1, h2⟩ := C100_refuted
  have := (h raw k h1).1
  exact this (h2 pr)

/-! ### Proposal lists -/

/-- The full statement of C34. -/
def C34 : Prop := ∀ (ps : List Proposal) (ss : List UInt32) (committer : UInt32), ps.length = ss.length → verifyProposalList ps ss committer = .ok () →
  (((ps.zip ss).filterMap Spec.target).map Spec.position).Nodup ∧ Spec.position committer ∉ ((ps.zip ss).filterMap Spec.target).map Spec.position

theorem C34_false : ¬ C34 := fun h =>
  absurd (h [.remove 2147483648, .remove 1, .remove 2147483649] [0, 0, 0] 0 rfl (by decide)).1 (by decide)

/-! ### Joining -/

/-- A welcome of the member `0`, who has the first leaf of this tree, for `joiner`, whose leaf is in it too. -/
def toyWelcomeFor (tree : VTree) (joiner : UInt8) : Res Welcome := do
  let (a, _) ← toyTwo
  let treeHash ← computeRootTreeHash toyPrims 1 tree
  let ctx := { a.group.groupContext with treeHash }
  let psk ← extractPSKSecret toyPrims 1 [] []
  let joinerSecret := List.replicate 32 5
  let es ← ctx.extractEpochSecret toyPrims joinerSecret (some psk)
  let confirmationTag ← ctx.signConfirmationTag toyPrims es
  let rawTree ← (encTree tree : Res Bytes)
  let info : GroupInfo := { groupContext := ctx, extensions := [{ ty := 2, data := rawTree }], confirmationTag, signer := 0, signature := [] }
  let info ← info.sign toyPrims [11, 0] []
  let encryptedGroupInfo ← info.encrypt toyPrims joinerSecret psk
  let gs : GroupSecrets := { joinerSecret, pathSecret := none, psks := [] }
  let secrets ← encryptSecretsLoop toyPrims 1 gs encryptedGroupInfo (fun _ => []) 0 [(toyMember joiner).pub]
  return { cipherSuite := 1, secrets, encryptedGroupInfo }

/-- `t` with the leaf of `5` to the right of it, in a tree of four leaves. -/
def toyBeside (t : VTree) : VTree := t ++ [none, some (.leaf (toyMember 5).pub.leafNode), none, none]

/-- Who joins with the welcome for such a tree is in a group with it. -/
theorem toyBeside_joins {t : VTree} (h : (toyWelcomeFor (toyBeside t) 5).holds (fun w => (groupFromWelcome toyPrims w (toyMember 5) toyNow).holds
    fun st => decide (st.vtree = toyBeside t)) = true) :
    ∃ w st, groupFromWelcome toyPrims w (toyMember 5) toyNow = .ok st ∧ st.vtree = toyBeside t := by
  obtain ⟨w, -, h⟩ := Res.holds_ok h
  obtain ⟨st, h1, h⟩ := Res.holds_ok h
  exact ⟨w, st, h1, of_decide_eq_true h⟩

/-- The full statement of C30. -/
def C30 (pr : Prims) : Prop := ∀ w kp now st, groupFromWelcome pr w kp now = .ok st →
  ∀ i j l m, nodeAt st.vtree (2 * i) = some (.leaf l) → nodeAt st.vtree (2 * j) = some (.leaf m) → l.credential.ty ∈ m.capabilities.credentials

theorem C30_false : ¬ C30 toyPrims := fun h => by
  obtain ⟨w, st, h1, h2⟩ := toyBeside_joins (t := toyDuplicate) (by decide +kernel)
  refine absurd (h w _ _ st h1 0 1 (toySigned 0 [1, 1] (.keyPackage ⟨1, 2⟩) 0) (toySigned 1 [] (.keyPackage ⟨1, 2⟩) 1) ?_ ?_) (by decide +kernel)
  · rw [h2]; decide +kernel
  · rw [h2]; decide +kernel

/-- The full statement of C66. -/
def C66 (pr : Prims) : Prop := ∀ w kp now st, groupFromWelcome pr w kp now = .ok st →
  ∀ x p li, nodeAt st.vtree x = some (.parent p) → li ∈ p.unmergedLeaves → ∃ l, nodeAt st.vtree (Spec.leafNumber li) = some (.leaf l)

theorem C66_false : ¬ C66 toyPrims := fun h => by
  obtain ⟨w, st, h1, h2⟩ := toyBeside_joins (t := toyCommitted none [1]) (by decide +kernel)
  obtain ⟨l, hl⟩ := h w _ _ st h1 1 { toyParent 1 with unmergedLeaves := [1] } 1 (by rw [h2]; decide +kernel) (by decide)
  rw [h2] at hl
  have : nodeAt (toyBeside (toyCommitted none [1])) (Spec.leafNumber 1) = none := by decide +kernel
  rw [this] at hl
  cases hl

/-- RFC 9420 section 7.9.2, for all parent nodes of a tree. -/
def AllLinked (H : Bytes → Bytes) (t : VTree) : {d : Nat} → Nat → Nat → Ratchet ParentNode d → Prop
  | _, _, _, .leaf _ => True
  | d + 1, off, i, .node p l r =>
    (∀ q, p = some q → Spec.ParentHashLinked H t off i q l r) ∧ AllLinked H t off i l ∧ AllLinked H t (off + 2 ^ (d + 1)) (i + 2 ^ d) r

/-- The full statement of C65. -/
def C65 (pr : Prims) : Prop := ∀ w kp now st sd d (s : Ratchet ParentNode d), groupFromWelcome pr w kp now = .ok st →
  suite st.group.groupContext.cipherSuite = .ok sd → st.vtree = s.flat .leaf .parent → AllLinked (pr.hash sd.hash) st.vtree 0 0 s

theorem C65_false : ¬ C65 toyPrims := fun h => by
  obtain ⟨w, st, h1, h2⟩ := toyBeside_joins (t := toyUnmergedCommitter) (by decide +kernel)
  obtain ⟨sd, hsd⟩ := ((Reachable.join h1).inv toyPrims_correct).suite
  obtain ⟨l0, hl0⟩ : ∃ l0, l0 = (match nodeAt toyUnmergedCommitter 0 with
    | some (.leaf l) => l
    | _ => toyLeaf 0) := ⟨_, rfl⟩
  have hf : st.vtree = (Ratchet.node none (.node (some { toyParent 1 with unmergedLeaves := [0] }) (.leaf (some l0))
      (.leaf (some (toySigned 1 [1] (.keyPackage ⟨1, 2⟩) 1)))) (.node none (.leaf (some (toyMember 5).pub.leafNode)) (.leaf none))).flat .leaf .parent := by
    rw [h2, hl0]; decide +kernel
  have hlink := (h w _ _ st sd 2 _ h1 hsd hf).2.1.1 _ rfl
  rw [h2] at hlink
  obtain ⟨lh, rh, li, ri, -, -, -, -, ⟨D, hD, _, hm⟩ | ⟨D, hD, ⟨n, hn, hph⟩, _⟩⟩ := hlink
  · have h0 := (hm 0).2 ⟨0, List.mem_singleton.2 rfl, rfl, by decide, by decide⟩
    simp only [Ratchet.resolution, List.mem_singleton] at hD
    exact h0.2 hD.symm
  · simp only [Ratchet.resolution, List.mem_singleton] at hD
    subst hD
    have hn' : nodeAt (toyBeside toyUnmergedCommitter) (0 + 2 ^ (0 + 1)) =
        some (.leaf (toySigned 1 [1] (.keyPackage ⟨1, 2⟩) 1)) := by decide +kernel
    rw [hn'] at hn
    cases hn
    have hl := toyPrims_correct.hash_length sd.hash ri
    rw [← hph] at hl
    have : (0 : Nat) = sd.hash.size := by rw [← hl]; decide +kernel
    revert this
    cases sd.hash <;> decide

/-- The full statement of C72. -/
def C72 (pr : Prims) : Prop := ∀ w kp now, (groupFromWelcome pr w kp now).Fine

theorem C72_false : ¬ C72 toyPrims := fun h => by
  obtain ⟨w, kp, now, hp⟩ := C72_refuted
  exact (h w kp now).1 hp

/-- The full statement of C77. -/
def C77 (pr : Prims) : Prop := ∀ st, Reachable pr st → Spec.SnugTree st.vtree ∧ ∀ raw, encTree st.vtree = .ok raw → unmarshal decTree raw = .ok st.vtree

/-- C77 for groups that were created: it holds through any history. Missing: groups that were joined with a welcome whose tree was already
larger than needed. -/
theorem C77_partial {pr : Prims} (hc : pr.Correct) {id : Bytes} {kp : KeyPairPackage} {rand : Nat → UInt8} {st st' : GroupState}
    (h : createGroup pr id kp rand = .ok st) (hs : Spec.Since pr st st') {raw : Bytes} (he : encTree st'.vtree = .ok raw) :
    Spec.SnugTree st'.vtree ∧ unmarshal decTree raw = .ok st'.vtree := C77_created hc h hs he

theorem C77_false : ¬ C77 toyPrims := fun h => by
  obtain ⟨w, st, raw, w2, raw2, h1, h2, _⟩ := C77_refuted
  exact h2 (h st (.join h1)).1

/-- The full statement of C63. -/
def C63 (pr : Prims) : Prop := ∀ id kp rand st, createGroup pr id kp rand = .ok st → st.group.groupContext.confirmedTranscriptHash = []

/-- What the transcript hashes of a created group are instead. Missing: that the confirmed transcript hash is empty; it never is. -/
theorem C63_partial (pr : Prims) (groupID : Bytes) (kp : KeyPairPackage) (rand : Nat → UInt8) (st : GroupState)
    (h : createGroup pr groupID kp rand = .ok st) :
    ∃ d, (kp.pub.cipherSuite.toNat, d) ∈ Spec.suites ∧
      st.group.groupContext.confirmedTranscriptHash = List.replicate d.hash.size 0 ∧
      st.group.interimTranscriptHash = pr.hash d.hash (List.replicate d.hash.size 0 ++
        Spec.vec (pr.mac d.hash (Spec.deriveSecret pr d st.group.epochSecret "confirm") (List.replicate d.hash.size 0))) := by
  obtain ⟨d, h1, h2, h3, _⟩ := C52_transcript pr groupID kp rand st h
  exact ⟨d, h1, h2, h3⟩

theorem C63_false : ¬ C63 toyPrims := fun h => by
  obtain ⟨st, hst, -⟩ := Res.holds_ok (x := toyCreated) (f := fun _ => true) (by decide +kernel)
  exact C63_refuted _ _ _ _ _ hst (h _ _ _ _ hst)

end Mls.Full
