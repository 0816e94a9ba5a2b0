import Verif.Proofs.Removed
import Verif.Spec.ToyHistory
/-
C20, C55, C68: what holds of every group reached from CreateGroup or GroupFromWelcome by processing
messages and inviting members.
-/
namespace Mls

open Spec (Ratchet ITree nodeAt IsAncestor)

/-! ### Concrete histories -/

theorem Reachable.after {st st' : GroupState} (h : Reachable toyPrims st) {raw : Bytes} (he : st.after raw = .ok st') :
    Reachable toyPrims st' := by
  unfold GroupState.after at he
  split at he <;> try cases he
  next hm => exact .message h hm ⟨by simp, by simp⟩

theorem Reachable.invited {st st' : GroupState} (h : Reachable toyPrims st) {names : List UInt8} {w : Welcome}
    (he : st.invite names = .ok (st', w)) : Reachable toyPrims st' := by
  unfold GroupState.invite at he
  split at he <;> try cases he
  next w raw st1 hm =>
    simp only [Res.bind_ok_iff] at he
    obtain ⟨st2, h2, he⟩ := he
    cases he
    exact (Reachable.invite h hm ⟨by simp, by simp⟩).after h2

theorem toyTwo_reachable {a b : GroupState} (h : toyTwo = .ok (a, b)) : Reachable toyPrims a ∧ Reachable toyPrims b := by
  unfold toyTwo at h
  simp only [Res.bind_ok_iff] at h
  obtain ⟨a0, h0, ⟨a1, w⟩, h1, b1, h2, h⟩ := h
  cases h
  exact ⟨(Reachable.create h0).invited h1, .join h2⟩

theorem toyTwoUpdated_reachable {a : GroupState} (h : toyTwoUpdated = .ok a) : Reachable toyPrims a := by
  unfold toyTwoUpdated at h
  simp only [Res.bind_ok_iff] at h
  obtain ⟨⟨a0, b0⟩, h0, h1⟩ := h
  exact (toyTwo_reachable h0).1.after h1

/-! ### C20 for groups -/

/-- **C20**, for groups: the array of every group in use has 2^(d+1) - 1 nodes, leaves at even and parents at odd
positions; the member's own leaf is inside, and there is one slot for a private key per node. -/
theorem C20_groups {pr : Prims} (hc : pr.Correct) {st : GroupState} (hr : Reachable pr st) :
    ∃ d, d ≤ 31 ∧ st.group.tree.length = 2 ^ (d + 1) - 1 ∧ st.group.privTree.length = 2 ^ (d + 1) - 1 ∧
      st.group.myLeafIndex.toNat < 2 ^ d ∧
      (∀ x l, nodeAt st.vtree x = some (.leaf l) → x % 2 = 0) ∧
      (∀ x q, nodeAt st.vtree x = some (.parent q) → x % 2 = 1) ∧
      ∃ s : Ratchet ParentNode d, st.vtree = s.flat .leaf .parent := by
  have hi := hr.inv hc
  obtain ⟨d, hd, s, hs⟩ := hi.tree.holds
  have hl := hs.length
  have := hi.own
  have hp : 2 ^ (d + 1) = 2 * 2 ^ d := by rw [Nat.pow_succ]; omega
  refine ⟨d, hd, hl, by rw [hi.length, hl], by omega, fun x l hx => ?_, fun x q hx => ?_, s, hs.flat⟩
  · rw [nodeAt_some] at hx
    unfold GroupState.vtree at hx
    rw [derefTree_get] at hx
    cases ht : st.group.tree[x]? with
    | none => rw [ht] at hx; simp at hx
    | some o =>
      rw [ht] at hx
      cases o with
      | none => simp at hx
      | some n =>
        cases n with
        | leaf l' => exact hi.tree.leaves ht
        | parent p => simp [TNode.deref] at hx
  · obtain ⟨p, hp, _⟩ := nodeAt_parent.1 hx
    exact hi.tree.parents hp

/-! ### C68 -/

/-- **C68.** Whatever a member of a group has processed: each private key it holds is that of its own leaf or of a
node above it; and the key it holds for a parent node that is not blank is the one that was derived together
with that node's public key. -/
theorem C68_keys {pr : Prims} (hc : pr.Correct) {st : GroupState} (hr : Reachable pr st) :
    ∃ d sd, st.group.tree.length = 2 ^ (d + 1) - 1 ∧ suite st.group.groupContext.cipherSuite = .ok sd ∧
      (∀ x k, st.group.privTree[x]? = some (some k) →
        x = 2 * st.group.myLeafIndex.toNat ∨ IsAncestor d st.group.myLeafIndex.toNat x) ∧
      ∀ x q k, nodeAt st.vtree x = some (.parent q) → st.group.privTree[x]? = some (some k) →
        ∃ seed, pr.kemDeriveKeyPair sd.kem seed = (q.encryptionKey, k) := by
  obtain ⟨d, _, hl, hp, _⟩ := C20_groups hc hr
  have hi := hr.inv hc
  obtain ⟨sd, hsd⟩ := hi.suite
  refine ⟨d, sd, hl, hsd, fun x k hx => (hi.held x k hx).imp id fun ho => ?_, fun x q k h1 h2 => ?_⟩
  · have := (List.getElem?_eq_some_iff.1 hx).1
    exact (ho.inside (by omega)).2
  · obtain ⟨sd', seed, h3, h4⟩ := hi.keys x q k h1 h2
    rw [hsd] at h3
    cases h3
    exact ⟨seed, h4⟩

/-- **C68**, in use: what is encrypted to the public key of a parent node, under any label and context, is
decrypted by the key a member holds for that node. -/
theorem C68_opens {pr : Prims} (hc : pr.Correct) {st : GroupState} (hr : Reachable pr st) {x : Nat} {q : ParentNode}
    {k label context plaintext rand : Bytes} {c : HpkeCiphertext} (hq : nodeAt st.vtree x = some (.parent q))
    (hk : st.group.privTree[x]? = some (some k))
    (he : encryptWithLabel pr st.group.groupContext.cipherSuite q.encryptionKey label context plaintext rand = .ok c) :
    decryptWithLabel pr st.group.groupContext.cipherSuite k label context c = .ok plaintext := by
  obtain ⟨_, sd, _, hsd, _, h⟩ := C68_keys hc hr
  obtain ⟨seed, hs⟩ := h x q k hq hk
  unfold encryptWithLabel at he
  simp only [Res.bind_ok_iff, hsd, Res.ok.injEq, orErr_ok_iff] at he
  obtain ⟨ec, h1, sd', rfl, ⟨ko, ct⟩, h2, he⟩ := he
  cases he
  have hs1 : q.encryptionKey = (pr.kemDeriveKeyPair sd.kem seed).1 := by rw [hs]
  have hs2 : k = (pr.kemDeriveKeyPair sd.kem seed).2 := by rw [hs]
  rw [hs1] at h2
  have := hc.hpke_open_derive sd seed ec plaintext rand ko ct h2
  rw [← hs2] at this
  unfold decryptWithLabel
  rw [h1]
  simp only [Res.ok_bind, hsd, this]
  rfl

/-- A member that received a commit with a path holds the key of the root, which has the same public key in the tree;
before the commit it held only that of its leaf. -/
example : (match toyTwo with | .ok (a, _) => decide (a.group.privTree = [some [10, 0], none, none] ∧ nodeAt a.vtree 1 = none) | _ => false) = true ∧
    (match toyTwoUpdated with
      | .ok a => decide (a.group.privTree = [some [10, 0], (nodeAt a.vtree 1).map Node.encryptionKey, none] ∧
          nodeAt a.vtree 1 ≠ none)
      | _ => false) = true := by
  decide +kernel

/-! ### C55 -/

/-- **C55**, what is true of it: a member can follow a commit that removes it only if an Add of the same commit puts
a new leaf in its place. Missing: the case where one does, see C55_refuted. -/
theorem C55_partial {pr : Prims} (hc : pr.Correct) {st st' : GroupState} (hr : Reachable pr st) {raw : Bytes} {now : GoTime}
    {r : Option Bytes} {a : AuthenticatedContent} {e : Bool} {c : Commit} {l : List (Proposal × UInt32)} {li : UInt32}
    (ha : Carries pr st raw a e) (hk : a.content.content = .commit c)
    (hl : Spec.resolve a.content.sender.leafIndex st.group.pendingProposals c.proposals = some l)
    (hm : .remove li ∈ l.map (·.1)) (hli : li = st.group.myLeafIndex)
    (h : unmarshalAndProcessMessage pr st raw now = (.ok r, st')) :
    ∃ k, .add k ∈ l.map (·.1) ∧ nodeAt st'.vtree (2 * st.group.myLeafIndex.toNat) = some (.leaf k.leafNode) := by
  obtain ⟨l', hp, t, h1, h2, h3, h4⟩ := accepted_commit ha hk h
  rw [hl] at h1
  cases h1
  have hi := hr.inv hc
  refine removed_slot hc hi h2 h3 h4 hm ?_
  rw [hli]
  exact Nat.mod_eq_of_lt hi.own_lt

/-- **C55** for commits without Adds: the member that is removed refuses it and stays as it was. -/
theorem C55_noAdd {pr : Prims} (hc : pr.Correct) {st st' : GroupState} (hr : Reachable pr st) {raw : Bytes} {now : GoTime}
    {r : Res (Option Bytes)} {a : AuthenticatedContent} {e : Bool} {c : Commit} {l : List (Proposal × UInt32)}
    (ha : Carries pr st raw a e) (hk : a.content.content = .commit c)
    (hl : Spec.resolve a.content.sender.leafIndex st.group.pendingProposals c.proposals = some l)
    (hm : .remove st.group.myLeafIndex ∈ l.map (·.1)) (hno : ∀ k, .add k ∉ l.map (·.1))
    (h : unmarshalAndProcessMessage pr st raw now = (r, st')) :
    (∀ d, r ≠ .ok d) ∧ st'.group = st.group := by
  have hne : ∀ d, r ≠ .ok d := by
    rintro d rfl
    obtain ⟨k, hk', _⟩ := C55_partial hc hr ha hk hl hm rfl h
    exact hno k hk'
  refine ⟨hne, ?_⟩
  rcases rejected_cases h hne with rfl | ⟨_, _, _, _, _, _, _, _, _, _, _, rfl, _⟩ <;> rfl

/-- A key package with the encryption key of member 0, and another signature key. -/
def toyStandIn : KeyPackage :=
  match generateKeyPairPackage toyPrims 1 (.basic [8])
      { init := [12, 8], enc := [10, 0], sig := [11, 8], leafSign := [], pkgSign := [], now1 := toyNow, now2 := toyNow } with
  | .ok k => k.pub
  | _ => default

/-- The commit of member 1 that removes member 0, on its own and together with an Add of the stand-in. -/
def toyRemoval (a : GroupState) (stand : Bool) : Bytes :=
  toyCommit a 1 1 (if stand then [.remove 0, .add toyStandIn] else [.remove 0]) (List.replicate 32 9) []

/-- C55 is false: when the commit also adds a leaf that takes the removed member's place and has the same
encryption key, the removed member enters the new epoch with the secrets of the committer. -/
theorem C55_refuted : ∃ st raw m c, Reachable toyPrims st ∧
    unmarshal MlsMessage.dec raw = .ok ⟨1, .publicMessage m⟩ ∧ m.content.content = .commit c ∧
    .proposal (.remove st.group.myLeafIndex) ∈ c.proposals ∧
    (unmarshalAndProcessMessage toyPrims st raw toyLater).1 = .ok none ∧
    (unmarshalAndProcessMessage toyPrims st raw toyLater).2.group.groupContext.epoch = st.group.groupContext.epoch + 1 ∧
    (unmarshalAndProcessMessage toyPrims st raw toyLater).2.group.epochSecret ≠ st.group.epochSecret := by
  have key : (match toyTwo with
    | .ok (a, _) =>
      (match unmarshal MlsMessage.dec (toyRemoval a true) with
      | .ok ⟨1, .publicMessage m⟩ =>
        (match m.content.content with
        | .commit c => decide (.proposal (.remove a.group.myLeafIndex) ∈ c.proposals ∧
          (unmarshalAndProcessMessage toyPrims a (toyRemoval a true) toyLater).1 = .ok none ∧
          (unmarshalAndProcessMessage toyPrims a (toyRemoval a true) toyLater).2.group.groupContext.epoch =
            a.group.groupContext.epoch + 1 ∧
          (unmarshalAndProcessMessage toyPrims a (toyRemoval a true) toyLater).2.group.epochSecret ≠ a.group.epochSecret)
        | _ => false)
      | _ => false)
    | _ => false) = true := by decide +kernel
  split at key <;> try cases key
  next a b ht =>
  split at key <;> try cases key
  next m hm =>
  split at key <;> try cases key
  next c hcm =>
  exact ⟨a, toyRemoval a true, m, c, (toyTwo_reachable ht).1, hm, hcm, of_decide_eq_true key⟩

/-- Without the Add the same member refuses it. -/
example : (match toyTwo with
    | .ok (a, _) => decide ((unmarshalAndProcessMessage toyPrims a (toyRemoval a false) toyLater).1 = .err)
    | _ => false) = true := by decide +kernel

end Mls
