import Verif.Props.Process
import Verif.Props.Welcomed
import Verif.Props.Sending
/-
Property C114: what CreateGroup and GroupFromWelcome make, completely.
-/
namespace Mls

open Spec (Ratchet nodeAt)

variable {pr : Prims}

/-! ### Specification -/

/-- RFC 9420 sections 8 and 11: what the creator of the group `id` knows. `th` is the tree hash of the tree with their leaf alone,
`secret` the epoch secret. (The confirmed transcript hash of the RFC is empty: C63.) -/
def Spec.created (pr : Prims) (sd : SuiteDesc) (id : Bytes) (kp : KeyPairPackage) (th secret : Bytes) : Spec.View where
  nodes := [some (.leaf kp.pub.leafNode)]
  context :=
    { version := kp.pub.version, cipherSuite := kp.pub.cipherSuite, groupID := id, epoch := 0, treeHash := th
      confirmedTranscriptHash := List.replicate sd.hash.size 0, extensions := [] }
  interim := Spec.interimHash pr sd (List.replicate sd.hash.size 0) (Spec.confirmationTag pr sd secret (List.replicate sd.hash.size 0))
  pskSecret := List.replicate sd.kdf.size 0
  epochSecret := secret
  initSecret := Spec.deriveSecret pr sd secret "init"
  my := 0
  keys := [some kp.priv.encryptionKey]
  signaturePriv := kp.priv.signatureKey
  pending := []

/-- The private keys of a joiner at leaf `r` of a tree of depth `d`, invited by the member at leaf `i`: the key of the key package, and, with a
path secret, that of all nodes from where the two leaves meet up to the root (the lowest has that of the path secret, the others that of the
next one, as in Spec.SecretFits). -/
def Spec.JoinKeys (pr : Prims) (sd : SuiteDesc) (d i r : Nat) (key : Bytes) (o : Option Bytes) (keys : List (Option Bytes)) : Prop :=
  keys.length = 2 ^ (d + 1) - 1 ∧
  match o with
  | none => ∀ x, (keys[x]?).join = if x = 2 * r then some key else none
  | some ps => ∃ m, m ≤ d ∧ i / 2 ^ m = r / 2 ^ m ∧ (∀ m' < m, i / 2 ^ m' ≠ r / 2 ^ m') ∧
      (∀ j, m ≤ j → j ≤ d →
        keys[idx j (r / 2 ^ j)]? = some (some (Spec.nodeKeys pr sd (Spec.pathSecret pr sd ps (if j = m then 0 else 1))).2)) ∧
      ∀ x, (∀ j, m ≤ j → j ≤ d → x ≠ idx j (r / 2 ^ j)) → (keys[x]?).join = if x = 2 * r then some key else none

/-- RFC 9420 section 12.4.3.1: what the joiner knows. -/
def Spec.joined (pr : Prims) (sd : SuiteDesc) (kp : KeyPairPackage) (gs : GroupSecrets) (info : GroupInfo) (t : VTree) (li : Nat) (raw : Bytes)
    (keys : List (Option Bytes)) : Spec.View where
  nodes := t
  context := info.groupContext
  interim := Spec.interimHash pr sd info.groupContext.confirmedTranscriptHash info.confirmationTag
  pskSecret := List.replicate sd.kdf.size 0
  epochSecret := Spec.epochSecret pr sd gs.joinerSecret (List.replicate sd.kdf.size 0) raw
  initSecret := Spec.deriveSecret pr sd (Spec.epochSecret pr sd gs.joinerSecret (List.replicate sd.kdf.size 0) raw) "init"
  my := UInt32.ofNat li
  keys := keys
  signaturePriv := kp.priv.signatureKey
  pending := []

/-! ### The keys of the joiner -/

theorem Spec.JoinKeys.unique {sd : SuiteDesc} {d i r : Nat} {key : Bytes} {o : Option Bytes} {k1 k2 : List (Option Bytes)}
    (h1 : Spec.JoinKeys pr sd d i r key o k1) (h2 : Spec.JoinKeys pr sd d i r key o k2) : k1 = k2 := by
  have ext : (∀ x : Nat, (k1[x]?).join = (k2[x]?).join) → k1 = k2 := by
    intro h
    have hl : k1.length = k2.length := h1.1.trans h2.1.symm
    apply List.ext_getElem hl
    intro x a b
    have := h x
    rw [List.getElem?_eq_getElem a, List.getElem?_eq_getElem b] at this
    simpa using this
  apply ext
  intro x
  obtain ⟨_, h1⟩ := h1
  obtain ⟨_, h2⟩ := h2
  cases o with
  | none => rw [h1 x, h2 x]
  | some ps =>
    obtain ⟨m, a1, a2, a3, a4, a5⟩ := h1
    obtain ⟨m', b1, b2, b3, b4, b5⟩ := h2
    obtain rfl : m = m' := by
      rcases Nat.lt_trichotomy m m' with h | h | h
      · exact absurd a2 (b3 _ h)
      · exact h
      · exact absurd b2 (a3 _ h)
    by_cases hx : ∃ j, m ≤ j ∧ j ≤ d ∧ x = idx j (r / 2 ^ j)
    · obtain ⟨j, c1, c2, rfl⟩ := hx
      rw [a4 j c1 c2, b4 j c1 c2]
    · have : ∀ j, m ≤ j → j ≤ d → x ≠ idx j (r / 2 ^ j) := fun j c1 c2 c3 => hx ⟨j, c1, c2, c3⟩
      rw [a5 x this, b5 x this]

theorem joinKeys_of (hc : pr.Correct) {cs : UInt16} {sd : SuiteDesc} (hsd : suite cs = .ok sd) {v : VTree} {d i r : Nat}
    (hd : d ≤ 31) (hl : v.length = 2 ^ (d + 1) - 1) (hi : i < 2 ^ d) (hr : r < 2 ^ d) {signer : UInt32} (hsg : signer.toNat % 2 ^ 31 = i)
    {ek : Bytes} {o : Option Bytes} {keys : List (Option Bytes)} (h : joinerPrivTree pr cs v r signer ek o = .ok keys) :
    Spec.JoinKeys pr sd d i r ek o keys := by
  have h31 : 2 ^ d ≤ 2 ^ 31 := Nat.pow_le_pow_right (by decide) hd
  have hr31 : r < 2 ^ 31 := by omega
  have hi31 : i < 2 ^ 31 := by omega
  have hlt : idx 0 r < (List.replicate v.length (none : Option Bytes)).length := by
    rw [idx_zero, List.length_replicate, hl, Nat.pow_succ]; omega
  have hset : ∀ x : Nat, ((((List.replicate v.length none).set (idx 0 r) (some ek)))[x]?).join = if x = 2 * r then some ek else none := by
    intro x
    rw [List.getElem?_set, idx_zero]
    rw [idx_zero] at hlt
    by_cases hx : 2 * r = x
    · subst hx
      rw [if_pos rfl, if_pos hlt, if_pos rfl]
      rfl
    · rw [if_neg hx, if_neg (fun h => hx h.symm), List.getElem?_replicate]
      split <;> rfl
  cases o with
  | none =>
    unfold joinerPrivTree at h
    simp only [nodeOfLeaf_idx hr31, Res.setIdx_of_lt _ hlt, Res.ok_bind] at h
    cases h
    exact ⟨by simp [hl], hset⟩
  | some ps =>
    obtain ⟨m, hmeet, hmin, hca⟩ := commonAncestor_leaves hr31 hi31
    have hmd : m ≤ d := hmin d (by rw [Nat.div_eq_of_lt hi, Nat.div_eq_of_lt hr])
    have hnl : nodeOfLeaf signer.toNat = idx 0 i := by rw [nodeOfLeaf_mod31, hsg, idx_zero]
    have hlt2 : idx m (r / 2 ^ m) < v.length := by
      rw [hl]
      exact idx_lt_tree hmd hr
    unfold joinerPrivTree processPathSecret at h
    simp only [hnl, nodeOfLeaf_idx hr31, hca, Res.setIdx_of_lt _ hlt, Res.ok_bind, Res.bind_ok_iff] at h
    obtain ⟨pub, h1, priv, h2, pt, h3, h4⟩ := h
    rw [Res.setIdx_ok_iff] at h3
    obtain ⟨_, rfl⟩ := h3
    rw [nodePriv_iff hc hsd] at h2
    obtain ⟨g1, g2⟩ := processPathSecretLoop_exact hc hsd hd hr (numLeaves_pow hd hl) _ _ _ _ hmd h4
    have hpriv : priv = (Spec.nodeKeys pr sd (Spec.pathSecret pr sd ps 0)).2 := (congrArg Prod.snd h2.2).symm
    have hlow : keys[idx m (r / 2 ^ m)]? = some (some priv) := by
      rw [g2 _ ?_, List.getElem?_set, if_pos rfl, if_pos (by simpa using hlt2)]
      intro j hj hjd he
      have := (idx_inj he).1
      omega
    refine ⟨?_, m, hmd, hmeet.symm, fun m' hm' he => absurd (hmin m' he.symm) (by omega), fun j hj hjd => ?_, fun x hx => ?_⟩
    · rw [(processPathSecretLoop_ok hd hr (numLeaves_pow hd hl) _ _ _ _ hmd h4).1]
      simp [hl]
    · rcases Nat.eq_or_lt_of_le hj with rfl | hlt'
      · rw [if_pos rfl, hlow, hpriv]
      · rw [if_neg (by omega)]
        obtain ⟨q, _, _, g3⟩ := g1 j hlt' hjd
        exact g3
    · rw [g2 x fun j hj hjd => hx j (by omega) hjd, List.getElem?_set, if_neg (fun he => hx m (Nat.le_refl _) hmd he.symm)]
      exact hset x

/-! ### C114 -/

/-- **C114**: CreateGroup succeeds exactly if the suite is known and the leaf has a tree hash, that is, an encoding; and what the creator then
knows is Spec.created. -/
theorem C114_created (hc : pr.Correct) (id : Bytes) (kp : KeyPairPackage) (rand : Nat → UInt8) (v : Spec.View) :
    (∃ st, createGroup pr id kp rand = .ok st ∧ st.view = v) ↔
      ∃ sd th, (kp.pub.cipherSuite.toNat, sd) ∈ Spec.suites ∧
        Spec.Rfc.treeHash (pr.hash sd.hash) 0 (Ratchet.leaf (P := ParentNode) (some kp.pub.leafNode)) = some th ∧
        v = Spec.created pr sd id kp th ((List.range sd.kdf.size).map rand) := by
  have hflat : derefTree [] [some (TNode.leaf kp.pub.leafNode)] = (Ratchet.leaf (P := ParentNode) (some kp.pub.leafNode)).flat .leaf .parent := rfl
  have hset : Res.setIdx (List.replicate ([some (TNode.leaf kp.pub.leafNode)] : RTree).length (none : Option Bytes)) 0
      (some kp.priv.encryptionKey) = .ok [some kp.priv.encryptionKey] := rfl
  have key : ∀ sd th, suite kp.pub.cipherSuite = .ok sd →
      computeRootTreeHash pr kp.pub.cipherSuite (derefTree [] [some (TNode.leaf kp.pub.leafNode)]) = .ok th →
      ∃ st, createGroup pr id kp rand = .ok st ∧ st.view = Spec.created pr sd id kp th ((List.range sd.kdf.size).map rand) := by
    intro sd th hsd hth
    have h1 : ∀ (ctx : GroupContext) (e : Bytes), ctx.cipherSuite = kp.pub.cipherSuite →
        ctx.signConfirmationTag pr e = .ok (Spec.confirmationTag pr sd e ctx.confirmedTranscriptHash) := by
      intro ctx e he
      unfold GroupContext.signConfirmationTag signMAC
      rw [he, deriveSecret_eq hsd _ lblConfirm_name (by decide), hsd]
      rfl
    have h2 := nextInterim_of (pr := pr) hsd (List.replicate sd.hash.size 0)
      (tag := Spec.confirmationTag pr sd ((List.range sd.kdf.size).map rand) (List.replicate sd.hash.size 0)) (by
        unfold Spec.confirmationTag
        rw [hc.mac_length]
        cases sd.hash <;> decide)
    have h3 := C38_none pr _ sd hsd
    have h4 := deriveSecret_eq (pr := pr) hsd ((List.range sd.kdf.size).map rand) lblInit_name (by decide)
    unfold createGroup
    rw [treeAdd_single]
    simp only [Res.ok_bind]
    rw [hset]
    simp only [Res.ok_bind]
    rw [hth, hsd]
    simp only [Res.ok_bind, randBytes]
    rw [h1 _ _ rfl]
    simp only [Res.ok_bind]
    rw [h2, h3, h4]
    exact ⟨_, rfl, rfl⟩
  constructor
  · rintro ⟨st, h, rfl⟩
    have h' := h
    unfold createGroup at h
    rw [treeAdd_single] at h
    simp only [Res.ok_bind, Res.bind_ok_iff] at h
    obtain ⟨_, _, th, hth, sd, hsd, _⟩ := h
    obtain ⟨st', h1, h2⟩ := key sd th hsd hth
    rw [h'] at h1
    cases h1
    rw [hflat, C102_tree_hash hc hsd (by decide)] at hth
    exact ⟨sd, th, (suite_iff_spec _ _).1 hsd, hth, h2⟩
  · rintro ⟨sd, th, hsd, hth, rfl⟩
    rw [← suite_iff_spec] at hsd
    rw [← C102_tree_hash hc hsd (by decide), ← hflat] at hth
    exact key sd th hsd hth

/-- **C114**: GroupFromWelcome succeeds exactly with the welcomes of Spec.WelcomeOk (C106), and what the joiner then knows is Spec.joined. -/
theorem C114_joined (hc : pr.Correct) (w : Welcome) (kp : KeyPairPackage) (now : GoTime) (v : Spec.View) :
    (∃ st, groupFromWelcome pr w kp now = .ok st ∧ st.view = v) ↔
      ∃ (sk sd : SuiteDesc) (ref : Bytes) (entry : EncryptedGroupSecrets) (gs : GroupSecrets) (info : GroupInfo) (t : VTree) (d : Nat)
        (s : Ratchet ParentNode d) (signer own : LeafNode) (li : Nat) (raw : Bytes) (keys : List (Option Bytes)),
        Spec.WelcomeOk pr w kp now sk sd ref entry gs info t d s signer own li raw ∧
        Spec.JoinKeys pr sd d (info.signer.toNat % 2 ^ 31) li kp.priv.encryptionKey gs.pathSecret keys ∧
        v = Spec.joined pr sd kp gs info t li raw keys := by
  have key : ∀ {sk sd : SuiteDesc} {ref : Bytes} {entry : EncryptedGroupSecrets} {gs : GroupSecrets} {info : GroupInfo} {t : VTree} {d : Nat}
        {s : Ratchet ParentNode d} {signer own : LeafNode} {li : Nat} {raw : Bytes},
        Spec.WelcomeOk pr w kp now sk sd ref entry gs info t d s signer own li raw →
      ∃ st keys, groupFromWelcome pr w kp now = .ok st ∧
        Spec.JoinKeys pr sd d (info.signer.toNat % 2 ^ 31) li kp.priv.encryptionKey gs.pathSecret keys ∧
        st.view = Spec.joined pr sd kp gs info t li raw keys := by
    intro sk sd ref entry gs info t d s signer own li raw g
    obtain ⟨pt, h1, h2⟩ := joined_of hc g
    have hd : d ≤ 31 := by have := g.depth; omega
    have hlen : t.length = 2 ^ (d + 1) - 1 := by rw [g.valid.array, flat_length]
    have hsg : info.signer.toNat % 2 ^ 31 < 2 ^ d := by
      have := (List.getElem?_eq_some_iff.1 g.sender).1
      have hpd : 2 ^ (d + 1) = 2 * 2 ^ d := by rw [Nat.pow_succ]; omega
      omega
    have hsd' : suite info.groupContext.cipherSuite = .ok sd := by rw [g.sameSuite]; exact (suite_iff_spec _ _).2 g.suite
    refine ⟨_, pt, h2, joinKeys_of hc hsd' hd hlen hsg g.inside rfl h1, ?_⟩
    unfold GroupState.view Spec.joined
    simp only [Spec.View.mk.injEq, and_true]
    exact (deref_alloc t []).2
  constructor
  · rintro ⟨st, h, rfl⟩
    obtain ⟨sk, sd, ref, entry, gs, info, t, d, s, signer, own, li, raw, g⟩ := (C106_joins hc w kp now).1 ⟨st, h⟩
    obtain ⟨st', keys, h1, h2, h3⟩ := key g
    rw [h] at h1
    cases h1
    exact ⟨sk, sd, ref, entry, gs, info, t, d, s, signer, own, li, raw, keys, g, h2, h3⟩
  · rintro ⟨sk, sd, ref, entry, gs, info, t, d, s, signer, own, li, raw, keys, g, h2, rfl⟩
    obtain ⟨st', keys', h1, h2', h3⟩ := key g
    rw [h2.unique h2']
    exact ⟨st', h1, h3⟩

/-- There are such states: the group just created; the one of a joiner without path secret, who knows the key of their leaf only; and the one of a
joiner with a path secret, who knows that key and the keys of the nodes from the common ancestor with the inviter up. -/
example : (do
    let a ← toyCreated
    let (_, w) ← a.invite [1, 2]
    let b ← groupFromWelcome toyPrims w (toyMember 2) toyLater
    let (_, _, w) ← toyInvitation [1, 2] [.remove 1, .add (toyMember 5).pub] 2 (List.replicate 32 9) 5
    let c ← groupFromWelcome toyPrims w (toyMember 5) toyLater
    return (a, b, c)).holds (fun (a, b, c) =>
      decide (a.view.keys = [some (toyMember 0).priv.encryptionKey]) && decide (a.view.context.epoch = 0) &&
      decide (a.view.epochSecret = List.replicate 32 3) &&
      decide (b.view.keys = [none, none, none, none, some (toyMember 2).priv.encryptionKey, none, none]) && decide (b.view.context.epoch = 1) &&
      decide (c.view.keys.map Option.isSome = [false, true, true, true, false, false, false]) &&
      decide (c.view.keys[2]? = some (some (toyMember 5).priv.encryptionKey)) && decide (c.view.context.epoch = 2)) = true := by decide +kernel

end Mls
