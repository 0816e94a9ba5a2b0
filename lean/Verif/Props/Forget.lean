import Verif.Props.Group
import Verif.Props.Invariant
import Verif.Props.Follow
import Verif.Proofs.Commit
/-
C87, C88: which secrets of an epoch are gone afterwards, and which the invited get.
-/
namespace Mls

open Spec (nodeAt)

variable {pr : Prims}

/-- The same member with another epoch secret and another PSK secret. -/
def Spec.withSecrets (st : GroupState) (epochSecret pskSecret : Bytes) : GroupState :=
  { st with group := { st.group with epochSecret, pskSecret } }

/-! ### C87 -/

/-- **C87.** The state after a commit has no trace of the epoch secret and the PSK secret that were in use when it arrived: had they
been any others, the same commit, protected under those, would have led to the same state. -/
theorem C87_forgotten {st st' : GroupState} {raw raw' : Bytes} {now : GoTime} {d : Option Bytes} {a : AuthenticatedContent} {enc enc' : Bool}
    {c : Commit} {e k : Bytes} (h : unmarshalAndProcessMessage pr st raw now = (.ok d, st')) (hr : Carries pr st raw a enc)
    (hr' : Carries pr (Spec.withSecrets st e k) raw' a enc') (hk : a.content.content = .commit c) :
    unmarshalAndProcessMessage pr (Spec.withSecrets st e k) raw' now = (.ok d, st') := by
  rw [upm_of_carries hr] at h
  rw [upm_of_carries hr']
  unfold dispatch at h ⊢
  rw [hk] at h ⊢
  simp only [Prod.mk.injEq] at h
  obtain ⟨h1, h2⟩ := bind_none_ok h.1
  subst h2
  rcases processCommit_cases (pr := pr) st a c hk [] [] now with ⟨ps, ss, hp, t, st1, h3, h4, h5, h6⟩ | ⟨hne, _⟩
  · have e1 : st1 = st' := by rw [← h.2, h6]
    subst e1
    have hf : finishCommit pr (Spec.withSecrets st e k).group hp t a c [] [] now = .ok st1 := h5
    have hc : checkProposals pr (Spec.withSecrets st e k).group a.content.sender.leafIndex c = .ok (ps, ss) := h3
    have ht : treeApply (Spec.withSecrets st e k).heap (Spec.withSecrets st e k).group.tree ps ss = .ok (hp, t) := h4
    have : processCommit pr (Spec.withSecrets st e k) a [] [] now = (.ok (), st1) := by
      unfold processCommit
      rw [hk]
      simp only [hc, ht, hf]
    simp only [this]
    rfl
  · exact absurd h1 hne

/-- Two public messages, seen by members `a` and `a2`, carry the same commit. -/
def sameCommit (a a2 : GroupState) (raw raw' : Bytes) : Bool :=
  (unmarshal MlsMessage.dec raw).holds fun m => (unmarshal MlsMessage.dec raw').holds fun m' =>
    match m, m' with
    | ⟨_, .publicMessage p⟩, ⟨_, .publicMessage p'⟩ => (verifyPublicMessage toyPrims a p).holds fun x =>
        (verifyPublicMessage toyPrims a2 p').holds fun x' => decide (x = x') && x.content.content.ty == .commit
    | _, _ => false

theorem sameCommit_carries {a a2 : GroupState} {raw raw' : Bytes} (h : sameCommit a a2 raw raw' = true) :
    ∃ x c, Carries toyPrims a raw x false ∧ Carries toyPrims a2 raw' x false ∧ x.content.content = .commit c := by
  unfold sameCommit at h
  obtain ⟨m, hm, h⟩ := Res.holds_ok h
  obtain ⟨m', hm', h⟩ := Res.holds_ok h
  split at h
  · rename_i p v' p'
    obtain ⟨x, hx, h⟩ := Res.holds_ok h
    obtain ⟨x', hx', h⟩ := Res.holds_ok h
    simp only [Bool.and_eq_true, decide_eq_true_eq] at h
    obtain ⟨rfl, h⟩ := h
    cases hc : x.content.content with
    | commit c => exact ⟨x, c, .pub hm hx, .pub hm' hx', hc⟩
    | application | proposal => rw [hc] at h; simp [Content.ty] at h
  · cases h

/-- A commit of leaf 1 of `toyPair`, under the epoch secret of `st`. -/
def toyAdding (st : GroupState) : Bytes := toyPublic st 1 1 (.commit ⟨[.proposal (.add (toyKeyPackage 2))], none⟩) [1]

/-- A commit seen by `toyPair`, and the same commit seen by a `toyPair` with another epoch secret. -/
example : ∃ st' a c, toyPair.group.epochSecret ≠ List.replicate 32 9 ∧ Carries toyPrims toyPair (toyAdding toyPair) a false ∧
    Carries toyPrims (Spec.withSecrets toyPair (List.replicate 32 9) [6]) (toyAdding (Spec.withSecrets toyPair (List.replicate 32 9) [6])) a false ∧
    a.content.content = .commit c ∧ unmarshalAndProcessMessage toyPrims toyPair (toyAdding toyPair) toyNow = (.ok none, st') ∧
    st'.group.epochSecret ≠ toyPair.group.epochSecret := by
  have h1 : sameCommit toyPair (Spec.withSecrets toyPair (List.replicate 32 9) [6]) (toyAdding toyPair)
      (toyAdding (Spec.withSecrets toyPair (List.replicate 32 9) [6])) = true := by decide +kernel
  have h2 : (match unmarshalAndProcessMessage toyPrims toyPair (toyAdding toyPair) toyNow with
      | (.ok none, st') => decide (st'.group.epochSecret ≠ toyPair.group.epochSecret)
      | _ => false) = true := by decide +kernel
  obtain ⟨x, c, k1, k2, k3⟩ := sameCommit_carries h1
  split at h2
  · rename_i st' hst
    exact ⟨st', x, c, by decide, k1, k2, k3, hst, by simpa using h2⟩
  · cases h2

theorem pathSecretLoop_blank {cs : UInt16} {t : VTree} : ∀ (xs : List Nat) (ps : Bytes) (pt : List (Option Bytes)) {ps' : Bytes}
    {pt' : List (Option Bytes)}, pathSecretLoop pr cs t xs ps pt = .ok (ps', pt') → ∀ x, nodeAt t x = none → pt'[x]? = pt[x]? := by
  intro xs
  induction xs with
  | nil => intro ps pt ps' pt' h x _; cases h; rfl
  | cons n xs ih =>
    intro ps pt ps' pt' h x hx
    simp only [pathSecretLoop, Res.bind_ok_iff, nodeKey, Res.idx_ok_iff, Res.deref_ok_iff, Res.setIdx_ok_iff] at h
    obtain ⟨_, _, _, ⟨o, h1, q, h2, _⟩, _, _, pt2, ⟨_, rfl⟩, h⟩ := h
    subst h2
    have hne : n ≠ x := by rintro rfl; rw [nodeAt_some.2 h1] at hx; cases hx
    rw [ih _ _ h x hx, List.getElem?_set_ne hne]

theorem decryptPathSecrets_blank {cs : UInt16} {t : VTree} {ctx : GroupContext} {i r : Nat} {path : UpdatePath} {pt pt' : List (Option Bytes)}
    {sec : Bytes} (h : decryptPathSecrets pr cs t ctx i r path pt = .ok (sec, pt')) (x : Nat) (hx : nodeAt t x = none) :
    pt'[x]? = pt[x]? := by
  unfold decryptPathSecrets at h
  simp only [Res.bind_ok_iff] at h
  obtain ⟨fdp, _, _, _, h⟩ := h
  cases hpos : List.idxOf? (commonAncestor (nodeOfLeaf i) (nodeOfLeaf r)) fdp with
  | none => rw [hpos] at h; cases h
  | some e =>
    rw [hpos] at h
    simp only [Res.bind_ok_iff] at h
    obtain ⟨pn, _, cop, _, res, _, _, _, found, _, h⟩ := h
    cases found with
    | none => cases h
    | some jk =>
      simp only [Res.bind_ok_iff, nodeKey, Res.idx_ok_iff, Res.deref_ok_iff, Res.setIdx_ok_iff] at h
      obtain ⟨_, _, _, _, _, ⟨o, h1, q, h2, _⟩, _, _, pt2, ⟨_, rfl⟩, ⟨ps3, pt3⟩, h3, _, _, he⟩ := h
      cases he
      subst h2
      have hne : commonAncestor (nodeOfLeaf i) (nodeOfLeaf r) ≠ x := by rintro rfl; rw [nodeAt_some.2 h1] at hx; cases hx
      rw [pathSecretLoop_blank _ _ _ h3 x hx, List.getElem?_set_ne hne]

theorem copyPrivTree_keeps {pt pt' : List (Option Bytes)} {a b : Nat} (h : copyPrivTree pt a b = .ok pt') (hl : pt.length = a) {x : Nat}
    {k : Bytes} (hx : pt[x]? = some (some k)) (hb : x < b) : pt'[x]? = some (some k) := by
  unfold copyPrivTree at h
  split at h
  · cases h
  · cases h
    have := (List.getElem?_eq_some_iff.1 hx).1
    rw [List.getElem?_append_left (by simp; omega), List.getElem?_take_of_lt (by omega)]
    exact hx

/-- **C87**, what is false in it: no commit, and no other message, makes a member drop the private key of a node that is blank
afterwards, as long as the tree still has the position: not those that blank it. -/
theorem C87_kept (hc : pr.Correct) {st st' : GroupState} (hr : Reachable pr st) {raw : Bytes} {now : GoTime} {d : Option Bytes}
    (h : unmarshalAndProcessMessage pr st raw now = (.ok d, st')) {x : Nat} {k : Bytes} (hk : st.group.privTree[x]? = some (some k))
    (hx : x < st'.group.tree.length) (hb : nodeAt st'.vtree x = none) : st'.group.privTree[x]? = some (some k) := by
  obtain ⟨a, e, hca, ⟨p, hp, _, hpp⟩ | ⟨c, hcm, _, hpc⟩ | ⟨_, _, _, rfl, _⟩⟩ := accepted_cases h
  · rcases processProposal_cases (pr := pr) st a p hp with ⟨ref, _, he⟩ | ⟨hne, _⟩
    · rw [hpp] at he
      obtain rfl := (Prod.mk.inj he).2
      exact hk
    · rw [hpp] at hne
      exact absurd rfl hne
  · rcases processCommit_cases (pr := pr) st a c hcm [] [] now with ⟨ps, ss, hp, t, st1, h1, h2, h3, h4⟩ | ⟨hne, _⟩
    · rw [hpc] at h4
      obtain rfl := (Prod.mk.inj h4).2
      have hlen := (hr.inv hc).length
      have hlen' := ((hr.message h (Res.fine_ok _)).inv hc).length
      obtain ⟨_, pt, hpt, ⟨_, _, ht, hpr⟩ | ⟨path, ctx', sec, _, hcp⟩⟩ := finishCommit_parts h3
      · rw [hpr]
        exact copyPrivTree_keeps hpt hlen hk (ht ▸ hx)
      · obtain ⟨_, _, _, hm, _, _, hd⟩ := commitPath_ok hcp
        have heq := decryptPathSecrets_blank hd x hb
        rw [heq]
        refine copyPrivTree_keeps hpt hlen hk ?_
        rw [← (copyPrivTree_ok hpt).1]
        exact (List.getElem?_eq_some_iff.1 (heq.symm.trans (List.getElem?_eq_getElem (by omega)))).1
    · rw [hpc] at hne
      exact absurd rfl hne
  · exact hk

/-- The group of three that `0` sees after `1` has made a commit with a path and `2` has then removed `1`; `st.privTree` has the keys of
the nodes above `0`. -/
def toyStale : Res (GroupState × GroupState) := do
  let (a, _, _) ← toyThree
  let b ← a.after (toyCommit a 1 1 [] (List.replicate 32 9) [])
  let c ← b.after (toyCommit b 2 2 [.remove 1] (List.replicate 32 8) [])
  return (b, c)

/-- **C87** as a whole is false: a member of a group holds the private key of a node that the tree no longer has, here one whose key
the removed `1` chose. -/
theorem C87_refuted : ∃ st : GroupState, Reachable toyPrims st ∧ ∃ x k, st.group.privTree[x]? = some (some k) ∧ nodeAt st.vtree x = none := by
  have key : toyStale.holds (fun (b, c) => (match b.group.privTree[1]? with
      | some (some k) => decide (c.group.privTree[1]? = some (some k))
      | _ => false) && decide (nodeAt c.vtree 1 = none)) = true := by
    decide +kernel
  obtain ⟨⟨b, c⟩, h, hk⟩ := Res.holds_ok key
  simp only [Bool.and_eq_true, decide_eq_true_eq] at hk
  obtain ⟨h1, h2⟩ := hk
  have hr : Reachable toyPrims c := by
    unfold toyStale at h
    simp only [Res.bind_ok_iff] at h
    obtain ⟨⟨a, _, _⟩, h0, b', hb, c', hc', he⟩ := h
    cases he
    exact ((toyThree_reachable h0).1.after hb).after hc'
  split at h1
  · rename_i k hk
    exact ⟨c, hr, 1, k, by simpa using h1, h2⟩
  · cases h1

/-- The only private key held is that of the member's own leaf. -/
def Spec.LeafKeyOnly (st : GroupState) : Prop :=
  ∀ x k, st.group.privTree[x]? = some (some k) → x = 2 * st.group.myLeafIndex.toNat

theorem leafKeyOnly_create {id : Bytes} {kp : KeyPairPackage} {rand : Nat → UInt8} {st : GroupState}
    (h : createGroup pr id kp rand = .ok st) : Spec.LeafKeyOnly st := by
  unfold createGroup at h
  simp only [Res.bind_ok_iff] at h
  obtain ⟨⟨hp, t⟩, h1, pt, h2, th, hth, d, h3, _, _, _, _, _, _, _, _, h⟩ := h
  cases h
  rw [Res.setIdx_ok_iff] at h2
  obtain ⟨_, rfl⟩ := h2
  intro x k hx
  simp only at hx
  by_cases hx0 : x = 0
  · subst hx0; rfl
  · rw [List.getElem?_set_ne (Ne.symm hx0), List.getElem?_replicate] at hx
    split at hx <;> simp at hx

theorem leafKeyOnly_join {w : Welcome} {kp : KeyPairPackage} {now : GoTime} {st : GroupState} {ref : Bytes} {gs : GroupSecrets}
    (h : groupFromWelcome pr w kp now = .ok st) (href : kp.pub.generateRef pr = .ok ref)
    (hgs : w.decryptGroupSecrets pr ref kp.priv.initKey = .ok gs) (hp : gs.pathSecret = none) : Spec.LeafKeyOnly st := by
  unfold groupFromWelcome at h
  rw [href, Res.ok_bind, hgs, Res.ok_bind] at h
  simp only [Res.bind_ok_iff] at h
  obtain ⟨_, _, _, _, h⟩ := h
  obtain ⟨psk, info, raw, v, leaf, li, pt, _, _, _, hdec, hget, _, _, _, hv, hfind, hjoin, hh, ht, hctx, _, _, _, _, hmy, hpt, _⟩ :=
    groupFromSecrets_ok h
  obtain ⟨k, hk, hlen⟩ := C26_decoded_length hdec
  have hpow : 2 ^ k ≤ 2 ^ 31 := Nat.pow_le_pow_right (by decide) hk
  obtain ⟨d, rfl⟩ : ∃ d, k = d + 1 := by
    cases k with
    | zero =>
      have : v = [] := List.eq_nil_of_length_eq_zero (by simpa using hlen)
      subst this
      simp [getLeaf, Res.idx] at hget
    | succ d => exact ⟨d, rfl⟩
  unfold joinerPrivTree at hjoin
  rw [hp] at hjoin
  simp only [Res.bind_ok_iff, Res.setIdx_ok_iff] at hjoin
  obtain ⟨pt0, ⟨hlt, rfl⟩, hjoin⟩ := hjoin
  cases hjoin
  have hlt' := findLeafLoop_lt _ _ _ hfind
  have hli : li < 2 ^ 31 := by
    rw [numLeaves_pow (by omega) hlen] at hlt'
    have : 2 ^ d ≤ 2 ^ (d + 1) := Nat.pow_le_pow_right (by decide) (by omega)
    omega
  intro x k hx
  rw [hpt, nodeOfLeaf_idx hli, idx_zero] at hx
  by_contra hne
  rw [hmy, UInt32.toNat_ofNat', Nat.mod_eq_of_lt (by omega)] at hne
  rw [List.getElem?_set_ne (Ne.symm hne), List.getElem?_replicate] at hx
  split at hx <;> simp at hx

theorem leafKeyOnly_message {st st' : GroupState} {raw : Bytes} {now : GoTime} {r : Res (Option Bytes)}
    (h : unmarshalAndProcessMessage pr st raw now = (r, st'))
    (hnp : ∀ a e c, Carries pr st raw a e → a.content.content = .commit c → c.path = none) (hl : Spec.LeafKeyOnly st) :
    Spec.LeafKeyOnly st' := by
  by_cases ho : ∃ d, r = .ok d
  · obtain ⟨d, rfl⟩ := ho
    obtain ⟨a, e, hca, ⟨p, hp, _, hpp⟩ | ⟨c, hcm, _, hpc⟩ | ⟨_, _, _, rfl, _⟩⟩ := accepted_cases h
    · rcases processProposal_cases (pr := pr) st a p hp with ⟨ref, _, he⟩ | ⟨hne, _⟩
      · rw [hpp] at he
        obtain rfl := (Prod.mk.inj he).2
        exact hl
      · rw [hpp] at hne
        exact absurd rfl hne
    · rcases processCommit_cases (pr := pr) st a c hcm [] [] now with ⟨ps, ss, hp, t, st1, h1, h2, h3, h4⟩ | ⟨hne, _⟩
      · rw [hpc] at h4
        obtain rfl := (Prod.mk.inj h4).2
        obtain ⟨_, pt, hpt, ⟨_, _, ht, hpr⟩ | ⟨path, ctx', sec, hpath, hcp⟩⟩ := finishCommit_parts h3
        · intro x k hx
          rw [hpr] at hx
          rw [(finishCommit_group h3).2.2.2.2.2.1]
          exact hl x k ((copyPrivTree_ok hpt).2 x k hx)
        · rw [hnp a e c hca hcm] at hpath
          cases hpath
      · rw [hpc] at hne
        exact absurd rfl hne
    · exact hl
  · have : st'.group = st.group := by
      rcases rejected_cases h (by simpa using ho) with rfl | ⟨a, e, c, ps, ss, h', t, _, _, _, _, rfl, _⟩ <;> rfl
    intro x k hx
    rw [this] at hx ⊢
    exact hl x k hx

/-- **C87**, for groups as this library makes them: whoever creates a group or joins one from a welcome without a path secret holds
only the key of its leaf, and so it stays as long as no commit with a path is accepted. -/
theorem C87_partial {pr : Prims} :
    (∀ {id : Bytes} {kp : KeyPairPackage} {rand : Nat → UInt8} {st : GroupState}, createGroup pr id kp rand = .ok st → Spec.LeafKeyOnly st) ∧
    (∀ {w : Welcome} {kp : KeyPairPackage} {now : GoTime} {st : GroupState} {ref : Bytes} {gs : GroupSecrets},
      groupFromWelcome pr w kp now = .ok st → kp.pub.generateRef pr = .ok ref →
      w.decryptGroupSecrets pr ref kp.priv.initKey = .ok gs → gs.pathSecret = none → Spec.LeafKeyOnly st) ∧
    (∀ {st st' : GroupState} {raw : Bytes} {now : GoTime} {r : Res (Option Bytes)}, unmarshalAndProcessMessage pr st raw now = (r, st') →
      (∀ a e c, Carries pr st raw a e → a.content.content = .commit c → c.path = none) → Spec.LeafKeyOnly st → Spec.LeafKeyOnly st') :=
  ⟨leafKeyOnly_create, leafKeyOnly_join, leafKeyOnly_message⟩

/-! ### C88 -/

/-- Two members in the same tree, transcript and place, with the same signature key and the same init secret; all else may differ: epoch
secret, PSK secret, private keys and pending proposals. -/
structure Spec.SameOutlook (st st2 : GroupState) : Prop where
  heap : st2.heap = st.heap
  tree : st2.group.tree = st.group.tree
  context : st2.group.groupContext = st.group.groupContext
  interim : st2.group.interimTranscriptHash = st.group.interimTranscriptHash
  init : st2.group.initSecret = st.group.initSecret
  place : st2.group.myLeafIndex = st.group.myLeafIndex
  signer : st2.group.signaturePriv = st.group.signaturePriv

/-- **C88.** A welcome has no trace of the secrets of the epoch in which it is made, of the inviter's private keys for decryption or of
the proposals it has received: with any others it would be the same welcome. -/
theorem C88_welcome {st st2 : GroupState} (hs : Spec.SameOutlook st st2) {kps : List KeyPackage} {r : WelcomeRand} {w w' : Welcome}
    {raw raw' : Bytes} (h : (createWelcome pr st kps r).1 = .ok (w, raw)) (h' : (createWelcome pr st2 kps r).1 = .ok (w', raw')) :
    w = w' := by
  obtain ⟨e1, e2, e3, e4, e5, e6, e7⟩ := hs
  unfold createWelcome at h h'
  split at h
  · cases h
  rename_i hne
  rw [if_neg hne, e1, e2, e6] at h'
  split at h
  · rename_i hp t ht
    rw [ht] at h'
    simp only [finishWelcome, Group.framedContent, Res.bind_ok_iff, e3, e4, e5, e6, e7] at h h'
    obtain ⟨_, a1, _, a2, _, a3, _, a4, _, a5, _, a6, _, a7, _, a8, _, a9, _, a10, _, a11, _, a12, _, _, a13⟩ := h
    obtain ⟨_, b1, _, b2, _, b3, _, b4, _, b5, _, b6, _, b7, _, b8, _, b9, _, b10, _, b11, _, b12, _, _, b13⟩ := h'
    cases Res.ok.inj (a1.symm.trans b1)
    cases Res.ok.inj (a2.symm.trans b2)
    cases Res.ok.inj (a3.symm.trans b3)
    cases Res.ok.inj (a4.symm.trans b4)
    cases Res.ok.inj (a5.symm.trans b5)
    cases Res.ok.inj (a6.symm.trans b6)
    cases Res.ok.inj (a7.symm.trans b7)
    cases Res.ok.inj (a8.symm.trans b8)
    cases Res.ok.inj (a9.symm.trans b9)
    cases Res.ok.inj (a10.symm.trans b10)
    cases Res.ok.inj (a11.symm.trans b11)
    cases Res.ok.inj (a12.symm.trans b12)
    cases a13
    cases b13
    rfl
  all_goals cases h

/-- **C88**, the consequence: so the group that the invited joins is the same. -/
theorem C88_joined {st st2 : GroupState} (hs : Spec.SameOutlook st st2) {kps : List KeyPackage} {r : WelcomeRand} {w w' : Welcome}
    {raw raw' : Bytes} (h : (createWelcome pr st kps r).1 = .ok (w, raw)) (h' : (createWelcome pr st2 kps r).1 = .ok (w', raw'))
    (kp : KeyPairPackage) (now : GoTime) : groupFromWelcome pr w kp now = groupFromWelcome pr w' kp now := by
  rw [C88_welcome hs h h']

/-- **C88**, the other way round: an application message has no trace of what later epochs are made from. It is the same for any two
members with the same group context, epoch secret, place and signature key in trees of the same size, whatever their init
secrets, private keys, PSK secrets, transcripts and pending proposals. -/
theorem C88_application {st st2 : GroupState} (h1 : st2.group.groupContext = st.group.groupContext)
    (h2 : st2.group.epochSecret = st.group.epochSecret) (h3 : st2.group.myLeafIndex = st.group.myLeafIndex)
    (h4 : st2.group.signaturePriv = st.group.signaturePriv) (h5 : st2.group.tree.length = st.group.tree.length) (data rand : Bytes)
    (guard : Bytes4) : createApplicationMessage pr st2 data rand guard = createApplicationMessage pr st data rand guard := by
  unfold createApplicationMessage Group.encryptPrivateMessage Group.framedContent treeNumLeaves
  simp only [h1, h2, h3, h4, h5]

/-- Two inviters with different epoch secrets and private keys: the commits differ, the welcome does not. -/
example : ∃ st st2 w raw raw', Reachable toyPrims st ∧ Spec.SameOutlook st st2 ∧ st.group.epochSecret ≠ st2.group.epochSecret ∧
    st.group.privTree ≠ st2.group.privTree ∧ (createWelcome toyPrims st [(toyMember 2).pub] default).1 = .ok (w, raw) ∧
    (createWelcome toyPrims st2 [(toyMember 2).pub] default).1 = .ok (w, raw') ∧ raw ≠ raw' := by
  have key : toyTwo.holds (fun (a, _) =>
      let a2 : GroupState := { a with group := { a.group with epochSecret := List.replicate 32 4, privTree := [] } }
      decide (a.group.epochSecret ≠ a2.group.epochSecret) && decide (a.group.privTree ≠ []) &&
      (createWelcome toyPrims a [(toyMember 2).pub] default).1.holds fun (w, raw) =>
        (createWelcome toyPrims a2 [(toyMember 2).pub] default).1.holds fun (w', raw') => decide (w = w') && decide (raw ≠ raw')) = true := by
    decide +kernel
  obtain ⟨⟨a, b⟩, h, hk⟩ := Res.holds_ok key
  simp only [Bool.and_eq_true, decide_eq_true_eq] at hk
  obtain ⟨⟨h1, h2⟩, h3⟩ := hk
  obtain ⟨⟨w, raw⟩, hw, h3⟩ := Res.holds_ok h3
  obtain ⟨⟨w', raw'⟩, hw', h3⟩ := Res.holds_ok h3
  simp only [Bool.and_eq_true, decide_eq_true_eq] at h3
  obtain ⟨rfl, h3⟩ := h3
  exact ⟨a, { a with group := { a.group with epochSecret := List.replicate 32 4, privTree := [] } }, w, raw, raw',
    (toyTwo_reachable h).1, ⟨rfl, rfl, rfl, rfl, rfl, rfl, rfl⟩, h1, h2, hw, hw', h3⟩

end Mls
