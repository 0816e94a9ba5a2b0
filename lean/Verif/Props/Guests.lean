import Verif.Props.Peers
import Verif.Props.Start
/-
C120: the welcomes of a member that does what RFC 9420 says, whatever software it uses.
-/
namespace Mls

open Spec (Ratchet nodeAt)

variable {pr : Prims}

/-! ### Specification -/

/-- Someone who is welcomed: the key package, the path secret if there is one, and what is random in the encryption. -/
structure Spec.Rfc.Guest where
  package : KeyPackage
  pathSecret : Option Bytes
  rand : Bytes
deriving DecidableEq

/-- RFC 9420 section 12.4.3.1: the entry of a welcome for a guest. -/
def Spec.Rfc.guestEntry (pr : Prims) (sd : SuiteDesc) (joinerSecret encryptedGroupInfo : Bytes) (g : Rfc.Guest) : Option EncryptedGroupSecrets := do
  let ref ← Rfc.refHash pr sd "MLS 1.0 KeyPackage Reference" (Rfc.keyPackage g.package)
  let secrets ← (Rfc.groupSecrets { joinerSecret, pathSecret := g.pathSecret, psks := [] }).bytes
  let x ← pr.hpkeSeal sd g.package.initKey (Spec.encryptContext "Welcome" encryptedGroupInfo) secrets g.rand
  return ⟨ref, ⟨x.1, x.2⟩⟩

/-- RFC 9420 section 12.4.3.1: the welcome by which the member at leaf `signer`, with the private signature key `signKey`, lets the guests into the epoch `e`
with the tree `tree`. The group info has the extensions `extra` besides the tree. -/
def Spec.Rfc.makeWelcome (pr : Prims) (sd : SuiteDesc) (e : Epoch) (joinerSecret : Bytes) (tree : Ratchet.Any ParentNode) (signer : UInt32)
    (signKey rand : Bytes) (extra : List Extension) (guests : List Rfc.Guest) : Option Welcome := do
  let rawTree ← (Rfc.ratchetTree (Spec.trimmed (tree.2.flat .leaf .parent))).bytes
  let info : GroupInfo :=
    { groupContext := e.context, extensions := extra ++ [{ ty := 2, data := rawTree }],
      confirmationTag := Spec.confirmationTag pr sd e.epochSecret e.context.confirmedTranscriptHash, signer, signature := [] }
  let signature ← Rfc.sign pr sd signKey "GroupInfoTBS" (Rfc.groupInfoTBS info) rand
  let infoBytes ← (Rfc.groupInfo { info with signature }).bytes
  let encryptedGroupInfo ← pr.aeadSeal sd.aead
    (Spec.expandWithLabel pr sd (Spec.welcomeSecret pr sd joinerSecret) "key" [] sd.aead.keySize)
    (Spec.expandWithLabel pr sd (Spec.welcomeSecret pr sd joinerSecret) "nonce" [] sd.aead.nonceSize) infoBytes []
  guard (encryptedGroupInfo.length < 2 ^ 30)
  let secrets ← guests.mapM (Rfc.guestEntry pr sd joinerSecret encryptedGroupInfo)
  return { cipherSuite := e.context.cipherSuite, secrets, encryptedGroupInfo }

/-- RFC 9420 section 8: the epoch `e` is the one that the joiner secret leads to, without PSKs. -/
structure Spec.Rfc.Entered (pr : Prims) (sd : SuiteDesc) (joinerSecret : Bytes) (e : Epoch) : Prop where
  context : ∃ raw, (Rfc.groupContext e.context).bytes = some raw ∧ raw.length < 2 ^ 30 ∧
    e.epochSecret = Spec.epochSecret pr sd joinerSecret (List.replicate sd.kdf.size 0) raw
  interim : e.interim = Spec.interimHash pr sd e.context.confirmedTranscriptHash (Spec.confirmationTag pr sd e.epochSecret e.context.confirmedTranscriptHash)
  initSecret : e.initSecret = Spec.deriveSecret pr sd e.epochSecret "init"

/-- RFC 9420 section 8: the joiner secret of the epoch that a commit made in the epoch `e` starts. -/
def Spec.Rfc.joinerOf (pr : Prims) (sd : SuiteDesc) (e : Epoch) (c : Rfc.Committer) (m : Rfc.Made) : Option Bytes := do
  let raw ← (Rfc.groupContext m.epoch.context).bytes
  return Spec.joinerSecret pr sd e.initSecret (match m.content.content.content with
    | .commit ⟨_, some path⟩ => pathSecret pr sd c.secret path.nodes.length
    | _ => List.replicate sd.kdf.size 0) raw

/-- What a joiner at leaf `r` has no key for, it is not expected to have: each node above it that is not blank has it as an unmerged leaf, or is above the
inviter at leaf `i` as well, and there is a path secret. -/
def Spec.Rfc.Provided (t : VTree) (i r : Nat) (pathSecret : Option Bytes) : Prop :=
  ∀ j q, 0 < j → nodeAt t (idx j (r / 2 ^ j)) = some (.parent q) →
    (∃ u ∈ q.unmergedLeaves, Spec.leafNumber u = 2 * r) ∨ (pathSecret ≠ none ∧ i / 2 ^ j = r / 2 ^ j)

/-! ### The welcome -/

theorem mapM_mem {α β : Type} {f : α → Option β} {l : List α} {r : List β} (h : l.mapM f = some r) :
    (∀ a ∈ l, ∃ b ∈ r, f a = some b) ∧ ∀ b ∈ r, ∃ a ∈ l, f a = some b := by
  obtain ⟨h1, h2⟩ := mapM_some h
  constructor
  · intro a ha
    obtain ⟨j, hj, rfl⟩ := List.mem_iff_getElem.1 ha
    exact ⟨r[j], List.getElem_mem _, h2 j _ _ (List.getElem?_eq_getElem hj) (List.getElem?_eq_getElem (by omega))⟩
  · intro b hb
    obtain ⟨j, hj, rfl⟩ := List.mem_iff_getElem.1 hb
    exact ⟨l[j], List.getElem_mem _, h2 j _ _ (List.getElem?_eq_getElem (by omega)) (List.getElem?_eq_getElem hj)⟩

/-- **C120**: who is welcomed as RFC 9420 says can join, at every time at which the tree of the group is valid and has the leaf of the key package; what there
is of a path secret has to be as the code wants it (C56). The joiner comes to the epoch and the tree of the group. -/
theorem C120_joins (hc : pr.Correct) {sd : SuiteDesc} {e : Spec.Epoch} (hsd : suite e.context.cipherSuite = .ok sd) (hver : e.context.version = 1)
    {js : Bytes} (hen : Spec.Rfc.Entered pr sd js e) {d : Nat} {s : Ratchet ParentNode d} (hsn : s.snug = true) {signer : UInt32} {signKey rand : Bytes}
    {extra : List Extension} (hx : ∀ x ∈ extra, x.ty ≠ 2) {guests : List Spec.Rfc.Guest} {w : Welcome}
    (hw : Spec.Rfc.makeWelcome pr sd e js ⟨d, s⟩ signer signKey rand extra guests = some w)
    (hkey : ∃ old r, nodeAt (s.flat Node.leaf Node.parent) (2 * signer.toNat) = some (.leaf old) ∧ old.signatureKey = (pr.sigKeyPair sd.sig r).1 ∧
      signKey = (pr.sigKeyPair sd.sig r).2)
    {g : Spec.Rfc.Guest} (hg : g ∈ guests) (hu : ∀ g' ∈ guests, Spec.Rfc.refHash pr sd "MLS 1.0 KeyPackage Reference" (Spec.Rfc.keyPackage g'.package) =
      Spec.Rfc.refHash pr sd "MLS 1.0 KeyPackage Reference" (Spec.Rfc.keyPackage g.package) → g' = g)
    {kp : KeyPairPackage} (hkp : kp.pub = g.package) (hcs : kp.pub.cipherSuite = e.context.cipherSuite)
    (ho : Spec.KeyOpens pr sd kp.pub.initKey kp.priv.initKey) {now : GoTime}
    (hval : Spec.TreeValid pr (pr.hash sd.hash) e.context now (s.flat .leaf .parent) s) {li : Nat} (hli : li < 2 ^ d)
    (hown : nodeAt (s.flat Node.leaf Node.parent) (2 * li) = some (.leaf kp.pub.leafNode))
    (hps : ∀ ps, g.pathSecret = some ps → Spec.SecretFits pr sd (s.flat .leaf .parent) d signer.toNat li ps) :
    ∃ st, groupFromWelcome pr w kp now = .ok st ∧ st.vtree = s.flat .leaf .parent ∧ st.group.keyState = e ∧ st.group.pendingProposals = [] ∧
      st.group.myLeafIndex.toNat = li ∧ Spec.JoinKeys pr sd d signer.toNat li kp.priv.encryptionKey g.pathSecret st.group.privTree := by
  unfold Spec.Rfc.makeWelcome at hw
  simp only [Option.bind_eq_bind, Option.bind_eq_some_iff, Option.pure_def, Option.some.injEq, Option.guard_eq_some', exists_const] at hw
  obtain ⟨rawTree, h1, sig, h2, infoBytes, h3, egi, h4, h5, secrets, h6, rfl⟩ := hw
  obtain ⟨old, r, ho1, ho2, ho3⟩ := hkey
  have hdec : unmarshal decTree rawTree = .ok (s.flat .leaf .parent) := C77_sent ⟨d, s, rfl, hsn⟩ (encTree_iff.2 h1)
  obtain ⟨k, hk, hlen⟩ := C26_decoded_length hdec
  rw [flat_length] at hlen
  have hd : d ≤ 30 := by
    cases k with
    | zero =>
      have := Nat.two_pow_pos d
      rw [Nat.pow_succ] at hlen
      omega
    | succ k =>
      have p1 : 0 < 2 ^ (d + 1) := Nat.two_pow_pos _
      have p2 : 0 < 2 ^ (k + 1) := Nat.two_pow_pos _
      have := Nat.pow_right_injective (Nat.le_refl 2) (show 2 ^ (d + 1) = 2 ^ (k + 1) by omega)
      omega
  have hpow : 2 ^ d ≤ 2 ^ 30 := Nat.pow_le_pow_right (by decide) hd
  have hsg : signer.toNat < 2 ^ d := by
    have := nodeAt_lt ho1
    rw [flat_length, Nat.pow_succ] at this
    omega
  have hmod : signer.toNat % 2 ^ 31 = signer.toNat := Nat.mod_eq_of_lt (by omega)
  obtain ⟨entry, he1, he2⟩ := (mapM_mem h6).1 g hg
  have he3 := he2
  unfold Spec.Rfc.guestEntry at he3
  simp only [Option.bind_eq_bind, Option.bind_eq_some_iff, Option.pure_def, Option.some.injEq] at he3
  obtain ⟨ref, hr, sec, hs, ⟨ko, ct⟩, hseal, rfl⟩ := he3
  have hfind : secrets.find? (fun e => e.newMember == ref) = some ⟨ref, ⟨ko, ct⟩⟩ := by
    cases hf : secrets.find? (fun e => e.newMember == ref) with
    | none =>
      have := List.find?_eq_none.1 hf _ he1
      simp at this
    | some e' =>
      have q1 := List.find?_some hf
      rw [beq_iff_eq] at q1
      obtain ⟨g', q2, q3⟩ := (mapM_mem h6).2 e' (List.mem_of_find?_eq_some hf)
      have q4 := q3
      unfold Spec.Rfc.guestEntry at q4
      simp only [Option.bind_eq_bind, Option.bind_eq_some_iff, Option.pure_def, Option.some.injEq] at q4
      obtain ⟨ref', r1, _, _, _, _, r2⟩ := q4
      have : ref' = ref := by rw [← r2] at q1; exact q1
      subst this
      obtain rfl := hu g' q2 (r1.trans hr.symm)
      rw [he2] at q3
      rw [← Option.some.inj q3]
  obtain ⟨raw, c1, c2, c3⟩ := hen.context
  obtain ⟨tbs, t1, t2⟩ := (sign_rfc hsd lblGroupInfoTBS_name (groupInfoTBS_val _) _ _ _).2 h2
  rw [ho3] at t2
  have hv := signWithLabel_valid hc hsd lblGroupInfoTBS_name (by decide) t2
  rw [← ho2] at hv
  have htag : (Spec.confirmationTag pr sd e.epochSecret e.context.confirmedTranscriptHash).length < 2 ^ 30 := by
    unfold Spec.confirmationTag
    rw [hc.mac_length]
    cases sd.hash <;> decide
  have hleaf : ∃ b, (Spec.Rfc.leafNode kp.pub.leafNode).bytes = some b := by
    have := ((C102_references hsd ref).1 g.package (by rw [← hkp]; exact hcs)).2 hr
    obtain ⟨b, hb⟩ := generateRef_leaf this
    rw [hkp]
    exact ⟨b, by rw [← leafNode_val, ← Enc.val_ok_iff]; exact hb⟩
  obtain ⟨b, hb⟩ := hleaf
  have ok : Spec.WelcomeOk pr ⟨e.context.cipherSuite, secrets, egi⟩ kp now sd sd ref ⟨ref, ⟨ko, ct⟩⟩ ⟨js, g.pathSecret, []⟩
      ⟨e.context, extra ++ [{ ty := 2, data := rawTree }], Spec.confirmationTag pr sd e.epochSecret e.context.confirmedTranscriptHash, signer, sig⟩
      (s.flat .leaf .parent) d s old kp.pub.leafNode li raw := by
    refine ⟨(suite_iff_spec _ _).1 (by rw [hcs]; exact hsd), (suite_iff_spec _ _).1 hsd, by rw [hkp]; exact hr, hfind, h5, ?_, rfl, ?_, ?_, ?_, ?_, rfl, c1, c2, ?_,
      htag, hd, hval, hli, hown, rfl, ⟨b, hb, hb⟩, ?_⟩
    · refine ⟨sec, ho _ _ _ _ _ (by rw [hkp]; exact hseal), ?_⟩
      exact ((C101_inside sec).1 _).2.2 hs
    · exact ⟨infoBytes, hc.aead_open _ _ _ _ _ _ h4, unmarshal_rt groupInfo_rt (((C101_inside infoBytes).2.2.1 _).1.2 h3) hver⟩
    · refine ⟨{ ty := 2, data := rawTree }, ?_, hdec⟩
      rw [List.find?_append, List.find?_eq_none.2 (fun x hx' => by simp [hx x hx'])]
      rfl
    · rw [hmod]
      exact nodeAt_some.1 ho1
    · exact ⟨tbs, infoTBS_some.2 t1, hv⟩
    · rw [← c3]
    · rw [hmod]
      exact hps
  obtain ⟨pt, j1, j2⟩ := joined_of hc ok
  have hlen' : (s.flat Node.leaf Node.parent).length = 2 ^ (d + 1) - 1 := flat_length _ _ _
  refine ⟨_, j2, (deref_alloc _ []).2, ?_, rfl, ?_, ?_⟩
  · simp only [Group.keyState]
    rw [← c3, ← hen.interim, ← hen.initSecret]
  · simp only [UInt32.toNat_ofNat']
    exact Nat.mod_eq_of_lt (by omega)
  · exact joinKeys_of hc hsd (by omega) hlen' hsg hli hmod j1

/-- **C120**: the epoch that a commit made as RFC 9420 says starts is the one that its joiner secret leads to. -/
theorem C120_entered {sd : SuiteDesc} {e : Spec.Epoch} {pending : List PendingProposal} {d0 : Nat} {s0 : Ratchet ParentNode d0} {wf : WireFormat}
    {c : Spec.Rfc.Committer} {proposals : List ProposalOrRef} {withPath : Bool} {m : Spec.Rfc.Made}
    (hm : Spec.Rfc.makeCommit pr sd e pending s0 wf c proposals withPath = some m) :
    ∃ js, Spec.Rfc.joinerOf pr sd e c m = some js ∧ Spec.Rfc.Entered pr sd js m.epoch := by
  have key : ∀ {commit : Commit} {tree : Ratchet.Any ParentNode} {th sec : Bytes}, Spec.Rfc.confirm pr sd e wf c commit tree th sec = some m →
      (sec = match commit.path with
        | some path => Spec.pathSecret pr sd c.secret path.nodes.length
        | none => List.replicate sd.kdf.size 0) → ∃ js, Spec.Rfc.joinerOf pr sd e c m = some js ∧ Spec.Rfc.Entered pr sd js m.epoch := by
    intro commit tree th sec h hsec
    unfold Spec.Rfc.confirm at h
    simp only [Option.bind_eq_bind, Option.bind_eq_some_iff, Option.pure_def, Option.some.injEq, Option.guard_eq_some', exists_const] at h
    obtain ⟨sig, h1, input, h2, raw, h3, h4, rfl⟩ := h
    refine ⟨Spec.joinerSecret pr sd e.initSecret sec raw, ?_, ⟨raw, h3, h4, rfl⟩, rfl, rfl⟩
    unfold Spec.Rfc.joinerOf
    simp only [h3, Option.bind_eq_bind, Option.bind_some, Option.pure_def, Spec.Rfc.framed, hsec]
    obtain ⟨ps, path⟩ := commit
    cases path <;> rfl
  unfold Spec.Rfc.makeCommit at hm
  simp only [Option.bind_eq_bind, Option.bind_eq_some_iff] at hm
  obtain ⟨l, _, a, _, hm⟩ := hm
  match a, hm with
  | some ⟨d, s⟩, hm =>
    cases withPath with
    | true =>
      simp only [if_true, Option.bind_eq_some_iff] at hm
      obtain ⟨x, _, hm⟩ := hm
      exact key hm rfl
    | false =>
      simp only [Bool.false_eq_true, if_false, Option.bind_eq_some_iff] at hm
      obtain ⟨th, _, hm⟩ := hm
      exact key hm rfl

/-! ### The keys of who is added -/

/-- What the nodes above the `i`-th leaf carry. -/
def Spec.Ratchet.above {P : Type} : {d : Nat} → Nat → Ratchet P d → List P
  | _, _, .leaf _ => []
  | d + 1, i, .node p l r => p.toList ++ if i < 2 ^ d then l.above i else r.above (i - 2 ^ d)

/-- What the nodes above the `i`-th leaf carry that are not above the `c`-th. -/
def Spec.Ratchet.apart {P : Type} : {d : Nat} → Nat → Nat → Ratchet P d → List P
  | _, _, _, .leaf _ => []
  | d + 1, c, i, .node _ l r =>
    if i < 2 ^ d then if c < 2 ^ d then l.apart c i else l.above i
    else if c < 2 ^ d then r.above (i - 2 ^ d) else r.apart (c - 2 ^ d) (i - 2 ^ d)

theorem apart_above {P : Type} {d : Nat} {s : Ratchet P d} {c i : Nat} {p : P} (h : p ∈ s.apart c i) : p ∈ s.above i := by
  induction s generalizing c i with
  | leaf => exact h
  | node q l r ihl ihr =>
    unfold Spec.Ratchet.apart at h
    unfold Spec.Ratchet.above
    rw [List.mem_append]
    right
    split at h
    · next hi =>
      rw [if_pos hi]
      split at h
      · exact ihl h
      · exact h
    · next hi =>
      rw [if_neg hi]
      split at h
      · exact h
      · exact ihr h

theorem above_self {d : Nat} {s : Ratchet ParentNode d} {f : Option LeafNode → Option LeafNode} {u i : Nat} {p : ParentNode}
    (h : p ∈ (s.alongPath f (Option.map (Ratchet.addUnmerged u)) i).above i) : UInt32.ofNat u ∈ p.unmergedLeaves := by
  induction s generalizing i with
  | leaf => cases h
  | @node k q l r ihl ihr =>
    unfold Spec.Ratchet.alongPath at h
    have key : p ∈ (q.map (Ratchet.addUnmerged u)).toList → UInt32.ofNat u ∈ p.unmergedLeaves := by
      intro h
      cases q with
      | none => cases h
      | some q =>
        rw [Option.map_some, Option.toList_some, List.mem_singleton] at h
        subst h
        simp [Ratchet.addUnmerged]
    by_cases hi : i < 2 ^ k
    · rw [if_pos hi] at h
      unfold Spec.Ratchet.above at h
      rw [if_pos hi, List.mem_append] at h
      exact h.elim key ihl
    · rw [if_neg hi] at h
      unfold Spec.Ratchet.above at h
      rw [if_neg hi, List.mem_append] at h
      exact h.elim key ihr

theorem above_keep {d : Nat} {s : Ratchet ParentNode d} {f : Option LeafNode → Option LeafNode} {u i j : Nat} {x : UInt32}
    (h : ∀ p ∈ s.above i, x ∈ p.unmergedLeaves) :
    ∀ p ∈ (s.alongPath f (Option.map (Ratchet.addUnmerged u)) j).above i, x ∈ p.unmergedLeaves := by
  induction s generalizing i j with
  | leaf => intro p hp; cases hp
  | @node k q l r ihl ihr =>
    intro p hp
    unfold Spec.Ratchet.above at h
    have key : p ∈ (q.map (Ratchet.addUnmerged u)).toList → x ∈ p.unmergedLeaves := by
      intro hp
      cases q with
      | none => cases hp
      | some q =>
        rw [Option.map_some, Option.toList_some, List.mem_singleton] at hp
        subst hp
        have := h q (by simp)
        simp [Ratchet.addUnmerged, this]
    unfold Spec.Ratchet.alongPath at hp
    by_cases hi : i < 2 ^ k
    · rw [if_pos hi] at h
      have hl : ∀ p ∈ l.above i, x ∈ p.unmergedLeaves := fun p hp => h p (List.mem_append_right _ hp)
      by_cases hj : j < 2 ^ k
      · rw [if_pos hj] at hp
        unfold Spec.Ratchet.above at hp
        rw [if_pos hi, List.mem_append] at hp
        exact hp.elim key (ihl hl p)
      · rw [if_neg hj] at hp
        unfold Spec.Ratchet.above at hp
        rw [if_pos hi, List.mem_append] at hp
        exact hp.elim key (hl p)
    · rw [if_neg hi] at h
      have hr : ∀ p ∈ r.above (i - 2 ^ k), x ∈ p.unmergedLeaves := fun p hp => h p (List.mem_append_right _ hp)
      by_cases hj : j < 2 ^ k
      · rw [if_pos hj] at hp
        unfold Spec.Ratchet.above at hp
        rw [if_neg hi, List.mem_append] at hp
        exact hp.elim key (hr p)
      · rw [if_neg hj] at hp
        unfold Spec.Ratchet.above at hp
        rw [if_neg hi, List.mem_append] at hp
        exact hp.elim key (ihr hr p)

/-- The `i`-th leaf is the member `n`, new in the tree. -/
def NewAt (a : Ratchet.Any ParentNode) (i : Nat) (n : LeafNode) : Prop :=
  i < 2 ^ a.1 ∧ a.2.leafAt i = some n ∧ ∀ p ∈ a.2.above i, UInt32.ofNat i ∈ p.unmergedLeaves

/-- The `i`-th leaf is that of a member. -/
def TakenAt (t : Option (Ratchet.Any ParentNode)) (i : Nat) : Prop := ∃ a n, t = some a ∧ i < 2 ^ a.1 ∧ a.2.leafAt i = some n

theorem newAt_add (t : Option (Ratchet.Any ParentNode)) (n : LeafNode) : ∃ i, NewAt (Ratchet.addOpt t n) i n ∧ ¬ TakenAt t i := by
  cases t with
  | none => exact ⟨0, ⟨by simp [Ratchet.addOpt], rfl, fun p hp => by cases hp⟩, fun ⟨_, _, h, _⟩ => by cases h⟩
  | some a =>
    show ∃ i, NewAt (a.2.add n) i n ∧ _
    rcases add_eq_alongPath a.2 n with ⟨_, e⟩ | ⟨j, hf, e⟩
    · rw [e]
      have hlt : 2 ^ a.1 < 2 ^ (a.1 + 1) := Nat.pow_lt_pow_right (by decide) (by omega)
      refine ⟨2 ^ a.1, ⟨hlt, by rw [leafAt_alongPath _ _ _ hlt hlt, if_pos rfl], fun p hp => above_self hp⟩, ?_⟩
      rintro ⟨b, _, h1, h2, _⟩
      cases h1
      omega
    · obtain ⟨hj, hb⟩ := firstBlank_leafAt hf
      rw [e]
      refine ⟨j, ⟨hj, by rw [leafAt_alongPath _ _ _ hj hj, if_pos rfl], fun p hp => above_self hp⟩, ?_⟩
      rintro ⟨b, _, h1, _, h3⟩
      cases h1
      rw [hb] at h3
      cases h3

theorem TakenAt.keep {t : Option (Ratchet.Any ParentNode)} {i : Nat} (h : TakenAt t i) (m : LeafNode) : TakenAt (some (Ratchet.addOpt t m)) i := by
  obtain ⟨a, n, rfl, h2, h3⟩ := h
  obtain ⟨g1, g2⟩ := add_keeps h2 h3 m
  exact ⟨_, n, rfl, g1, g2⟩

theorem TakenAt.update {t t' : Option (Ratchet.Any ParentNode)} {i j : Nat} (h : TakenAt t i) {n : LeafNode} (he : Ratchet.updateOpt t j n = some t') :
    TakenAt t' i := by
  obtain ⟨a, m, rfl, h2, h3⟩ := h
  unfold Ratchet.updateOpt at he
  split at he
  · cases he
  · next d s ha =>
    cases ha
    split at he
    · next hj =>
      cases he
      have := leafAt_alongPath s (fun _ => some n) (fun _ => none) hj h2
      by_cases hij : i = j
      · rw [if_pos hij] at this
        exact ⟨_, n, rfl, h2, this⟩
      · rw [if_neg hij] at this
        exact ⟨_, m, rfl, h2, this.trans h3⟩
    · cases he

theorem occupied_of_leafAt {P : Type} {d : Nat} {s : Ratchet P d} {i : Nat} {n : LeafNode} (h : s.leafAt i = some n) : s.occupied = true := by
  induction s generalizing i with
  | leaf o =>
    have : o = some n := h
    rw [this]
    rfl
  | @node k p l r ihl ihr =>
    unfold Ratchet.leafAt at h
    unfold Ratchet.occupied
    split at h
    · rw [ihl h, Bool.true_or]
    · rw [ihr h, Bool.or_true]

theorem shrink_taken {d : Nat} {s : Ratchet ParentNode d} {i : Nat} {n : LeafNode} (hi : i < 2 ^ d) (h : s.leafAt i = some n) :
    TakenAt s.shrink i := by
  induction s generalizing i with
  | leaf o =>
    have : o = some n := h
    subst this
    exact ⟨_, n, rfl, hi, h⟩
  | @node k p l r ihl ihr =>
    unfold Ratchet.shrink
    split
    · exact ⟨_, n, rfl, hi, h⟩
    · next hr =>
      unfold Ratchet.leafAt at h
      split at h
      · next hl => exact ihl hl h
      · exact absurd (occupied_of_leafAt h) hr

theorem TakenAt.remove {t t' : Option (Ratchet.Any ParentNode)} {i j : Nat} (h : TakenAt t i) (hij : i ≠ j) (he : Ratchet.removeOpt t j = some t') :
    TakenAt t' i := by
  obtain ⟨a, m, rfl, h2, h3⟩ := h
  unfold Ratchet.removeOpt at he
  split at he
  · cases he
  · next d s ha =>
    cases ha
    split at he
    · next hj =>
      cases he
      have := leafAt_alongPath s (fun _ => none) (fun _ => none) hj h2
      rw [if_neg hij] at this
      exact shrink_taken h2 (this.trans h3)
    · cases he

theorem NewAt.keep {a : Ratchet.Any ParentNode} {i : Nat} {n : LeafNode} (h : NewAt a i n) (m : LeafNode) : NewAt (a.2.add m) i n := by
  obtain ⟨h1, h2, h3⟩ := h
  obtain ⟨g1, g2⟩ := add_keeps h1 h2 m
  refine ⟨g1, g2, ?_⟩
  rcases add_eq_alongPath a.2 m with ⟨_, e⟩ | ⟨j, _, e⟩
  · rw [e]
    apply above_keep
    unfold Spec.Ratchet.above
    rw [if_pos h1]
    exact h3
  · rw [e]
    exact above_keep h3

theorem newAt_adds (ns : List LeafNode) {t : Option (Ratchet.Any ParentNode)} {b : Ratchet.Any ParentNode}
    (h : ns.foldl (fun t n => some (Ratchet.addOpt t n)) t = some b) {n : LeafNode} (hn : n ∈ ns) : ∃ i, NewAt b i n ∧ ¬ TakenAt t i := by
  have keep : ∀ (ns : List LeafNode) {a : Ratchet.Any ParentNode} {i : Nat}, NewAt a i n →
      ns.foldl (fun t n => some (Ratchet.addOpt t n)) (some a) = some b → NewAt b i n := by
    intro ns
    induction ns with
    | nil => intro a i ha h; cases h; exact ha
    | cons m ns ih => intro a i ha h; exact ih (ha.keep m) h
  induction ns generalizing t with
  | nil => cases hn
  | cons m ns ih =>
    rw [List.foldl_cons] at h
    rcases List.mem_cons.1 hn with rfl | hn
    · obtain ⟨i, hi, hb⟩ := newAt_add t n
      exact ⟨i, keep ns hi h, hb⟩
    · obtain ⟨i, hi, hb⟩ := ih h hn
      exact ⟨i, hi, fun ht => hb (ht.keep m)⟩

theorem merge_apart {H : Bytes → Bytes} {n : LeafNode} {d : Nat} {s : Ratchet ParentNode d} {i0 c i : Nat} {keys : List Bytes} {prev : Bytes}
    {x : Ratchet ParentNode d × Bytes} (h : s.merge H n i0 c keys prev = some x) (hne : i ≠ c) (hi : i < 2 ^ d) (hc : c < 2 ^ d) :
    x.1.apart c i = s.apart c i ∧ x.1.leafAt i = s.leafAt i := by
  induction s generalizing i0 c i keys prev with
  | leaf => simp at hi hc; omega
  | @node k q l r ihl ihr =>
    rw [Nat.pow_succ] at hi hc
    have left : ∀ {q' : Option ParentNode} {i0 keys prev} {a : Ratchet ParentNode k × Bytes}, c < 2 ^ k → l.merge H n i0 c keys prev = some a →
        (Ratchet.node q' a.1 r).apart c i = (Ratchet.node q l r).apart c i ∧ (Ratchet.node q' a.1 r).leafAt i = (Ratchet.node q l r).leafAt i := by
      intro q' i0 keys prev a hc' ha
      unfold Spec.Ratchet.apart Spec.Ratchet.leafAt
      by_cases hi' : i < 2 ^ k
      · simp only [if_pos hi', if_pos hc']
        exact ihl ha hne hi' hc'
      · simp only [if_neg hi', if_pos hc', and_self]
    have right : ∀ {q' : Option ParentNode} {i0 keys prev} {a : Ratchet ParentNode k × Bytes}, ¬ c < 2 ^ k → r.merge H n i0 (c - 2 ^ k) keys prev = some a →
        (Ratchet.node q' l a.1).apart c i = (Ratchet.node q l r).apart c i ∧ (Ratchet.node q' l a.1).leafAt i = (Ratchet.node q l r).leafAt i := by
      intro q' i0 keys prev a hc' ha
      unfold Spec.Ratchet.apart Spec.Ratchet.leafAt
      by_cases hi' : i < 2 ^ k
      · simp only [if_pos hi', if_neg hc', and_self]
      · simp only [if_neg hi', if_neg hc']
        exact ihr ha (by omega) (by omega) (by omega)
    unfold Spec.Ratchet.merge at h
    split at h
    · next hc' =>
      split at h
      · obtain ⟨a, ha, rfl⟩ := Option.map_eq_some_iff.1 h
        exact left hc' ha
      · obtain ⟨z, _, h⟩ := Option.bind_eq_some_iff.1 h
        obtain ⟨a, ha, rfl⟩ := Option.map_eq_some_iff.1 h
        exact left hc' ha
    · next hc' =>
      split at h
      · obtain ⟨a, ha, rfl⟩ := Option.map_eq_some_iff.1 h
        exact right hc' ha
      · obtain ⟨z, _, h⟩ := Option.bind_eq_some_iff.1 h
        obtain ⟨a, ha, rfl⟩ := Option.map_eq_some_iff.1 h
        exact right hc' ha

theorem node_above {t : VTree} {k : Nat} {s : Ratchet ParentNode k} {j i : Nat} (h : VAt t j s) (hi : i < 2 ^ k) {m : Nat} (hm : 0 < m) (hmk : m ≤ k)
    {q : ParentNode} (hq : nodeAt t (idx m ((j * 2 ^ k + i) / 2 ^ m)) = some (.parent q)) :
    q ∈ s.above i ∧ ∀ c, c < 2 ^ k → (j * 2 ^ k + c) / 2 ^ m ≠ (j * 2 ^ k + i) / 2 ^ m → q ∈ s.apart c i := by
  induction s generalizing j i with
  | leaf => omega
  | @node k p l r ihl ihr =>
    obtain ⟨h1, h2, h3⟩ := h
    have hpos : 0 < 2 ^ k := Nat.two_pow_pos k
    have hk : 2 ^ (k + 1) = 2 * 2 ^ k := by rw [Nat.pow_succ]; omega
    have e1 : ∀ z, j * 2 ^ (k + 1) + z = 2 * j * 2 ^ k + z := by intro z; rw [hk]; congr 1; rw [← Nat.mul_assoc, Nat.mul_comm j 2]
    have e2 : ∀ z, 2 ^ k ≤ z → j * 2 ^ (k + 1) + z = (2 * j + 1) * 2 ^ k + (z - 2 ^ k) := by
      intro z hz; rw [e1, Nat.add_mul, Nat.one_mul]; omega
    rcases Nat.eq_or_lt_of_le hmk with rfl | hlt
    · have hdiv : ∀ z, z < 2 ^ (k + 1) → (j * 2 ^ (k + 1) + z) / 2 ^ (k + 1) = j := by
        intro z hz
        rw [Nat.mul_comm, Nat.mul_add_div (Nat.two_pow_pos _), Nat.div_eq_of_lt hz, Nat.add_zero]
      rw [hdiv i hi, nodeAt_eq h1] at hq
      cases p with
      | none => cases hq
      | some p =>
        cases hq
        refine ⟨by unfold Spec.Ratchet.above; simp, fun c hc hne => ?_⟩
        rw [hdiv c hc, hdiv i hi] at hne
        exact absurd rfl hne
    · have hmk' : m ≤ k := by omega
      unfold Spec.Ratchet.above Spec.Ratchet.apart
      by_cases hi' : i < 2 ^ k
      · rw [e1] at hq
        obtain ⟨g1, g2⟩ := ihl h2 hi' hmk' hq
        simp only [if_pos hi']
        refine ⟨List.mem_append_right _ g1, fun c hc hne => ?_⟩
        split
        · next hc' => exact g2 c hc' (by rw [← e1, ← e1]; exact hne)
        · exact g1
      · rw [e2 i (by omega)] at hq
        obtain ⟨g1, g2⟩ := ihr h3 (by omega) hmk' hq
        simp only [if_neg hi']
        refine ⟨List.mem_append_right _ g1, fun c hc hne => ?_⟩
        split
        · exact g1
        · next hc' => exact g2 (c - 2 ^ k) (by omega) (by rw [← e2 c (by omega), ← e2 i (by omega)]; exact hne)

/-- **C120**: who is added by a commit made as RFC 9420 says, and is given a path secret if the commit has a path, lacks none of its keys. -/
theorem C120_provided {sd : SuiteDesc} {e : Spec.Epoch} {pending : List PendingProposal} {d0 : Nat} {s0 : Ratchet ParentNode d0} {wf : WireFormat}
    {c : Spec.Rfc.Committer} {proposals : List ProposalOrRef} {withPath : Bool} {m : Spec.Rfc.Made}
    (hm : Spec.Rfc.makeCommit pr sd e pending s0 wf c proposals withPath = some m) {l : List (Proposal × UInt32)}
    (hl : Spec.resolve c.sender pending proposals = some l) {k : KeyPackage} {u : UInt32} (hk : (.add k, u) ∈ l) (hd : m.tree.1 ≤ 31)
    {n0 : LeafNode} (hcs : c.sender.toNat < 2 ^ d0) (hown : s0.leafAt c.sender.toNat = some n0)
    (hrem : ∀ i v, (.remove i, v) ∈ l → i.toNat % 2 ^ 31 ≠ c.sender.toNat) :
    ∃ li, li < 2 ^ m.tree.1 ∧ c.sender.toNat < 2 ^ m.tree.1 ∧ li ≠ c.sender.toNat ∧ m.tree.2.leafAt li = some k.leafNode ∧
      ∀ ps : Option Bytes, (withPath = true → ps ≠ none) → Spec.Rfc.Provided (m.tree.2.flat .leaf .parent) c.sender.toNat li ps := by
  have hpow : 2 ^ m.tree.1 ≤ 2 ^ 31 := Nat.pow_le_pow_right (by decide) hd
  have fin : ∀ {li j : Nat} {q : ParentNode}, c.sender.toNat < 2 ^ m.tree.1 → li < 2 ^ m.tree.1 → 0 < j → nodeAt (m.tree.2.flat Node.leaf Node.parent) (idx j (li / 2 ^ j)) = some (.parent q) →
      q ∈ m.tree.2.above li ∧ (c.sender.toNat / 2 ^ j ≠ li / 2 ^ j → q ∈ m.tree.2.apart c.sender.toNat li) := by
    intro li j q hcs hli hj hq
    have hjd : j ≤ m.tree.1 := by
      by_contra hlt
      have := nodeAt_lt hq
      rw [flat_length, Nat.div_eq_of_lt (Nat.lt_of_lt_of_le hli (Nat.pow_le_pow_right (by decide) (by omega)))] at this
      have h3 : 2 ^ (m.tree.1 + 1) ≤ 2 ^ j := Nat.pow_le_pow_right (by decide) (by omega)
      unfold idx at this
      omega
    have := node_above (at_flat Node.leaf Node.parent m.tree.2) hli hj hjd (q := q) (by rw [Nat.zero_mul, Nat.zero_add]; exact hq)
    simp only [Nat.zero_mul, Nat.zero_add] at this
    exact ⟨this.1, this.2 _ hcs⟩
  have hnum : ∀ {li : Nat}, li < 2 ^ m.tree.1 → Spec.leafNumber (UInt32.ofNat li) = 2 * li := by
    intro li hli
    unfold Spec.leafNumber
    rw [UInt32.toNat_ofNat']
    omega
  unfold Spec.Rfc.makeCommit at hm
  simp only [hl, Option.bind_eq_bind, Option.bind_some, Option.bind_eq_some_iff] at hm
  obtain ⟨a, ha, hm⟩ := hm
  match a, ha, hm with
  | some ⟨d, s⟩, ha, hm =>
    have hnew : ∃ i, NewAt ⟨d, s⟩ i k.leafNode ∧ i ≠ c.sender.toNat ∧ c.sender.toNat < 2 ^ d := by
      unfold Spec.applyProposals Spec.Ratchet.applyAll at ha
      obtain ⟨t, ht0, ht⟩ := Option.map_eq_some_iff.1 ha
      obtain ⟨t1, ht1, ht2⟩ := Option.bind_eq_some_iff.1 ht0
      have taken : TakenAt t c.sender.toNat := by
        have g1 : TakenAt t1 c.sender.toNat :=
          foldlM_keeps (Q := fun t => TakenAt t c.sender.toNat) (fun _ _ _ h he => h.update he) _ ⟨_, n0, rfl, hcs, hown⟩ ht1
        have rem : ∀ (rs : List UInt32) {t1 t : Option (Ratchet.Any ParentNode)}, (∀ i ∈ rs, i.toNat ≠ c.sender.toNat) → TakenAt t1 c.sender.toNat →
            rs.foldlM (fun t i => Ratchet.removeOpt t i.toNat) t1 = some t → TakenAt t c.sender.toNat := by
          intro rs
          induction rs with
          | nil => intro t1 t _ h he; cases he; exact h
          | cons i rs ih =>
            intro t1 t hne h he
            rw [List.foldlM_cons] at he
            obtain ⟨t2, h2, h3⟩ := Option.bind_eq_some_iff.1 he
            exact ih (fun i hi => hne i (List.mem_cons_of_mem _ hi)) (h.remove (fun he => hne i List.mem_cons_self he.symm) h2) h3
        refine rem _ (fun i hi => ?_) g1 ht2
        obtain ⟨p, h1, h2⟩ := List.mem_filterMap.1 hi
        obtain ⟨⟨p', v⟩, h3, rfl⟩ := List.mem_map.1 h1
        cases p' <;> simp only [Proposal.low] at h2 <;> try cases h2
        rw [lowIndex_toNat]
        exact hrem _ _ h3
      obtain ⟨i, hi, hb⟩ := newAt_adds _ ht (n := k.leafNode) (List.mem_filterMap.2 ⟨.add k, List.mem_map.2 ⟨_, hk, rfl⟩, rfl⟩)
      refine ⟨i, hi, fun he => hb (he ▸ taken), ?_⟩
      have keep : ∀ (ns : List LeafNode) {t : Option (Ratchet.Any ParentNode)}, TakenAt t c.sender.toNat →
          TakenAt (ns.foldl (fun t n => some (Ratchet.addOpt t n)) t) c.sender.toNat := by
        intro ns
        induction ns with
        | nil => exact fun h => h
        | cons n ns ih => exact fun h => ih (h.keep n)
      have := keep (Ratchet.addsOf (l.map fun p => p.1.low)) taken
      rw [ht] at this
      obtain ⟨b, _, h1, h2, _⟩ := this
      cases h1
      exact h2
    obtain ⟨li, ⟨n1, n2, n3⟩, hne, hcs'⟩ := hnew
    simp only at n1 n2 n3
    cases withPath with
    | true =>
      simp only [if_true, Option.bind_eq_some_iff] at hm
      obtain ⟨⟨path, s', th⟩, hp, hm⟩ := hm
      obtain ⟨_, _, _, _, _, _, ht, _⟩ := confirm_made hm
      obtain ⟨_, _, _, _, _, _, hmerge, _⟩ := updatePath_made hp
      obtain ⟨⟨s2, ph⟩, hx, hs2⟩ : ∃ x, s.merge (pr.hash sd.hash) path.leafNode 0 c.sender.toNat (path.nodes.map fun n => n.encryptionKey).reverse [] = some x ∧
          x.1 = s' := by
        unfold Spec.Ratchet.mergePath at hmerge
        split at hmerge
        · next s3 ph h3 =>
          split at hmerge
          · cases hmerge; exact ⟨_, h3, rfl⟩
          · cases hmerge
        · cases hmerge
      simp only at hs2 ht
      subst hs2
      rw [ht] at fin hnum ⊢
      obtain ⟨g1, g2⟩ := merge_apart hx hne n1 hcs'
      refine ⟨li, n1, hcs', hne, g2.trans n2, fun ps hps j q hj hq => ?_⟩
      by_cases heq : c.sender.toNat / 2 ^ j = li / 2 ^ j
      · exact .inr ⟨hps rfl, heq⟩
      · have := (fin hcs' n1 hj hq).2 heq
        simp only at this g1
        rw [g1] at this
        exact .inl ⟨_, n3 q (apart_above this), hnum n1⟩
    | false =>
      simp only [Bool.false_eq_true, if_false, Option.bind_eq_some_iff] at hm
      obtain ⟨th, _, hm⟩ := hm
      obtain ⟨_, _, _, _, _, _, ht, _⟩ := confirm_made hm
      rw [ht] at fin hnum ⊢
      exact ⟨li, n1, hcs', hne, n2, fun ps _ j q hj hq => .inl ⟨_, n3 q (fin hcs' n1 hj hq).1, hnum n1⟩⟩

/-- **C120**, the keys: who joins as in C120_joins, with nothing missing among its keys, holds the keys of a member. -/
theorem C120_keyed (hc : pr.Correct) {w : Welcome} {kp : KeyPairPackage} {now : GoTime} {st : GroupState} (h : groupFromWelcome pr w kp now = .ok st)
    {sd : SuiteDesc} {e : Spec.Epoch} (hsd : suite e.context.cipherSuite = .ok sd) {d : Nat} {s : Ratchet ParentNode d} {i li : Nat} (hli : li < 2 ^ d)
    {ps : Option Bytes} (hv : st.vtree = s.flat .leaf .parent) (he : st.group.keyState = e)
    (hmy : st.group.myLeafIndex.toNat = li) (hj : Spec.JoinKeys pr sd d i li kp.priv.encryptionKey ps st.group.privTree)
    (ho : Spec.KeyOpens pr sd kp.pub.leafNode.encryptionKey kp.priv.encryptionKey) (hpr : Spec.Rfc.Provided (s.flat .leaf .parent) i li ps) :
    Keyed pr st := by
  have hsd' : suite st.group.groupContext.cipherSuite = .ok sd := by
    rw [← he] at hsd
    exact hsd
  refine join_keyed hc h (fun sd2 h2 => ?_) fun x q hx hq hu => ?_
  · rw [hsd'] at h2
    cases h2
    exact ho
  · obtain ⟨j, hj0, rfl⟩ := hx
    rw [hmy, hv] at *
    rcases hpr j q hj0 hq with ⟨u, h1, h2⟩ | ⟨h1, h2⟩
    · exact absurd h2 (hu u h1)
    · cases ps with
      | none => exact absurd rfl h1
      | some ps =>
        obtain ⟨_, m, g1, g2, g3, g4, _⟩ := hj
        have hmj : m ≤ j := by
          by_contra hlt
          exact g3 j (by omega) h2
        have hjd : j ≤ d := by
          by_contra hlt
          have := nodeAt_lt hq
          rw [flat_length, Nat.div_eq_of_lt (Nat.lt_of_lt_of_le hli (Nat.pow_le_pow_right (by decide) (by omega)))] at this
          have h3 : 2 ^ (d + 1) ≤ 2 ^ j := Nat.pow_le_pow_right (by decide) (by omega)
          unfold idx at this
          omega
        exact ⟨_, g4 j hmj hjd⟩

/-- **C120**, over time: who joins as in C120_joins, with nothing missing among its keys, follows every course of commits made as RFC 9420 says from there on. -/
theorem C120_life (hc : pr.Correct) {w : Welcome} {kp : KeyPairPackage} {now : GoTime} {st : GroupState} (h : groupFromWelcome pr w kp now = .ok st)
    {sd : SuiteDesc} {e : Spec.Epoch} (hsd : suite e.context.cipherSuite = .ok sd) {d : Nat} {s : Ratchet ParentNode d} {i li : Nat} (hli : li < 2 ^ d)
    {ps : Option Bytes} (hv : st.vtree = s.flat .leaf .parent) (he : st.group.keyState = e) (hp : st.group.pendingProposals = [])
    (hmy : st.group.myLeafIndex.toNat = li) (hj : Spec.JoinKeys pr sd d i li kp.priv.encryptionKey ps st.group.privTree)
    (ho : Spec.KeyOpens pr sd kp.pub.leafNode.encryptionKey kp.priv.encryptionKey) (hpr : Spec.Rfc.Provided (s.flat .leaf .parent) i li ps)
    {e' : Spec.Epoch} {t' : Ratchet.Any ParentNode} {raws : List Bytes}
    (hco : Spec.Rfc.Course pr sd (UInt32.ofNat li) e ⟨d, s⟩ raws e' t') {msgs : List (Bytes × GoTime)} (hm : msgs.map Prod.fst = raws) :
    ∃ st', processAll pr st msgs = (msgs.map fun _ => .ok none, st') ∧ st'.vtree = t'.2.flat .leaf .parent ∧ st'.group.keyState = e' ∧
      st'.group.pendingProposals = [] ∧ st'.group.myLeafIndex = UInt32.ofNat li ∧ Keyed pr st' ∧ Reachable pr st' := by
  have hsd' : suite st.group.groupContext.cipherSuite = .ok sd := by
    rw [← he] at hsd
    exact hsd
  have hk := C120_keyed hc h hsd hli hv he hmy hj ho hpr
  exact C119_course hc hco (.join h) hk hsd' (by rw [← hmy, UInt32.ofNat_toNat]) hv he hp hm

/-- **C120**, in one: a member of a group makes a commit with an addition as RFC 9420 says, and a welcome for this commit, with a path secret for the new member
if the commit has a path. Then the new member can join at every time at which the new tree is valid, comes to the epoch and the tree of the committer, and
follows every course of commits made as RFC 9420 says from there on. -/
theorem C120_added (hc : pr.Correct) {sd : SuiteDesc} {e : Spec.Epoch} (hsd : suite e.context.cipherSuite = .ok sd) (hver : e.context.version = 1)
    {pending : List PendingProposal} {d0 : Nat} {s0 : Ratchet ParentNode d0} (hsn : s0.snug = true) {wf : WireFormat}
    {c : Spec.Rfc.Committer} {proposals : List ProposalOrRef} {withPath : Bool} {m : Spec.Rfc.Made}
    (hm : Spec.Rfc.makeCommit pr sd e pending s0 wf c proposals withPath = some m) {l : List (Proposal × UInt32)}
    (hl : Spec.resolve c.sender pending proposals = some l) {n0 : LeafNode} (hcs : c.sender.toNat < 2 ^ d0)
    (hin : s0.leafAt c.sender.toNat = some n0) (hrem : ∀ i v, (.remove i, v) ∈ l → i.toNat % 2 ^ 31 ≠ c.sender.toNat)
    {js : Bytes} (hjs : Spec.Rfc.joinerOf pr sd e c m = some js) {signKey rand : Bytes} {extra : List Extension} (hx : ∀ x ∈ extra, x.ty ≠ 2)
    {guests : List Spec.Rfc.Guest} {w : Welcome} (hw : Spec.Rfc.makeWelcome pr sd m.epoch js m.tree c.sender signKey rand extra guests = some w)
    (hkey : ∃ old r, nodeAt (m.tree.2.flat Node.leaf Node.parent) (2 * c.sender.toNat) = some (.leaf old) ∧ old.signatureKey = (pr.sigKeyPair sd.sig r).1 ∧
      signKey = (pr.sigKeyPair sd.sig r).2)
    {g : Spec.Rfc.Guest} (hg : g ∈ guests) (hu : ∀ g' ∈ guests, Spec.Rfc.refHash pr sd "MLS 1.0 KeyPackage Reference" (Spec.Rfc.keyPackage g'.package) =
      Spec.Rfc.refHash pr sd "MLS 1.0 KeyPackage Reference" (Spec.Rfc.keyPackage g.package) → g' = g) {u : UInt32} (hk : (.add g.package, u) ∈ l)
    {kp : KeyPairPackage} (hkp : kp.pub = g.package) (hpc : kp.pub.cipherSuite = e.context.cipherSuite)
    (ho : Spec.KeyOpens pr sd kp.pub.initKey kp.priv.initKey) (ho' : Spec.KeyOpens pr sd kp.pub.leafNode.encryptionKey kp.priv.encryptionKey)
    {now : GoTime} (hval : Spec.TreeValid pr (pr.hash sd.hash) m.epoch.context now (m.tree.2.flat .leaf .parent) m.tree.2)
    (hpath : withPath = true → g.pathSecret ≠ none) (hd : m.tree.1 ≤ 31)
    (hps : ∀ li ps, li < 2 ^ m.tree.1 → m.tree.2.leafAt li = some kp.pub.leafNode → g.pathSecret = some ps →
      Spec.SecretFits pr sd (m.tree.2.flat .leaf .parent) m.tree.1 c.sender.toNat li ps) :
    ∃ st li, groupFromWelcome pr w kp now = .ok st ∧ st.vtree = m.tree.2.flat .leaf .parent ∧ st.group.keyState = m.epoch ∧
      st.group.pendingProposals = [] ∧ st.group.myLeafIndex = UInt32.ofNat li ∧ m.tree.2.leafAt li = some kp.pub.leafNode ∧
      ∀ raws e' t', Spec.Rfc.Course pr sd (UInt32.ofNat li) m.epoch m.tree raws e' t' → ∀ msgs : List (Bytes × GoTime), msgs.map Prod.fst = raws →
        ∃ st', processAll pr st msgs = (msgs.map fun _ => .ok none, st') ∧ st'.vtree = t'.2.flat .leaf .parent ∧ st'.group.keyState = e' ∧
          st'.group.pendingProposals = [] ∧ st'.group.myLeafIndex = UInt32.ofNat li ∧ Keyed pr st' ∧ Reachable pr st' := by
  obtain ⟨js', hjs', hen⟩ := C120_entered hm
  rw [hjs] at hjs'
  cases hjs'
  obtain ⟨li, p1, p2, p3, p4, p5⟩ := C120_provided hm hl hk hd hcs hin hrem
  have hctx : m.epoch.context.cipherSuite = e.context.cipherSuite ∧ m.epoch.context.version = e.context.version ∧ m.tree.2.snug = true := by
    have hm' := hm
    unfold Spec.Rfc.makeCommit at hm'
    simp only [Option.bind_eq_bind, Option.bind_eq_some_iff] at hm'
    obtain ⟨l', _, a, ha, hm'⟩ := hm'
    match a, ha, hm' with
    | some ⟨d, s⟩, ha, hm' =>
      have hs := snug_all (t := some ⟨d0, s0⟩) (fun a ha => by cases ha; exact hsn) ha _ rfl
      cases withPath with
      | true =>
        simp only [if_true, Option.bind_eq_some_iff] at hm'
        obtain ⟨⟨path, s', th⟩, hp, hm'⟩ := hm'
        obtain ⟨_, _, _, _, _, _, ht, _, _, _, _, _, hx, _⟩ := confirm_made hm'
        obtain ⟨_, _, _, _, _, _, hmerge, _⟩ := updatePath_made hp
        refine ⟨by rw [hx], by rw [hx], ?_⟩
        rw [ht]
        unfold Spec.Ratchet.mergePath at hmerge
        split at hmerge
        · next s3 ph h3 =>
          split at hmerge
          · cases hmerge; exact snug_merge h3 hs
          · cases hmerge
        · cases hmerge
      | false =>
        simp only [Bool.false_eq_true, if_false, Option.bind_eq_some_iff] at hm'
        obtain ⟨th, _, hm'⟩ := hm'
        obtain ⟨_, _, _, _, _, _, ht, _, _, _, _, _, hx, _⟩ := confirm_made hm'
        refine ⟨by rw [hx], by rw [hx], ?_⟩
        rw [ht]
        exact hs
  obtain ⟨q1, q2, q3⟩ := hctx
  rw [← hkp] at p4
  have hown : nodeAt (m.tree.2.flat Node.leaf Node.parent) (2 * li) = some (.leaf kp.pub.leafNode) := by
    have := at_leafAt (at_flat Node.leaf Node.parent m.tree.2) p1
    rw [Nat.zero_mul, Nat.zero_add, p4] at this
    exact this
  have hsd' : suite m.epoch.context.cipherSuite = .ok sd := by rw [q1]; exact hsd
  obtain ⟨st, j1, j2, j3, j4, j5, j6⟩ := C120_joins hc hsd' (q2.trans hver) hen q3 hx hw hkey hg hu hkp (hpc.trans q1.symm) ho hval p1 hown
    (fun ps h => hps li ps p1 p4 h)
  exact ⟨st, li, j1, j2, j3, j4, by rw [← j5, UInt32.ofNat_toNat], p4, fun raws e' t' hco msgs hmsgs =>
    C120_life hc j1 hsd' p1 j2 j3 j4 j5 j6 ho' (p5 _ hpath) hco hmsgs⟩

/-! ### A concrete case -/

/-- The hypotheses of C120_joins and C120_life about a guest, tested. -/
def guestCheck (sd : SuiteDesc) (e : Spec.Epoch) {d : Nat} (s : Ratchet ParentNode d) (signer : UInt32) (guests : List Spec.Rfc.Guest) (kp : KeyPairPackage)
    (li : Nat) (g : Spec.Rfc.Guest) (now : GoTime) : Bool :=
  decide (g ∈ guests) && decide (kp.pub = g.package) && decide (kp.pub.cipherSuite = e.context.cipherSuite) && decide (kp.pub.version = 1) &&
  (guests.all fun g' => decide (Spec.Rfc.refHash toyPrims sd "MLS 1.0 KeyPackage Reference" (Spec.Rfc.keyPackage g'.package) =
    Spec.Rfc.refHash toyPrims sd "MLS 1.0 KeyPackage Reference" (Spec.Rfc.keyPackage g.package) → g' = g)) &&
  decide (d ≤ 31 ∧ signer.toNat < 2 ^ d ∧ li < 2 ^ d) && decide (verifyIntegrity toyPrims (s.flat .leaf .parent) e.context now = .ok ()) &&
  decide (nodeAt (s.flat Node.leaf Node.parent) (2 * li) = some (.leaf kp.pub.leafNode)) &&
  ((joinerPrivTree toyPrims e.context.cipherSuite (s.flat .leaf .parent) li signer kp.priv.encryptionKey g.pathSecret).holds fun _ => true) &&
  (List.range (d + 1)).all fun j => match nodeAt (s.flat Node.leaf Node.parent) (idx j (li / 2 ^ j)) with
    | some (.parent q) => decide (j = 0) || q.unmergedLeaves.any (fun u => decide (Spec.leafNumber u = 2 * li)) ||
      decide (g.pathSecret ≠ none ∧ signer.toNat / 2 ^ j = li / 2 ^ j)
    | _ => true

theorem guestCheck_true {sd : SuiteDesc} {e : Spec.Epoch} (hsd : suite e.context.cipherSuite = .ok sd) {d : Nat} {s : Ratchet ParentNode d} {signer : UInt32}
    {guests : List Spec.Rfc.Guest} {kp : KeyPairPackage} {li : Nat} {g : Spec.Rfc.Guest} {now : GoTime}
    (h : guestCheck sd e s signer guests kp li g now = true) :
    g ∈ guests ∧ kp.pub = g.package ∧ kp.pub.cipherSuite = e.context.cipherSuite ∧ kp.pub.version = 1 ∧
    (∀ g' ∈ guests, Spec.Rfc.refHash toyPrims sd "MLS 1.0 KeyPackage Reference" (Spec.Rfc.keyPackage g'.package) =
      Spec.Rfc.refHash toyPrims sd "MLS 1.0 KeyPackage Reference" (Spec.Rfc.keyPackage g.package) → g' = g) ∧
    Spec.TreeValid toyPrims (toyPrims.hash sd.hash) e.context now (s.flat .leaf .parent) s ∧ li < 2 ^ d ∧
    nodeAt (s.flat Node.leaf Node.parent) (2 * li) = some (.leaf kp.pub.leafNode) ∧
    (∀ ps, g.pathSecret = some ps → Spec.SecretFits toyPrims sd (s.flat .leaf .parent) d signer.toNat li ps) ∧
    Spec.Rfc.Provided (s.flat .leaf .parent) signer.toNat li g.pathSecret := by
  unfold guestCheck at h
  simp only [Bool.and_eq_true, decide_eq_true_eq, List.all_eq_true] at h
  obtain ⟨⟨⟨⟨⟨⟨⟨⟨⟨h1, h2⟩, h3⟩, h4⟩, h5⟩, h6, h7, h8⟩, h9⟩, h10⟩, h11⟩, h12⟩ := h
  have hpow : 2 ^ d ≤ 2 ^ 31 := Nat.pow_le_pow_right (by decide) h6
  have hlen : (s.flat Node.leaf Node.parent).length = 2 ^ (d + 1) - 1 := flat_length _ _ _
  refine ⟨h1, h2, h3, h4, h5, ?_, h8, h10, ?_, fun j q hj hq => ?_⟩
  · obtain ⟨sd2, g1, s2, g2⟩ := (C29_integrity toyPrims_correct h6 hlen e.context now).1 h9
    rw [hsd] at g1
    cases g1
    obtain rfl := flat_inj _ _ g2.array
    exact g2
  · obtain ⟨keys, hk, -⟩ := Res.holds_ok h11
    exact (joinerPrivTree_iff toyPrims_correct hsd h6 hlen h7 h8 (Nat.mod_eq_of_lt (by omega)) _ _).1 ⟨keys, hk⟩
  · have hjd : j < d + 1 := by
      by_contra hlt
      have := nodeAt_lt hq
      rw [hlen, Nat.div_eq_of_lt (Nat.lt_of_lt_of_le h8 (Nat.pow_le_pow_right (by decide) (by omega)))] at this
      have h3 : 2 ^ (d + 1) ≤ 2 ^ j := Nat.pow_le_pow_right (by decide) (by omega)
      unfold idx at this
      omega
    have := h12 j (List.mem_range.2 hjd)
    rw [hq] at this
    simp only [Bool.or_eq_true, decide_eq_true_eq, List.any_eq_true] at this
    rcases this with (h | h) | h
    · omega
    · exact .inl h
    · exact .inr h

/-- Two guests, with the path secrets of the commit number 9 for the nodes where they meet the committer. -/
def toyGuests (sd : SuiteDesc) : List Spec.Rfc.Guest :=
  [⟨(toyMember 3).pub, some (List.replicate 32 9), [1]⟩, ⟨(toyMember 4).pub, some (Spec.pathSecret toyPrims sd (List.replicate 32 9) 1), [2]⟩]

set_option maxRecDepth 100000 in
/-- **A concrete case for C120**: in the group of three, the member at leaf 1 removes the creator and adds two members, at the leaves 0 and 3; it welcomes both
and goes on to make two further commits. Both join and follow. -/
example : ∃ a b c : GroupState, toyThree = .ok (a, b, c) ∧ ∃ sd m js w,
    Spec.Rfc.makeCommit toyPrims sd c.group.keyState [] (ratchetOf c.vtree 2 0) .privateMessage (toyCommitter 9)
      [.proposal (.remove 0), .proposal (.add (toyMember 3).pub), .proposal (.add (toyMember 4).pub)] true = some m ∧
    Spec.Rfc.joinerOf toyPrims sd c.group.keyState (toyCommitter 9) m = some js ∧
    Spec.Rfc.makeWelcome toyPrims sd m.epoch js m.tree 1 [11, 1] [] [] (toyGuests sd) = some w ∧
    ∀ x ∈ [((3 : UInt8), (0 : Nat)), (4, 3)], ∃ st, groupFromWelcome toyPrims w (toyMember x.1) toyLater = .ok st ∧ st.group.keyState = m.epoch ∧
      ∃ raws e' t', raws.length = 2 ∧ Spec.Rfc.Course toyPrims sd (UInt32.ofNat x.2) m.epoch m.tree raws e' t' ∧
      ∀ msgs : List (Bytes × GoTime), msgs.map Prod.fst = raws → ∃ st', processAll toyPrims st msgs = (msgs.map fun _ => .ok none, st') ∧
        st'.vtree = t'.2.flat .leaf .parent ∧ st'.group.keyState = e' := by
  obtain ⟨⟨a, b, c⟩, h, hx⟩ := Res.holds_ok (x := toyThree) (f := fun x =>
    (suite x.2.2.group.groupContext.cipherSuite).holds fun sd =>
      match Spec.Rfc.makeCommit toyPrims sd x.2.2.group.keyState [] (ratchetOf x.2.2.vtree 2 0) .privateMessage (toyCommitter 9)
        [.proposal (.remove 0), .proposal (.add (toyMember 3).pub), .proposal (.add (toyMember 4).pub)] true with
      | none => false
      | some m => decide (m.epoch.context.cipherSuite = x.2.2.group.groupContext.cipherSuite ∧ m.epoch.context.cipherSuite = 1 ∧ m.epoch.context.version = 1) && m.tree.2.snug &&
        (match Spec.Rfc.joinerOf toyPrims sd x.2.2.group.keyState (toyCommitter 9) m with
          | none => false
          | some js => (Spec.Rfc.makeWelcome toyPrims sd m.epoch js m.tree 1 [11, 1] [] [] (toyGuests sd)).isSome) &&
        (match nodeAt (m.tree.2.flat Node.leaf Node.parent) (2 * (1 : UInt32).toNat) with
          | some (.leaf old) => decide (old.signatureKey = (toyPrims.sigKeyPair sd.sig [11, 1]).1 ∧ [11, 1] = (toyPrims.sigKeyPair sd.sig [11, 1]).2)
          | _ => false) &&
        [((3 : UInt8), (0 : Nat)), (4, 3)].all fun y => ((toyGuests sd)[y.1.toNat - 3]?.any fun g =>
            guestCheck sd m.epoch m.tree.2 1 (toyGuests sd) (toyMember y.1) y.2 g toyLater) &&
          courseCheck sd (UInt32.ofNat y.2) m.epoch m.tree [(.publicMessage, toyCommitter 8, []), (.privateMessage, toyCommitter 7, [])])
    (by decide +kernel)
  obtain ⟨sd, hsd, hx⟩ := Res.holds_ok hx
  split at hx
  · cases hx
  · next m hm =>
    simp only [Bool.and_eq_true, decide_eq_true_eq, List.all_eq_true] at hx
    obtain ⟨⟨⟨⟨⟨h1, h1', h2⟩, h3⟩, h4⟩, h5⟩, h6⟩ := hx
    obtain ⟨js, hjs, hen⟩ := C120_entered hm
    rw [hjs] at h4
    obtain ⟨w, hw⟩ := Option.isSome_iff_exists.1 h4
    refine ⟨a, b, c, h, sd, m, js, w, hm, hjs, hw, fun y hy => ?_⟩
    obtain ⟨h7, h8⟩ := h6 y hy
    obtain ⟨g, h7⟩ : ∃ g, guestCheck sd m.epoch m.tree.2 1 (toyGuests sd) (toyMember y.1) y.2 g toyLater = true := by
      cases ho : (toyGuests sd)[y.1.toNat - 3]? with
      | none => rw [ho] at h7; cases h7
      | some g => rw [ho] at h7; exact ⟨g, h7⟩
    have hsd' : suite m.epoch.context.cipherSuite = .ok sd := by rw [h1]; exact hsd
    obtain ⟨k1, k2, k3, k4, k5, k6, k7, k8, k9, k10⟩ := guestCheck_true hsd' h7
    obtain ⟨r, hr⟩ := toyMember_generated y.1 k4
    have hkey : ∃ old r, nodeAt (m.tree.2.flat Node.leaf Node.parent) (2 * (1 : UInt32).toNat) = some (.leaf old) ∧
        old.signatureKey = (toyPrims.sigKeyPair sd.sig r).1 ∧ [11, 1] = (toyPrims.sigKeyPair sd.sig r).2 := by
      split at h5
      · next old ho => exact ⟨old, _, ho, of_decide_eq_true h5⟩
      · cases h5
    have hs1 : suite 1 = .ok sd := by rw [← h1']; exact hsd'
    obtain ⟨st, j1, j2, j3, j4, j5, j6⟩ := C120_joins toyPrims_correct hsd' h2 hen h3 (by simp) hw hkey k1 k5 k2 k3
      (generated_init_opens toyPrims_correct hr hs1) k6 k7 k8 k9
    obtain ⟨raws, e', t', g1, g2⟩ := courseCheck_true h8
    refine ⟨st, j1, j3, raws, e', t', g1, g2, fun msgs hmsgs => ?_⟩
    obtain ⟨st', p1, p2, p3, _⟩ := C120_life toyPrims_correct j1 hsd' k7 j2 j3 j4 j5 j6 (generated_opens toyPrims_correct hr hs1) k10 g2 hmsgs
    exact ⟨st', p1, p2, p3⟩

set_option maxRecDepth 100000 in
/-- **A concrete case for C120_added**: the member at leaf 1 adds one, at leaf 3, by a commit without a path. The new member joins, and follows whatever comes. -/
example : ∃ a b c : GroupState, toyThree = .ok (a, b, c) ∧ ∃ sd m js w,
    Spec.Rfc.makeCommit toyPrims sd c.group.keyState [] (ratchetOf c.vtree 2 0) .publicMessage (toyCommitter 9)
      [.proposal (.add (toyMember 3).pub)] false = some m ∧
    Spec.Rfc.joinerOf toyPrims sd c.group.keyState (toyCommitter 9) m = some js ∧
    Spec.Rfc.makeWelcome toyPrims sd m.epoch js m.tree 1 [11, 1] [] [{ ty := 10, data := [1, 2] }] [⟨(toyMember 3).pub, none, [1]⟩] = some w ∧
    ∃ st li, groupFromWelcome toyPrims w (toyMember 3) toyLater = .ok st ∧ st.vtree = m.tree.2.flat .leaf .parent ∧ st.group.keyState = m.epoch ∧
      ∀ raws e' t', Spec.Rfc.Course toyPrims sd (UInt32.ofNat li) m.epoch m.tree raws e' t' → ∀ msgs : List (Bytes × GoTime), msgs.map Prod.fst = raws →
        ∃ st', processAll toyPrims st msgs = (msgs.map fun _ => .ok none, st') ∧ st'.group.keyState = e' := by
  obtain ⟨⟨a, b, c⟩, h, hx⟩ := Res.holds_ok (x := toyThree) (f := fun x =>
    decide (x.2.2.group.groupContext.cipherSuite = 1 ∧ x.2.2.group.groupContext.version = 1) && (ratchetOf x.2.2.vtree 2 0).snug &&
    ((ratchetOf x.2.2.vtree 2 0).leafAt 1).isSome && decide ((toyMember 3).pub.version = 1 ∧ (toyMember 3).pub.cipherSuite = 1) &&
    decide (Spec.resolve 1 [] [.proposal (.add (toyMember 3).pub)] = some [(.add (toyMember 3).pub, 1)]) &&
    (suite x.2.2.group.groupContext.cipherSuite).holds fun sd =>
      match Spec.Rfc.makeCommit toyPrims sd x.2.2.group.keyState [] (ratchetOf x.2.2.vtree 2 0) .publicMessage (toyCommitter 9)
        [.proposal (.add (toyMember 3).pub)] false with
      | none => false
      | some m => decide (m.tree.1 ≤ 31) && decide (verifyIntegrity toyPrims (m.tree.2.flat .leaf .parent) m.epoch.context toyLater = .ok ()) &&
        decide (m.epoch.context.cipherSuite = 1) && (match Spec.Rfc.joinerOf toyPrims sd x.2.2.group.keyState (toyCommitter 9) m with
          | none => false
          | some js => (Spec.Rfc.makeWelcome toyPrims sd m.epoch js m.tree 1 [11, 1] [] [{ ty := 10, data := [1, 2] }] [⟨(toyMember 3).pub, none, [1]⟩]).isSome) &&
        (match nodeAt (m.tree.2.flat Node.leaf Node.parent) (2 * (1 : UInt32).toNat) with
          | some (.leaf old) => decide (old.signatureKey = (toyPrims.sigKeyPair sd.sig [11, 1]).1 ∧ [11, 1] = (toyPrims.sigKeyPair sd.sig [11, 1]).2)
          | _ => false))
    (by decide +kernel)
  simp only [Bool.and_eq_true, decide_eq_true_eq] at hx
  obtain ⟨⟨⟨⟨⟨⟨c1, c2⟩, c3⟩, c4⟩, c5, c6⟩, c7⟩, hx⟩ := hx
  obtain ⟨sd, hsd, hx⟩ := Res.holds_ok hx
  split at hx
  · cases hx
  · next m hm =>
    simp only [Bool.and_eq_true, decide_eq_true_eq] at hx
    obtain ⟨⟨⟨⟨h1, h2⟩, h3⟩, h4⟩, h5⟩ := hx
    obtain ⟨js, hjs, hen⟩ := C120_entered hm
    rw [hjs] at h4
    obtain ⟨w, hw⟩ := Option.isSome_iff_exists.1 h4
    obtain ⟨n0, hn0⟩ := Option.isSome_iff_exists.1 c4
    obtain ⟨r, hr⟩ := toyMember_generated 3 c5
    have hs1 : suite 1 = .ok sd := by rw [← c1]; exact hsd
    have hval : Spec.TreeValid toyPrims (toyPrims.hash sd.hash) m.epoch.context toyLater (m.tree.2.flat .leaf .parent) m.tree.2 := by
      obtain ⟨sd2, g1, s2, g2⟩ := (C29_integrity toyPrims_correct h1 (flat_length _ _ _) m.epoch.context toyLater).1 h2
      rw [h3, hs1] at g1
      cases g1
      obtain rfl := flat_inj _ _ g2.array
      exact g2
    have hkey : ∃ old r, nodeAt (m.tree.2.flat Node.leaf Node.parent) (2 * (1 : UInt32).toNat) = some (.leaf old) ∧
        old.signatureKey = (toyPrims.sigKeyPair sd.sig r).1 ∧ [11, 1] = (toyPrims.sigKeyPair sd.sig r).2 := by
      split at h5
      · next old ho => exact ⟨old, _, ho, of_decide_eq_true h5⟩
      · cases h5
    obtain ⟨st, li, j1, j2, j3, _, _, _, j4⟩ := C120_added toyPrims_correct (e := c.group.keyState) hsd c2 c3 hm c7 (by decide) hn0
      (fun i v hi => by simp at hi) hjs (fun x hx => by simp at hx; subst hx; decide) hw hkey (List.mem_singleton.2 rfl)
      (fun g' hg' _ => List.mem_singleton.1 hg') (List.mem_singleton.2 rfl) rfl (c6.trans c1.symm) (generated_init_opens toyPrims_correct hr hs1)
      (generated_opens toyPrims_correct hr hs1) hval (fun h => by cases h) h1 (fun _ _ _ _ h => by cases h)
    refine ⟨a, b, c, h, sd, m, js, w, hm, hjs, hw, st, li, j1, j2, j3, fun raws e' t' hco msgs hmsgs => ?_⟩
    obtain ⟨st', p1, _, p2, _⟩ := j4 raws e' t' hco msgs hmsgs
    exact ⟨st', p1, p2⟩

end Mls
