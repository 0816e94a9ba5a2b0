import Verif.Props.Library
import Verif.Props.Hostile
import Verif.Props.Joinable
/-
C94: what the clock decides.
-/
namespace Mls

open Spec (Ratchet nodeAt)

variable {pr : Prims}

/-! ### Messages -/

theorem verify_commitLeaf {n : LeafNode} (h : n.isCommit = true) (o : VerifyOptions) (now : GoTime) :
    n.verify pr { o with now } = n.verify pr o := by
  unfold LeafNode.isCommit at h
  unfold LeafNode.verify LeafNode.lifetimeOk
  cases hs : n.source <;> first | rfl | simp [hs] at h

theorem commitPath_clock (ctx newCtx : GroupContext) (h : Heap) (t : RTree) (sender me : UInt32) (pt : List (Option Bytes)) (path : UpdatePath)
    (now now' : GoTime) : commitPath pr ctx newCtx h t sender me pt path now = commitPath pr ctx newCtx h t sender me pt path now' := by
  unfold commitPath
  cases hk : path.leafNode.isCommit with
  | false => simp only [Res.guardErr, Bool.false_eq_true, if_false, Res.err_bind]
  | true =>
    have e : ∀ cs id li creds sk ek, path.leafNode.verify pr ⟨cs, id, li, creds, sk, ek, now⟩ = path.leafNode.verify pr ⟨cs, id, li, creds, sk, ek, now'⟩ :=
      fun cs id li creds sk ek => verify_commitLeaf hk ⟨cs, id, li, creds, sk, ek, now'⟩ now
    simp only [e]

theorem finishCommit_clock (g : Group) (h : Heap) (t : RTree) (a : AuthenticatedContent) (c : Commit) (ids : List PreSharedKeyID)
    (psks : List Bytes) (now now' : GoTime) : finishCommit pr g h t a c ids psks now = finishCommit pr g h t a c ids psks now' := by
  have e : ∀ ctx newCtx h t s me pt path, commitPath pr ctx newCtx h t s me pt path now = commitPath pr ctx newCtx h t s me pt path now' :=
    fun ctx newCtx h t s me pt path => commitPath_clock ctx newCtx h t s me pt path now now'
  by_cases hn : now = now'
  · rw [hn]
  · unfold finishCommit
    cases c.path with
    | none => simp only
    | some path => simp only [e]

theorem dispatch_clock (st : GroupState) (a : AuthenticatedContent) (now now' : GoTime) (e : Bool) :
    dispatch pr st a now e = dispatch pr st a now' e := by
  unfold dispatch processCommit
  cases a.content.content with
  | proposal => rfl
  | application => rfl
  | commit c =>
    dsimp only
    cases checkProposals pr st.group a.content.sender.leafIndex c with
    | ok ps =>
      dsimp only
      cases treeApply st.heap st.group.tree ps.1 ps.2 with
      | ok ht =>
        dsimp only
        rw [finishCommit_clock st.group ht.1 ht.2 a c [] [] now now']
      | err => rfl
      | panic => rfl
      | hang => rfl
    | err => rfl
    | panic => rfl
    | hang => rfl

/-- **C94.** What UnmarshalAndProcessMessage returns, and the state it leaves, do not depend on when it is called: whatever the state and the
message, and however long ago the message was sent. -/
theorem C94_message (st : GroupState) (raw : Bytes) (now now' : GoTime) :
    unmarshalAndProcessMessage pr st raw now = unmarshalAndProcessMessage pr st raw now' := by
  unfold unmarshalAndProcessMessage processPublicMessage processPrivateMessage
  cases unmarshal MlsMessage.dec raw with
  | ok msg =>
    dsimp only
    cases msg.body with
    | publicMessage m =>
      dsimp only
      cases verifyPublicMessage pr st m with
      | ok a => exact dispatch_clock st a now now' false
      | err => rfl
      | panic => rfl
      | hang => rfl
    | privateMessage m =>
      dsimp only
      cases decryptPrivateMessage pr st m with
      | ok a => exact dispatch_clock st a now now' true
      | err => rfl
      | panic => rfl
      | hang => rfl
    | _ => rfl
  | err => rfl
  | panic => rfl
  | hang => rfl

/-! ### Welcomes -/

theorem verify_clock {n : LeafNode} {o : VerifyOptions} (h : n.verify pr o = .ok ()) (now : GoTime) :
    n.verify pr { o with now } = Res.guardErr (n.lifetimeOk now) := by
  unfold LeafNode.verify at h ⊢
  simp only [Res.bind_ok_iff, Res.guardErr_ok_iff, exists_const] at h
  obtain ⟨b, h1, rfl, h2, h3, h4, h5, h6⟩ := h
  have h1' : n.verifySignature pr ({ o with now } : VerifyOptions).cipherSuite ({ o with now } : VerifyOptions).groupID
    ({ o with now } : VerifyOptions).leafIndex = .ok true := h1
  have h2' : ({ o with now } : VerifyOptions).supportedCreds.contains n.credential.ty = true := h2
  have h5' : (!({ o with now } : VerifyOptions).signatureKeys.contains n.signatureKey) = true := h5
  have h6' : (!({ o with now } : VerifyOptions).encryptionKeys.contains n.encryptionKey) = true := h6
  rw [h1', h2', h4, h5', h6']
  cases n.lifetimeOk now <;> rfl

theorem leavesLoop_clock {ctx : GroupContext} {now now' : GoTime} {creds : List UInt16} {t : VTree} {k li : Nat} {S E E' : List Bytes}
    (h : verifyLeavesLoop pr ctx now creds t k li S E = .ok E') :
    ((∀ i l, li ≤ i → i < li + k → getLeaf t i = .ok (some l) → l.lifetimeOk now' = true) → verifyLeavesLoop pr ctx now' creds t k li S E = .ok E') ∧
    ((∃ i l, li ≤ i ∧ i < li + k ∧ getLeaf t i = .ok (some l) ∧ l.lifetimeOk now' = false) → verifyLeavesLoop pr ctx now' creds t k li S E = .err) := by
  induction k generalizing li S E with
  | zero =>
    refine ⟨fun _ => h, ?_⟩
    rintro ⟨i, _, h1, h2, _⟩
    omega
  | succ k ih =>
    rw [verifyLeavesLoop, Res.bind_ok_iff] at h
    obtain ⟨n, hn, h⟩ := h
    rw [verifyLeavesLoop, hn, Res.ok_bind]
    cases n with
    | none =>
      dsimp only at h ⊢
      obtain ⟨i1, i2⟩ := ih h
      refine ⟨fun hv => i1 fun i l h1 h2 h3 => hv i l (by omega) (by omega) h3, ?_⟩
      rintro ⟨i, l, h1, h2, h3, h4⟩
      refine i2 ⟨i, l, ?_, by omega, h3, h4⟩
      by_contra hlt
      have : i = li := by omega
      rw [this, hn] at h3
      cases h3
    | some m =>
      dsimp only at h ⊢
      rw [Res.bind_ok_iff] at h
      obtain ⟨_, hm, h⟩ := h
      have hc := verify_clock hm now'
      dsimp only at hc
      rw [hc]
      obtain ⟨i1, i2⟩ := ih h
      constructor
      · intro hv
        rw [hv li m (Nat.le_refl _) (by omega) hn]
        exact i1 fun i l h1 h2 h3 => hv i l (by omega) (by omega) h3
      · rintro ⟨i, l, h1, h2, h3, h4⟩
        cases hx : m.lifetimeOk now' with
        | false => rfl
        | true =>
          refine i2 ⟨i, l, ?_, by omega, h3, h4⟩
          by_contra hlt
          have : i = li := by omega
          rw [this, hn] at h3
          cases h3
          rw [hx] at h4
          cases h4

theorem integrity_clock {t : VTree} {ctx : GroupContext} {now now' : GoTime} (h : verifyIntegrity pr t ctx now = .ok ()) :
    ((∀ i l, i < treeNumLeaves t → getLeaf t i = .ok (some l) → l.lifetimeOk now' = true) → verifyIntegrity pr t ctx now' = .ok ()) ∧
    ((∃ i l, i < treeNumLeaves t ∧ getLeaf t i = .ok (some l) ∧ l.lifetimeOk now' = false) → verifyIntegrity pr t ctx now' = .err) := by
  unfold verifyIntegrity at h ⊢
  simp only [Res.bind_ok_iff] at h
  obtain ⟨th, h1, _, h2, ph, h3, _, h4, creds, h5, E, h6, h7⟩ := h
  rw [h1, Res.ok_bind, h2, Res.ok_bind, h3, Res.ok_bind, h4, Res.ok_bind, h5, Res.ok_bind]
  obtain ⟨i1, i2⟩ := leavesLoop_clock (now' := now') h6
  constructor
  · intro hv
    rw [i1 fun i l _ hi => hv i l (by omega), Res.ok_bind, h7]
  · rintro ⟨i, l, hi, h⟩
    rw [i2 ⟨i, l, by omega, by omega, h⟩]
    rfl

theorem integrity_members {t : VTree} {ctx : GroupContext} {now : GoTime} (hc : pr.Correct) {d : Nat} (hd : d ≤ 31)
    (hlen : t.length = 2 ^ (d + 1) - 1) (h : verifyIntegrity pr t ctx now = .ok ()) (now' : GoTime) :
    ((∀ l ∈ Spec.members t, Spec.InDate now' l) → verifyIntegrity pr t ctx now' = .ok ()) ∧
    ((∃ l ∈ Spec.members t, ¬ Spec.InDate now' l) → verifyIntegrity pr t ctx now' = .err) := by
  obtain ⟨i1, i2⟩ := integrity_clock (now' := now') h
  constructor
  · intro hv
    refine i1 fun i l _ hl => lifetimeOk_iff.2 (hv l ?_)
    exact members_mem (getLeaf_ok_some_iff.1 hl)
  · rintro ⟨l, hl, hx⟩
    obtain ⟨sd, -, s, hs⟩ := (C29_integrity hc hd hlen ctx now).1 h
    have hm := hl
    rw [hs.array, members_flat, List.mem_filterMap] at hm
    obtain ⟨o, ho, he⟩ := hm
    obtain ⟨i, hi⟩ := List.mem_iff_getElem?.1 ho
    have hlt : i < 2 ^ d := by
      have := (List.getElem?_eq_some_iff.1 hi).1
      rwa [leaves_length] at this
    obtain ⟨o', h1, -, h3⟩ := getLeaf_at hd hs.array hlt
    rw [hi, Option.some.injEq] at h3
    subst h3
    cases he
    refine i2 ⟨i, l, by rw [numLeaves_pow hd hlen]; exact hlt, h1, ?_⟩
    rw [Bool.eq_false_iff]
    exact fun h => hx (lifetimeOk_iff.1 h)

/-- **C94.** If GroupFromWelcome accepts a welcome at one time, then at any other time it either returns the same group, or an error: the
first when all the key packages in the tree are in date then, and the second when one is not. -/
theorem C94_join (hc : pr.Correct) {w : Welcome} {kp : KeyPairPackage} {now : GoTime} {st : GroupState}
    (h : groupFromWelcome pr w kp now = .ok st) (now' : GoTime) :
    ((∀ l ∈ Spec.members st.vtree, Spec.InDate now' l) → groupFromWelcome pr w kp now' = .ok st) ∧
    ((∃ l ∈ Spec.members st.vtree, ¬ Spec.InDate now' l) → groupFromWelcome pr w kp now' = .err) := by
  unfold groupFromWelcome at h ⊢
  simp only [Res.bind_ok_iff] at h
  obtain ⟨ref, h1, gs, h2, _, h3, _, h4, h⟩ := h
  rw [h1, Res.ok_bind, h2, Res.ok_bind, h3, Res.ok_bind, h4, Res.ok_bind]
  obtain ⟨psk, info, raw, t, leaf, li, pt, k1, k2, k3, hdec, hget, _, _, _, hv, _, _, hh, ht, hctx, _⟩ := groupFromSecrets_ok h
  have hvt : st.vtree = t := by
    unfold GroupState.vtree
    rw [hh, ht]
    exact (deref_alloc t []).2
  have hint : ((∀ l ∈ Spec.members t, Spec.InDate now' l) → verifyIntegrity pr t info.groupContext now' = .ok ()) ∧
      ((∃ l ∈ Spec.members t, ¬ Spec.InDate now' l) → verifyIntegrity pr t info.groupContext now' = .err) := by
    obtain ⟨k, hk, hlen⟩ := C26_decoded_length hdec
    cases k with
    | zero =>
      have : t = [] := List.eq_nil_of_length_eq_zero (by simpa using hlen)
      subst this
      simp [getLeaf, Res.idx] at hget
    | succ d => exact integrity_members hc (by omega) hlen hv now'
  obtain ⟨i1, i2⟩ := hint
  rw [hvt]
  unfold groupFromSecrets at h ⊢
  simp only [Res.bind_ok_iff] at h
  obtain ⟨psk', g1, info', g2, raw', g3, t', g4, o, g5, leaf', g6, b1, g7, _, g8, b2, g9, _, g10, _, g11, _, g12, g⟩ := h
  rw [k1] at g1
  cases g1
  rw [k2] at g2
  cases g2
  obtain rfl : raw = raw' := by
    rw [k3] at g3
    cases g3
    rfl
  rw [hdec] at g4
  cases g4
  rw [k1, Res.ok_bind, k2, Res.ok_bind, g3, Res.ok_bind, hdec, Res.ok_bind, g5, Res.ok_bind, g6, Res.ok_bind, g7, Res.ok_bind, g8, Res.ok_bind,
    g9, Res.ok_bind, g10, Res.ok_bind, g11, Res.ok_bind]
  constructor
  · intro hx
    rw [i1 hx, Res.ok_bind]
    simp only [Res.bind_ok_iff]
    exact g
  · intro hx
    rw [i2 hx]
    rfl

theorem verify_between {lt : Lifetime} {t1 t2 t3 : GoTime} (h1 : lt.verify t1 = true) (h3 : lt.verify t3 = true)
    (h12 : t1.after t2 = false) (h23 : t2.after t3 = false) : lt.verify t2 = true := by
  unfold Lifetime.verify at *
  dsimp only at *
  split at h1
  · cases h1
  · rename_i hd
    rw [if_neg hd] at h3 ⊢
    simp only [GoTime.after, Bool.and_eq_true, Bool.or_eq_true, Bool.or_eq_false_iff, Bool.and_eq_false_iff, decide_eq_true_eq, decide_eq_false_iff_not,
      beq_iff_eq, beq_eq_false_iff_ne] at *
    omega

/-- **C94.** The times at which someone can join with a welcome make up one interval: whoever can join at `t1` and at `t3`, can join at any time
in between, into the same group. -/
theorem C94_window (hc : pr.Correct) {w : Welcome} {kp : KeyPairPackage} {t1 t2 t3 : GoTime} {st st' : GroupState}
    (h1 : groupFromWelcome pr w kp t1 = .ok st) (h3 : groupFromWelcome pr w kp t3 = .ok st') (z1 : t1.isZero = false) (z3 : t3.isZero = false)
    (h12 : t1.after t2 = false) (h23 : t2.after t3 = false) : st' = st ∧ groupFromWelcome pr w kp t2 = .ok st := by
  have hin : ∀ l ∈ Spec.members st.vtree, Spec.InDate t3 l := by
    by_contra hx
    simp only [not_forall, exists_prop] at hx
    rw [(C94_join hc h1 t3).2 hx] at h3
    cases h3
  have hin1 : ∀ l ∈ Spec.members st.vtree, Spec.InDate t1 l := by
    by_contra hx
    simp only [not_forall, exists_prop] at hx
    rw [(C94_join hc h1 t1).2 hx] at h1
    cases h1
  have e := (C94_join hc h1 t3).1 hin
  rw [h3] at e
  refine ⟨Res.ok.inj e, (C94_join hc h1 t2).1 fun l hl lt hs => ?_⟩
  refine .inr (verify_between (lt := lt) ?_ ?_ h12 h23)
  · rcases hin1 l hl lt hs with h | h
    · rw [z1] at h; cases h
    · exact h
  · rcases hin l hl lt hs with h | h
    · rw [z3] at h; cases h
    · exact h

/-- A day later than `toyLater`. -/
def toyNextDay : GoTime := toyLater.add (24 * 3600 * 1000000000)

/-- The hypotheses of C94_window are met, and the interval ends: `1` can join a second or a day after the invitation, and not a hundred days after. -/
theorem toyWindow : ∃ w st st', groupFromWelcome toyPrims w (toyMember 1) toyLater = .ok st ∧
    groupFromWelcome toyPrims w (toyMember 1) toyNextDay = .ok st' ∧ toyLater.isZero = false ∧ toyNextDay.isZero = false ∧
    toyLater.after toyNextDay = false ∧ groupFromWelcome toyPrims w (toyMember 1) toyLate = .err := by
  have key : toyCreated.holds (fun a => (a.invite [1]).holds fun (_, w) => (groupFromWelcome toyPrims w (toyMember 1) toyLater).holds (fun _ => true) &&
      (groupFromWelcome toyPrims w (toyMember 1) toyNextDay).holds (fun _ => true) &&
      decide (toyLater.isZero = false ∧ toyNextDay.isZero = false ∧ toyLater.after toyNextDay = false ∧
        groupFromWelcome toyPrims w (toyMember 1) toyLate = .err)) = true := by decide +kernel
  obtain ⟨a, -, key⟩ := Res.holds_ok key
  obtain ⟨⟨_, w⟩, -, key⟩ := Res.holds_ok key
  simp only [Bool.and_eq_true] at key
  obtain ⟨st, h1, -⟩ := Res.holds_ok key.1.1
  obtain ⟨st', h2, -⟩ := Res.holds_ok key.1.2
  obtain ⟨h3, h4, h5, h6⟩ := of_decide_eq_true key.2
  exact ⟨w, st, st', h1, h2, h3, h4, h5, h6⟩

/-- A hundred days later, when the key packages of `0` and `1` have expired, `0` accepts a commit of `1` with a new leaf and path. -/
theorem toyLateCommit : ∃ st raw, Reachable toyPrims st ∧ (∃ l ∈ Spec.members st.vtree, ¬ Spec.InDate toyLate l) ∧
    (unmarshalAndProcessMessage toyPrims st raw toyLate).1 = .ok none ∧
    (unmarshalAndProcessMessage toyPrims st raw toyLate).2.group.groupContext.epoch = st.group.groupContext.epoch + 1 := by
  have key : toyTwo.holds (fun (a, _) => (Spec.members a.vtree).any (fun l => !l.lifetimeOk toyLate) &&
      decide ((unmarshalAndProcessMessage toyPrims a (toyCommit a 1 1 [] (List.replicate 32 9) []) toyLate).1 = .ok none ∧
        (unmarshalAndProcessMessage toyPrims a (toyCommit a 1 1 [] (List.replicate 32 9) []) toyLate).2.group.groupContext.epoch =
          a.group.groupContext.epoch + 1)) = true := by decide +kernel
  obtain ⟨⟨a, b⟩, h, key⟩ := Res.holds_ok key
  rw [Bool.and_eq_true, List.any_eq_true] at key
  obtain ⟨⟨l, hl, hx⟩, h2⟩ := key
  refine ⟨a, _, (toyTwo_reachable h).1, ⟨l, hl, fun hd => ?_⟩, (of_decide_eq_true h2).1, (of_decide_eq_true h2).2⟩
  rw [lifetimeOk_iff.2 hd] at hx
  cases hx

end Mls
