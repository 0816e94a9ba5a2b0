import Verif.Model.Effort
import Verif.Proofs.Invariant
import Verif.Props.TreeCodec
import Verif.Props.Hiding
/-
The cost of verifyIntegrity: forgetting it gives Model/Tree.lean back, and what it is at most.
-/
namespace Mls

open Spec (nodeAt)

namespace Effort

variable {α β : Type}

theorem bind_def (p : Effort α) (f : α → Effort β) : (p >>= f) = p.bind f := rfl

@[simp] theorem result_bind (p : Effort α) (f : α → Effort β) : (p >>= f).result = (p.result >>= fun a => (f a).result) := by
  rw [bind_def]
  unfold bind
  cases p.result <;> rfl

@[simp] theorem result_pure (a : α) : (pure a : Effort α).result = .ok a := rfl
@[simp] theorem cost_pure (a : α) : (pure a : Effort α).cost = 0 := rfl
@[simp] theorem result_lift (r : Res α) : (lift r).result = r := rfl
@[simp] theorem cost_lift (r : Res α) : (lift r).cost = 0 := rfl
@[simp] theorem result_monadLift (r : Res α) : (monadLift r : Effort α).result = r := rfl
@[simp] theorem cost_monadLift (r : Res α) : (monadLift r : Effort α).cost = 0 := rfl
@[simp] theorem result_liftM (r : Res α) : (liftM r : Effort α).result = r := rfl
@[simp] theorem cost_liftM (r : Res α) : (liftM r : Effort α).cost = 0 := rfl
@[simp] theorem result_spend (n : Nat) : (spend n).result = .ok () := rfl
@[simp] theorem cost_spend (n : Nat) : (spend n).cost = n := rfl
@[simp] theorem cost_spend_bind (n : Nat) (f : Unit → Effort β) : (spend n >>= f).cost = n + (f ()).cost := rfl

@[simp] theorem result_orFalse (p : Effort α) (f : α → Effort Bool) :
    (p.orFalse f).result = Mls.orFalse p.result fun a => (f a).result := by
  unfold orFalse Mls.orFalse
  cases p.result <;> rfl

theorem cost_bind {p : Effort α} {f : α → Effort β} {a b : Nat} (h1 : p.cost ≤ a) (h2 : ∀ x, p.result = .ok x → (f x).cost ≤ b) :
    (p >>= f).cost ≤ a + b := by
  rw [bind_def]
  unfold bind
  cases h : p.result with
  | ok x => have := h2 x h; show p.cost + _ ≤ _; omega
  | err => show p.cost ≤ _; omega
  | panic => show p.cost ≤ _; omega
  | hang => show p.cost ≤ _; omega

theorem cost_liftM_bind {r : Res α} {f : α → Effort β} {b : Nat} (h : ∀ x, r = .ok x → (f x).cost ≤ b) :
    ((liftM r : Effort α) >>= f).cost ≤ b := by
  have := cost_bind (p := (liftM r : Effort α)) (f := f) (a := 0) (b := b) (Nat.le_refl 0) h
  omega

theorem cost_orFalse {p : Effort α} {f : α → Effort Bool} {a b : Nat} (h1 : p.cost ≤ a) (h2 : ∀ x, p.result = .ok x → (f x).cost ≤ b) :
    (p.orFalse f).cost ≤ a + b := by
  unfold orFalse
  cases h : p.result with
  | ok x => have := h2 x h; show p.cost + _ ≤ _; omega
  | err => show p.cost ≤ _; omega
  | panic => show p.cost ≤ _; omega
  | hang => show p.cost ≤ _; omega

end Effort

variable {pr : Prims} {pc : Prices}

/-! ### Forgetting -/

theorem hashE_result (cs : UInt16) (input : Bytes) :
    (hashE pr pc cs input).result = (do let d ← suite cs; return pr.hash d.hash input) := by
  simp [hashE]

theorem resolveLoopE_result (t : VTree) : ∀ fuel x, (resolveLoopE pc t fuel x).result = resolveLoop t fuel x := by
  intro fuel
  induction fuel with
  | zero => intro x; rfl
  | succ fuel ih =>
    intro x
    unfold resolveLoopE resolveLoop
    simp only [Effort.result_bind, Effort.result_spend, Effort.result_liftM, Res.ok_bind]
    congr 1
    funext n
    cases n with
    | none =>
      cases children x with
      | none => rfl
      | some c => simp [ih]
    | some n => cases n <;> simp

theorem computeTreeHashLoopE_result (cs : UInt16) (t : VTree) (exclude : List UInt32) :
    ∀ fuel x, (computeTreeHashLoopE pr pc cs t exclude fuel x).result = computeTreeHashLoop pr cs t exclude fuel x := by
  intro fuel
  induction fuel with
  | zero => intro x; rfl
  | succ fuel ih =>
    intro x
    unfold computeTreeHashLoopE computeTreeHashLoop
    simp only [Effort.result_bind, Effort.result_spend, Effort.result_liftM, Res.ok_bind]
    congr 1
    funext n
    cases leafOfNode x with
    | some li => simp only [Effort.result_bind, Effort.result_liftM, hashE_result, Res.bind_assoc']
    | none =>
      cases children x with
      | none => rfl
      | some c => simp only [Effort.result_bind, Effort.result_liftM, Effort.result_spend, hashE_result, Res.bind_assoc', ih, Res.ok_bind]

theorem computeParentHashE_result (cs : UInt16) (n : ParentNode) (h : Bytes) :
    (computeParentHashE pr pc cs n h).result = n.computeParentHash pr cs h := by
  simp [computeParentHashE, ParentNode.computeParentHash, hashE_result]

theorem findParentHashE_result (t : VTree) (h : Bytes) : ∀ xs, (findParentHashE pc t h xs).result = findParentHash t h xs := by
  intro xs
  induction xs with
  | nil => rfl
  | cons x xs ih =>
    unfold findParentHashE findParentHash
    simp only [Effort.result_bind, Effort.result_spend, Effort.result_liftM, Res.ok_bind]
    congr 1
    funext n
    cases n with
    | none => exact ih
    | some n => cases n <;> (simp only; split <;> simp [ih])

theorem verifyParentHashesLoopE_result (cs : UInt16) (t : VTree) :
    ∀ ns i, (verifyParentHashesLoopE pr pc cs t i ns).result = verifyParentHashesLoop pr cs t i ns := by
  intro ns
  induction ns with
  | nil => intro i; rfl
  | cons n ns ih =>
    intro i
    cases n with
    | none =>
      unfold verifyParentHashesLoopE verifyParentHashesLoop
      simp [ih]
    | some n =>
      unfold verifyParentHashesLoopE verifyParentHashesLoop
      simp only [Effort.result_bind, Effort.result_spend, Res.ok_bind]
      cases children (i % 2 ^ 32) with
      | none => exact ih _
      | some c =>
        cases n with
        | leaf l => rfl
        | parent p =>
          simp only [Effort.result_bind, Effort.result_spend, Res.ok_bind, Effort.result_orFalse, computeTreeHashLoopE_result,
            computeParentHashE_result, resolveLoopE_result, findParentHashE_result, computeTreeHash, resolve]
          congr 1; funext a; congr 1; funext b; congr 1; funext c'; congr 1; funext d
          congr 1; funext e; congr 1; funext f; congr 1; funext g; congr 1; funext k
          split
          · rfl
          · exact ih _

theorem membersLoopE_result (t : VTree) : ∀ k li, (membersLoopE pc t k li).result = membersLoop t k li := by
  intro k
  induction k with
  | zero => intro li; rfl
  | succ k ih =>
    intro li
    unfold membersLoopE membersLoop
    simp only [Effort.result_bind, Effort.result_spend, Effort.result_liftM, Res.ok_bind, ih]
    congr 1; funext n; congr 1; funext r
    cases n <;> rfl

theorem supportedCredsE_result (t : VTree) : (supportedCredsE pc t).result = supportedCreds t := by
  simp [supportedCredsE, supportedCreds, membersLoopE_result, members]

theorem verifyLeavesLoopE_result (ctx : GroupContext) (now : GoTime) (creds : List UInt16) (t : VTree) : ∀ k li sk ek,
    (verifyLeavesLoopE pr pc ctx now creds t k li sk ek).result = verifyLeavesLoop pr ctx now creds t k li sk ek := by
  intro k
  induction k with
  | zero => intro li sk ek; rfl
  | succ k ih =>
    intro li sk ek
    unfold verifyLeavesLoopE verifyLeavesLoop
    simp only [Effort.result_bind, Effort.result_spend, Effort.result_liftM, Res.ok_bind]
    congr 1; funext n
    cases n with
    | none => exact ih _ _ _
    | some l => simp [ih]

theorem unmergedLoopE_result (t : VTree) (n p : Nat) (li : UInt32) : ∀ fuel x,
    (unmergedLoopE pc t n p li fuel x).result = unmergedLoop t n p li fuel x := by
  intro fuel
  induction fuel with
  | zero => intro x; rfl
  | succ fuel ih =>
    intro x
    unfold unmergedLoopE unmergedLoop
    simp only [Effort.result_bind, Effort.result_spend, Res.ok_bind]
    cases parent n x with
    | none => rfl
    | some x' =>
      simp only
      split
      · rfl
      · simp only [Effort.result_bind, Effort.result_liftM]
        congr 1; funext node
        cases node with
        | none => exact ih _
        | some node =>
          cases node with
          | leaf l => rfl
          | parent q => simp [ih]

theorem unmergedListLoopE_result (t : VTree) (n p : Nat) : ∀ lis,
    (unmergedListLoopE pc t n p lis).result = unmergedListLoop t n p lis := by
  intro lis
  induction lis with
  | nil => rfl
  | cons li lis ih => simp [unmergedListLoopE, unmergedListLoop, unmergedLoopE_result, ih]

theorem verifyParentsLoopE_result (t : VTree) (n : Nat) : ∀ ns i ek,
    (verifyParentsLoopE pc t n i ns ek).result = verifyParentsLoop t n i ns ek := by
  intro ns
  induction ns with
  | nil => intro i ek; rfl
  | cons a ns ih =>
    intro i ek
    cases a with
    | none => simp [verifyParentsLoopE, verifyParentsLoop, ih]
    | some a =>
      cases a with
      | leaf l => simp [verifyParentsLoopE, verifyParentsLoop, ih]
      | parent p => simp [verifyParentsLoopE, verifyParentsLoop, ih, unmergedListLoopE_result]

theorem verifyIntegrityE_result (t : VTree) (ctx : GroupContext) (now : GoTime) :
    (verifyIntegrityE pr pc t ctx now).result = verifyIntegrity pr t ctx now := by
  simp [verifyIntegrityE, verifyIntegrity, computeRootTreeHash, computeTreeHash, verifyParentHashes, computeTreeHashLoopE_result,
    verifyParentHashesLoopE_result, supportedCredsE_result, verifyLeavesLoopE_result, verifyParentsLoopE_result]

/-! ### Weights -/

/-- The sum over the nodes of a subtree. -/
def weigh (f : Nat → Nat) : Nat → Nat → Nat
  | 0, j => f (idx 0 j)
  | k + 1, j => f (idx (k + 1) j) + weigh f k (2 * j) + weigh f k (2 * j + 1)

theorem weigh_root (f : Nat → Nat) (k j : Nat) : f (idx k j) ≤ weigh f k j := by
  cases k <;> simp only [weigh] <;> omega

theorem weigh_add (f g : Nat → Nat) : ∀ k j, weigh (fun i => f i + g i) k j = weigh f k j + weigh g k j := by
  intro k
  induction k with
  | zero => intro j; rfl
  | succ k ih => intro j; simp only [weigh, ih]; omega

theorem weigh_mul (c : Nat) (f : Nat → Nat) : ∀ k j, weigh (fun i => c * f i) k j = c * weigh f k j := by
  intro k
  induction k with
  | zero => intro j; rfl
  | succ k ih => intro j; simp only [weigh, ih, Nat.mul_add]

theorem weigh_mono {f g : Nat → Nat} (h : ∀ i, f i ≤ g i) : ∀ k j, weigh f k j ≤ weigh g k j := by
  intro k
  induction k with
  | zero => intro j; exact h _
  | succ k ih => intro j; have := ih (2 * j); have := ih (2 * j + 1); have := h (idx (k + 1) j); simp only [weigh]; omega

/-- Each node of a tree of depth `k` lies in at most `k + 1` subtrees. -/
theorem weigh_nested {g v : Nat → Nat} : ∀ k j, (∀ k' j', k' ≤ k → g (idx k' j') ≤ weigh v k' j' + v (idx k' j')) →
    weigh g k j ≤ (k + 2) * weigh v k j := by
  intro k
  induction k with
  | zero => intro j h; have := h 0 j (Nat.le_refl _); simp only [weigh] at *; omega
  | succ k ih =>
    intro j h
    have h0 := h (k + 1) j (Nat.le_refl _)
    have h1 := ih (2 * j) fun k' j' hk => h k' j' (by omega)
    have h2 := ih (2 * j + 1) fun k' j' hk => h k' j' (by omega)
    simp only [weigh] at h0 ⊢
    have e : (k + 1 + 2) * (v (idx (k + 1) j) + weigh v k (2 * j) + weigh v k (2 * j + 1)) =
        (k + 2) * weigh v k (2 * j) + (k + 2) * weigh v k (2 * j + 1) + k * v (idx (k + 1) j) + 3 * v (idx (k + 1) j)
          + weigh v k (2 * j) + weigh v k (2 * j + 1) := by ring
    have := Nat.zero_le (k * v (idx (k + 1) j))
    omega

theorem sum_range_split (f : Nat → Nat) (s m n : Nat) :
    ((List.range' s (m + n)).map f).sum = ((List.range' s m).map f).sum + ((List.range' (s + m) n).map f).sum := by
  rw [← List.range'_append_1, List.map_append, List.sum_append]

theorem weigh_sum (f : Nat → Nat) : ∀ k j, weigh f k j = ((List.range' (j * 2 ^ (k + 1)) (2 ^ (k + 1) - 1)).map f).sum := by
  intro k
  induction k with
  | zero => intro j; simp [weigh, idx]
  | succ k ih =>
    intro j
    have hp : 0 < 2 ^ (k + 1) := Nat.two_pow_pos _
    have e : 2 ^ (k + 1 + 1) - 1 = (2 ^ (k + 1) - 1) + (1 + (2 ^ (k + 1) - 1)) := by rw [Nat.pow_succ 2 (k + 1)]; omega
    have e1 : 2 * j * 2 ^ (k + 1) = j * 2 ^ (k + 1 + 1) := by ring
    have e2 : (2 * j + 1) * 2 ^ (k + 1) = j * 2 ^ (k + 1 + 1) + (2 ^ (k + 1) - 1) + 1 := by
      have : (2 * j + 1) * 2 ^ (k + 1) = j * 2 ^ (k + 1 + 1) + 2 ^ (k + 1) := by ring
      omega
    rw [e, sum_range_split, sum_range_split, weigh, ih, ih, e1, e2]
    simp only [List.range'_one, List.map_cons, List.map_nil, List.sum_cons, List.sum_nil]
    unfold idx
    rw [show j * 2 ^ (k + 1 + 1) + (2 ^ (k + 1) - 1) = j * 2 ^ (k + 1 + 1) + (2 ^ (k + 1) - 1) from rfl]
    omega

/-- A subtree lies below 2^32. -/
abbrev Low (k j : Nat) : Prop := (j + 1) * 2 ^ (k + 1) ≤ 2 ^ 32

theorem Low.lt {k j : Nat} (h : Low k j) : idx k j < 2 ^ 32 := by
  have := (idx_range k j).2
  unfold Low at h
  omega

theorem Low.level {k j : Nat} (h : Low k j) : k ≤ 31 := by
  by_contra hk
  have h1 : 2 ^ 33 ≤ 2 ^ (k + 1) := Nat.pow_le_pow_right (by decide) (by omega)
  have h2 : 2 ^ (k + 1) ≤ (j + 1) * 2 ^ (k + 1) := Nat.le_mul_of_pos_left _ (by omega)
  unfold Low at h
  omega

theorem Low.left {k j : Nat} (h : Low (k + 1) j) : Low k (2 * j) := by
  unfold Low at *
  have : (j + 1) * 2 ^ (k + 1 + 1) = (2 * j + 1) * 2 ^ (k + 1) + 2 ^ (k + 1) := by ring
  exact Nat.le_trans (Nat.le_add_right _ _) (this ▸ h)

theorem Low.right {k j : Nat} (h : Low (k + 1) j) : Low k (2 * j + 1) := by
  unfold Low at *
  have : (j + 1) * 2 ^ (k + 1 + 1) = (2 * j + 1 + 1) * 2 ^ (k + 1) := by ring
  omega

theorem Low.children {k j : Nat} (h : Low (k + 1) j) : children (idx (k + 1) j) = some (idx k (2 * j), idx k (2 * j + 1)) :=
  children_idx_succ (by have := h.level; omega) h.lt

/-! ### Sizes -/

/-- At most how many bytes the encoding of a node adds to what is hashed. -/
def nodeSize : Option Node → Nat
  | none => 0
  | some (.leaf l) => match l.enc with | .ok bs => bs.length | _ => 0
  | some (.parent p) => 12 + p.encryptionKey.length + p.parentHash.length + 4 * p.unmergedLeaves.length

theorem opaqueVec_le {b x : Bytes} (h : writeOpaqueVec b = .ok x) : b.length + 1 ≤ x.length ∧ x.length ≤ b.length + 4 := by
  have := (writeOpaqueVec_length h).1
  rw [this]
  unfold Spec.lengthSize
  split
  · omega
  · split <;> omega

theorem concat_exact {α : Type} {f : α → Enc} {c : Nat} (hf : ∀ a bs, f a = .ok bs → bs.length = c) : ∀ {l : List α} {bs : Bytes},
    Enc.concat (l.map f) = .ok bs → bs.length = c * l.length := by
  intro l
  induction l with
  | nil => intro bs h; simp [Enc.concat, Enc.nil] at h; subst h; simp
  | cons a l ih =>
    intro bs h
    simp only [List.map_cons, Enc.concat, Enc.append_ok_iff] at h
    obtain ⟨x, y, h1, h2, rfl⟩ := h
    simp only [List.length_append, List.length_cons, hf _ _ h1, ih h2, Nat.mul_add]
    omega

theorem vector_le {α : Type} {f : α → Enc} {c : Nat} (hf : ∀ a bs, f a = .ok bs → bs.length = c) {l : List α} {bs : Bytes}
    (h : writeVector f l = .ok bs) : c * l.length + 1 ≤ bs.length ∧ bs.length ≤ c * l.length + 4 := by
  unfold writeVector at h
  split at h
  · next raw hr =>
    have := opaqueVec_le h
    rw [concat_exact hf hr] at this
    exact this
  all_goals cases h

theorem addU32_size (a : UInt32) (bs : Bytes) (h : addU32 a = .ok bs) : bs.length = 4 := by
  cases h; rfl

theorem addU16_size (a : UInt16) (bs : Bytes) (h : addU16 a = .ok bs) : bs.length = 2 := by
  cases h; rfl

theorem parentEnc_le {p : ParentNode} {bs : Bytes} (h : p.enc = .ok bs) :
    bs.length ≤ 12 + p.encryptionKey.length + p.parentHash.length + 4 * p.unmergedLeaves.length ∧
      3 + p.encryptionKey.length + p.parentHash.length + 4 * p.unmergedLeaves.length ≤ bs.length := by
  unfold ParentNode.enc at h
  simp only [Enc.append_ok_iff] at h
  obtain ⟨_, c, ⟨a, b, h1, h2, rfl⟩, h3, rfl⟩ := h
  have := opaqueVec_le h1
  have := opaqueVec_le h2
  have := vector_le addU32_size h3
  simp only [List.length_append]
  omega

theorem size_hash (a : HashAlg) : a.size ≤ 64 := by cases a <;> decide

/-! ### Costs -/

variable (pc) in
/-- What hashing a node costs, at most. -/
def hashWork (n : Option Node) : Nat := pc.call + pc.byte * (138 + nodeSize n)

variable (pc) in
/-- What going over a node costs. -/
def stepWork (n : Option Node) : Nat := pc.step * (1 + nodeEntries n)

theorem hashE_cost (cs : UInt16) (input : Bytes) : (hashE pr pc cs input).cost ≤ pc.call + pc.byte * input.length := by
  unfold hashE
  refine Effort.cost_liftM_bind fun d _ => ?_
  simp

theorem hashE_le {cs : UInt16} {input : Bytes} {n : Option Node} (h : input.length ≤ 138 + nodeSize n) :
    (hashE pr pc cs input).cost ≤ hashWork pc n :=
  Nat.le_trans (hashE_cost cs input) (Nat.add_le_add_left (Nat.mul_le_mul_left _ h) _)

theorem hashE_length (hc : pr.Correct) {cs : UInt16} {input h : Bytes} (hr : (hashE pr pc cs input).result = .ok h) : h.length ≤ 64 := by
  rw [hashE_result, Res.bind_ok_iff] at hr
  obtain ⟨d, _, hr⟩ := hr
  cases hr
  rw [hc.hash_length]
  exact size_hash _

theorem leafInput_le {n : Option Node} {b : Bool} {l : Option LeafNode} {li : Nat} {input : Bytes} (h1 : hashedLeaf n b = .ok l)
    (h2 : encLeafNodeHashInput li l = .ok input) : input.length ≤ 138 + nodeSize n := by
  unfold encLeafNodeHashInput at h2
  simp only [Enc.append_ok_iff] at h2
  obtain ⟨_, c, ⟨a, b', ha, hb, rfl⟩, h3, rfl⟩ := h2
  cases ha; cases hb
  cases l with
  | none => cases h3; simp [beBytes_length]; omega
  | some l =>
    simp only [Enc.append_ok_iff] at h3
    obtain ⟨x, y, hx, hy, rfl⟩ := h3
    cases hx
    have : nodeSize n = y.length := by
      cases n with
      | none => cases h1
      | some n =>
        cases n with
        | parent p => simp only [hashedLeaf] at h1; split at h1 <;> cases h1
        | leaf l' =>
          simp only [hashedLeaf] at h1
          split at h1
          · cases h1
          · cases h1
            simp only [nodeSize, hy]
    rw [this]
    simp [beBytes_length]
    omega

theorem parentInput_le {n : Option Node} {ex : List UInt32} {p : Option ParentNode} {lh rh input : Bytes} (h1 : hashedParent n ex = .ok p)
    (hl : lh.length ≤ 64) (hr : rh.length ≤ 64) (h2 : encParentNodeHashInput p lh rh = .ok input) : input.length ≤ 138 + nodeSize n := by
  unfold encParentNodeHashInput at h2
  simp only [Enc.append_ok_iff] at h2
  obtain ⟨_, c, ⟨_, b', ⟨a, b, ha, hb, rfl⟩, h4, rfl⟩, h3, rfl⟩ := h2
  cases ha
  have e1 := opaqueVec_le h3
  have e2 := opaqueVec_le h4
  have e3 : b.length ≤ 1 + nodeSize n := by
    cases p with
    | none => cases hb; simp [beBytes_length]
    | some p =>
      simp only [Enc.append_ok_iff] at hb
      obtain ⟨x, y, hx, hy, rfl⟩ := hb
      cases hx
      have e := (parentEnc_le hy).1
      cases n with
      | none => cases h1
      | some n =>
        cases n with
        | leaf l => cases h1
        | parent q =>
          simp only [hashedParent] at h1
          have : p.encryptionKey = q.encryptionKey ∧ p.parentHash = q.parentHash ∧ p.unmergedLeaves.length ≤ q.unmergedLeaves.length := by
            split at h1
            · cases h1; exact ⟨rfl, rfl, List.length_filter_le _ _⟩
            · cases h1; exact ⟨rfl, rfl, Nat.le_refl _⟩
          rw [this.1, this.2.1] at e
          simp only [nodeSize, List.length_append, beBytes_length]
          omega
  simp only [List.length_append, beBytes_length]
  omega

theorem treeHashE_length (hc : pr.Correct) {cs : UInt16} {t : VTree} {ex : List UInt32} {fuel x : Nat} {h : Bytes}
    (hr : (computeTreeHashLoopE pr pc cs t ex fuel x).result = .ok h) : h.length ≤ 64 := by
  rw [computeTreeHashLoopE_result] at hr
  cases fuel with
  | zero => cases hr
  | succ fuel =>
    unfold computeTreeHashLoop at hr
    simp only [Res.bind_ok_iff] at hr
    obtain ⟨_, _, _, _, d, _, hr⟩ := hr
    cases hr
    rw [hc.hash_length]
    exact size_hash _

theorem nodeAt_idx {t : VTree} {x : Nat} {n : Option Node} (h : Res.idx t x = .ok n) : nodeAt t x = n := by
  rw [Res.idx_ok_iff] at h
  unfold nodeAt
  rw [h]
  rfl

theorem treeHashE_cost (hc : pr.Correct) (cs : UInt16) (t : VTree) (ex : List UInt32) : ∀ k j fuel, Low k j →
    (computeTreeHashLoopE pr pc cs t ex fuel (idx k j)).cost ≤
      weigh (fun i => stepWork pc (nodeAt t i) + hashWork pc (nodeAt t i)) k j := by
  intro k
  induction k with
  | zero =>
    intro j fuel hlow
    cases fuel with
    | zero => exact Nat.zero_le _
    | succ fuel =>
      unfold computeTreeHashLoopE
      rw [Effort.cost_spend_bind, leafOfNode_idx_zero]
      simp only [weigh]
      have : pc.step ≤ stepWork pc (nodeAt t (idx 0 j)) := Nat.le_mul_of_pos_right _ (by omega)
      refine Nat.add_le_add this (Effort.cost_liftM_bind fun n hn => ?_)
      refine Effort.cost_liftM_bind fun l hl => Effort.cost_liftM_bind fun input hi => ?_
      rw [nodeAt_idx hn]
      exact hashE_le (leafInput_le hl hi)
  | succ k ih =>
    intro j fuel hlow
    cases fuel with
    | zero => exact Nat.zero_le _
    | succ fuel =>
      unfold computeTreeHashLoopE
      rw [Effort.cost_spend_bind, leafOfNode_idx_succ, hlow.children]
      simp only [weigh]
      generalize hl : weigh _ k (2 * j) = wl
      generalize hr : weigh _ k (2 * j + 1) = wr
      have e : stepWork pc (nodeAt t (idx (k + 1) j)) = pc.step + pc.step * nodeEntries (nodeAt t (idx (k + 1) j)) := by
        unfold stepWork; rw [Nat.mul_add, Nat.mul_one]
      rw [e]
      suffices h : _ ≤ wl + (wr + (pc.step * nodeEntries (nodeAt t (idx (k + 1) j)) + hashWork pc (nodeAt t (idx (k + 1) j)))) by
        refine Nat.le_trans (Nat.add_le_add_left h _) ?_
        omega
      refine Effort.cost_liftM_bind fun n hn => ?_
      refine Effort.cost_bind (hl ▸ ih _ _ hlow.left) fun lh hlh => Effort.cost_bind (hr ▸ ih _ _ hlow.right) fun rh hrh => ?_
      rw [Effort.cost_spend_bind, nodeAt_idx hn]
      refine Nat.add_le_add_left ?_ _
      refine Effort.cost_liftM_bind fun p hp => Effort.cost_liftM_bind fun input hi => ?_
      exact hashE_le (parentInput_le hp (treeHashE_length hc hlh) (treeHashE_length hc hrh) hi)

theorem resolve_cost (t : VTree) : ∀ k j fuel, Low k j →
    (resolveLoopE pc t fuel (idx k j)).cost ≤ weigh (fun i => stepWork pc (nodeAt t i)) k j ∧
      ∀ l, (resolveLoopE pc t fuel (idx k j)).result = .ok l → l.length ≤ weigh (fun i => 1 + nodeEntries (nodeAt t i)) k j := by
  have hkids : ∀ k j, (children (idx k j) = none ∧ k = 0) ∨ (Low k j → ∃ k', k = k' + 1 ∧ children (idx k j) = some (idx k' (2 * j), idx k' (2 * j + 1))) := by
    intro k j
    cases k with
    | zero => exact .inl ⟨children_idx_zero j, rfl⟩
    | succ k => exact .inr fun h => ⟨k, rfl, h.children⟩
  intro k
  induction k using Nat.strongRecOn with
  | _ k ih =>
    intro j fuel hlow
    cases fuel with
    | zero => exact ⟨Nat.zero_le _, fun l h => by cases h⟩
    | succ fuel =>
      have hs := weigh_root (fun i => stepWork pc (nodeAt t i)) k j
      have hn := weigh_root (fun i => 1 + nodeEntries (nodeAt t i)) k j
      have e : stepWork pc (nodeAt t (idx k j)) = pc.step + pc.step * nodeEntries (nodeAt t (idx k j)) := by
        unfold stepWork; rw [Nat.mul_add, Nat.mul_one]
      unfold resolveLoopE
      constructor
      · rw [Effort.cost_spend_bind]
        suffices h : _ ≤ weigh (fun i => stepWork pc (nodeAt t i)) k j - pc.step by
          exact Nat.le_trans (Nat.add_le_add_left h _) (by omega)
        refine Effort.cost_liftM_bind fun n hx => ?_
        have ha := nodeAt_idx hx
        cases n with
        | none =>
          rcases hkids k j with ⟨h0, _⟩ | hk
          · rw [h0]; exact Nat.zero_le _
          · obtain ⟨k', rfl, hch⟩ := hk hlow
            rw [hch]
            have e1 := (ih k' (by omega) _ fuel hlow.left).1
            have e2 := (ih k' (by omega) _ fuel hlow.right).1
            have := Effort.cost_bind (f := fun a => do let b ← resolveLoopE pc t fuel (idx k' (2 * j + 1)); return a ++ b) e1
              fun a _ => Effort.cost_bind (f := fun b => (return a ++ b : Effort (List Nat))) (b := 0) e2 fun b _ => Nat.le_refl 0
            refine Nat.le_trans this ?_
            simp only [weigh]
            omega
        | some n =>
          cases n with
          | leaf l => exact Nat.zero_le _
          | parent p =>
            rw [ha] at e hs
            simp only [nodeEntries] at e
            show pc.step * p.unmergedLeaves.length + 0 ≤ _
            omega
      · intro l hl
        simp only [Effort.result_bind, Effort.result_spend, Effort.result_liftM, Res.ok_bind, Res.bind_ok_iff] at hl
        obtain ⟨n, hx, hl⟩ := hl
        have ha := nodeAt_idx hx
        cases n with
        | none =>
          rcases hkids k j with ⟨h0, _⟩ | hk
          · rw [h0] at hl; cases hl; exact Nat.zero_le _
          · obtain ⟨k', rfl, hch⟩ := hk hlow
            rw [hch] at hl
            simp only [Effort.result_bind, Effort.result_pure, Res.bind_ok_iff] at hl
            obtain ⟨a, h1, b, h2, hl⟩ := hl
            cases hl
            have e1 := (ih k' (by omega) _ fuel hlow.left).2 _ h1
            have e2 := (ih k' (by omega) _ fuel hlow.right).2 _ h2
            rw [List.length_append]
            simp only [weigh]
            omega
        | some n =>
          cases n with
          | leaf l => cases hl; simp only [List.length_cons, List.length_nil]; omega
          | parent p =>
            simp only [Effort.result_bind, Effort.result_spend, Effort.result_pure, Res.ok_bind] at hl
            cases hl
            rw [ha, show nodeEntries (some (.parent p)) = p.unmergedLeaves.length from rfl] at hn
            simp only [List.length_cons, List.length_map]
            omega

theorem find_cost (t : VTree) (h : Bytes) : ∀ xs, (findParentHashE pc t h xs).cost ≤ pc.step * xs.length := by
  intro xs
  induction xs with
  | nil => exact Nat.zero_le _
  | cons x xs ih =>
    unfold findParentHashE
    rw [Effort.cost_spend_bind, List.length_cons, Nat.mul_add, Nat.mul_one, Nat.add_comm (pc.step * _)]
    refine Nat.add_le_add_left (Effort.cost_liftM_bind fun n _ => ?_) _
    cases n with
    | none => exact ih
    | some n => cases n <;> (simp only; split <;> first | exact Nat.zero_le _ | exact ih)

theorem parentHash_cost {cs : UInt16} {p : ParentNode} {h : Bytes} (hl : h.length ≤ 64) :
    (computeParentHashE pr pc cs p h).cost ≤ hashWork pc (some (.parent p)) := by
  unfold computeParentHashE
  refine Effort.cost_liftM_bind fun input hi => hashE_le ?_
  unfold encParentHashInput at hi
  simp only [Enc.append_ok_iff] at hi
  obtain ⟨_, c, ⟨a, b, h1, h2, rfl⟩, h3, rfl⟩ := hi
  have := opaqueVec_le h1
  have := opaqueVec_le h2
  have := opaqueVec_le h3
  simp only [List.length_append, nodeSize]
  omega

variable (pc) in
/-- What a node counts for. -/
def nodeWork (n : Option Node) : Nat := 3 * stepWork pc n + hashWork pc n

variable (pc) in
/-- What verifyParentHashes does at a node, at most: the nodes of its subtree, and itself once more. -/
def parentWork (t : VTree) (i : Nat) : Nat :=
  weigh (fun i => nodeWork pc (nodeAt t i)) (level i) (i / 2 ^ (level i + 1)) + nodeWork pc (nodeAt t i)

theorem parentWork_idx (t : VTree) {k j : Nat} (hk : k ≤ 32) :
    parentWork pc t (idx k j) = weigh (fun i => nodeWork pc (nodeAt t i)) k j + nodeWork pc (nodeAt t (idx k j)) := by
  unfold parentWork
  rw [level_idx k j hk, idx_div k j k (Nat.le_refl _), Nat.sub_self, Nat.pow_zero, Nat.div_one]

theorem step_le_work (n : Option Node) : pc.step ≤ nodeWork pc n := by
  have : pc.step ≤ stepWork pc n := Nat.le_mul_of_pos_right _ (by omega)
  unfold nodeWork
  omega

/-- The cost on one side of a parent node. -/
theorem side_cost (t : VTree) (k j : Nat) :
    weigh (fun i => stepWork pc (nodeAt t i) + hashWork pc (nodeAt t i)) k j + (weigh (fun i => stepWork pc (nodeAt t i)) k j +
      pc.step * weigh (fun i => 1 + nodeEntries (nodeAt t i)) k j) = weigh (fun i => nodeWork pc (nodeAt t i)) k j := by
  rw [← weigh_mul, ← weigh_add, ← weigh_add]
  congr 1
  funext i
  unfold nodeWork stepWork
  ring

theorem parents_cost (hc : pr.Correct) (cs : UInt16) {t : VTree} {d : Nat} (hd : d ≤ 31) (hl : t.length = 2 ^ (d + 1) - 1) :
    ∀ ns i, t.drop i = ns → (verifyParentHashesLoopE pr pc cs t i ns).cost ≤ ((List.range' i ns.length).map (parentWork pc t)).sum := by
  intro ns
  induction ns with
  | nil => intro i _; exact Nat.zero_le _
  | cons n ns ih =>
    intro i hi
    have hlt : i < t.length := by
      by_contra h
      rw [List.drop_eq_nil_of_le (by omega)] at hi
      cases hi
    have hat : nodeAt t i = n := by
      unfold nodeAt
      rw [← List.head?_drop, hi]
      rfl
    have hrest : t.drop (i + 1) = ns := by
      rw [← List.drop_drop, hi]; rfl
    have ih := ih (i + 1) hrest
    have h32 : 2 ^ (d + 1) ≤ 2 ^ 32 := Nat.pow_le_pow_right (by decide) (by omega)
    rw [List.length_cons, List.range'_succ, List.map_cons, List.sum_cons]
    have hstep : pc.step ≤ parentWork pc t i := Nat.le_trans (step_le_work (nodeAt t i)) (Nat.le_add_left _ _)
    cases n with
    | none =>
      unfold verifyParentHashesLoopE
      rw [Effort.cost_spend_bind]
      omega
    | some n =>
      unfold verifyParentHashesLoopE
      rw [Effort.cost_spend_bind, Nat.mod_eq_of_lt (by omega)]
      obtain ⟨k, j, rfl⟩ := exists_idx i
      cases k with
      | zero =>
        rw [children_idx_zero]
        exact Nat.add_le_add hstep ih
      | succ k =>
        have hlow : Low (k + 1) j := by
          have hkd := idx_level_le (hl ▸ hlt)
          have : j < 2 ^ (d - (k + 1)) := by
            by_contra hge
            have e : 2 ^ (d + 1) = 2 ^ (d - (k + 1)) * 2 ^ (k + 1 + 1) := by rw [← Nat.pow_add]; congr 1; omega
            have := Nat.mul_le_mul_right (2 ^ (k + 1 + 1)) (Nat.le_of_not_lt hge)
            have := (idx_range (k + 1) j).1
            omega
          have e : 2 ^ (d + 1) = 2 ^ (d - (k + 1)) * 2 ^ (k + 1 + 1) := by rw [← Nat.pow_add]; congr 1; omega
          have := Nat.mul_le_mul_right (2 ^ (k + 1 + 1)) (Nat.succ_le_of_lt this)
          exact Nat.le_trans this (by omega)
        rw [hlow.children]
        cases n with
        | leaf l => simp only [Effort.cost_lift]; omega
        | parent p =>
          rw [parentWork_idx t (by have := hlow.level; omega), hat]
          simp only [weigh, hat]
          rw [← side_cost t k (2 * j), ← side_cost t k (2 * j + 1)]
          have hw : nodeWork pc (some (.parent p)) = 3 * pc.step + 3 * (pc.step * p.unmergedLeaves.length) + hashWork pc (some (.parent p)) := by
            unfold nodeWork stepWork
            simp only [nodeEntries]
            ring
          have hwl := treeHashE_cost (pc := pc) hc cs t p.unmergedLeaves k (2 * j) 34 hlow.left
          have hwr := treeHashE_cost (pc := pc) hc cs t p.unmergedLeaves k (2 * j + 1) 34 hlow.right
          obtain ⟨hrl, hnl⟩ := resolve_cost (pc := pc) t k (2 * j) 34 hlow.left
          obtain ⟨hrr, hnr⟩ := resolve_cost (pc := pc) t k (2 * j + 1) 34 hlow.right
          rw [Effort.cost_spend_bind]
          refine Nat.le_trans (Nat.add_le_add_left (Nat.add_le_add_left
            (Effort.cost_orFalse hwl fun lh hlh => Effort.cost_orFalse hwr fun rh hrh =>
              Effort.cost_orFalse (parentHash_cost (treeHashE_length hc hrh)) fun lp _ =>
              Effort.cost_orFalse (parentHash_cost (treeHashE_length hc hlh)) fun rp _ =>
              Effort.cost_bind hrl fun resL h1 =>
              Effort.cost_bind (Nat.le_trans (find_cost t lp resL) (Nat.mul_le_mul_left _ (hnl _ h1))) fun bl _ =>
              Effort.cost_bind hrr fun resR h2 =>
              Effort.cost_bind (b := ((List.range' (idx (k + 1) j + 1) ns.length).map (parentWork pc t)).sum)
                (Nat.le_trans (find_cost t rp resR) (Nat.mul_le_mul_left _ (hnr _ h2))) fun br _ => ?_) _) _) ?_
          · split
            · exact Nat.zero_le _
            · exact ih
          · omega

theorem leaf_even {t : VTree} {d li : Nat} (hd : d ≤ 31) (hli : li < 2 ^ d) {n : Option LeafNode}
    (h : getLeaf t li = .ok n) : n.map .leaf = nodeAt t (2 * li) := by
  have h31 : 2 ^ d ≤ 2 ^ 31 := Nat.pow_le_pow_right (by decide) hd
  unfold getLeaf nodeOfLeaf at h
  rw [Nat.mod_eq_of_lt (by omega), Res.bind_ok_iff] at h
  obtain ⟨m, h1, h2⟩ := h
  rw [nodeAt_idx h1]
  cases m with
  | none => cases h2; rfl
  | some m =>
    cases m with
    | leaf l => cases h2; rfl
    | parent p => cases h2

/-- The sum over the leaves is part of the sum over the nodes. -/
theorem leaves_le (f : Nat → Nat) : ∀ m, ((List.range m).map fun li => f (2 * li)).sum ≤ ((List.range (2 * m - 1)).map f).sum := by
  intro m
  induction m with
  | zero => exact Nat.zero_le _
  | succ m ih =>
    rw [List.range_succ, List.map_append, List.sum_append]
    cases m with
    | zero => simp
    | succ m =>
      rw [show 2 * (m + 1 + 1) - 1 = 2 * (m + 1) - 1 + 1 + 1 by omega, List.range_succ (n := 2 * (m + 1) - 1 + 1), List.range_succ (n := 2 * (m + 1) - 1),
        List.map_append, List.map_append, List.sum_append, List.sum_append]
      simp only [List.map_cons, List.map_nil, List.sum_cons, List.sum_nil]
      rw [show 2 * (m + 1) - 1 + 1 = 2 * (m + 1) by omega]
      omega

theorem members_cost {t : VTree} {d : Nat} (hd : d ≤ 31) : ∀ k li, li + k = 2 ^ d →
    (membersLoopE pc t k li).cost ≤ ((List.range' li k).map fun li => stepWork pc (nodeAt t (2 * li))).sum ∧
      ∀ ms, (membersLoopE pc t k li).result = .ok ms →
        (ms.flatMap fun l => l.capabilities.credentials).length ≤ ((List.range' li k).map fun li => nodeEntries (nodeAt t (2 * li))).sum := by
  intro k
  induction k with
  | zero => intro li _; exact ⟨Nat.zero_le _, fun ms h => by cases h; exact Nat.zero_le _⟩
  | succ k ih =>
    intro li hk
    obtain ⟨ih1, ih2⟩ := ih (li + 1) (by omega)
    rw [List.range'_succ]
    simp only [List.map_cons, List.sum_cons]
    constructor
    · unfold membersLoopE
      rw [Effort.cost_spend_bind]
      have e : stepWork pc (nodeAt t (2 * li)) = pc.step + pc.step * nodeEntries (nodeAt t (2 * li)) := by
        unfold stepWork; rw [Nat.mul_add, Nat.mul_one]
      rw [e, Nat.add_assoc]
      refine Nat.add_le_add_left (Effort.cost_liftM_bind fun n hn => ?_) _
      rw [Effort.cost_spend_bind, leaf_even hd (by omega) hn]
      refine Nat.add_le_add_left ?_ _
      have := Effort.cost_bind (f := fun rest => match n with | none => (return rest : Effort (List LeafNode)) | some l => return l :: rest) (b := 0) ih1
        (fun rest _ => by cases n <;> exact Nat.le_refl 0)
      exact this
    · intro ms h
      unfold membersLoopE at h
      simp only [Effort.result_bind, Effort.result_spend, Effort.result_liftM, Res.ok_bind, Res.bind_ok_iff] at h
      obtain ⟨n, hn, rest, hr, h⟩ := h
      have := ih2 rest hr
      rw [← leaf_even hd (by omega) hn]
      cases n with
      | none => cases h; rw [show nodeEntries (Option.map Node.leaf none) = 0 from rfl]; omega
      | some l => cases h; rw [show nodeEntries (Option.map Node.leaf (some l)) = l.capabilities.credentials.length from rfl, List.flatMap_cons, List.length_append]; omega

theorem sum_parts {f g h : Nat → Nat} {c : Nat} (hle : ∀ i, f i + c * g i ≤ h i) : ∀ {l : List Nat},
    (l.map f).sum + c * (l.map g).sum ≤ (l.map h).sum := by
  intro l
  induction l with
  | nil => exact Nat.le_refl 0
  | cons a l ih => have := hle a; simp only [List.map_cons, List.sum_cons, Nat.mul_add]; omega

theorem creds_cost {t : VTree} {d : Nat} (hd : d ≤ 31) (hl : t.length = 2 ^ (d + 1) - 1) :
    (supportedCredsE pc t).cost ≤ ((List.range t.length).map fun i => nodeWork pc (nodeAt t i)).sum := by
  obtain ⟨h1, h2⟩ := members_cost (pc := pc) hd (2 ^ d) 0 (by omega)
  rw [← List.range_eq_range'] at h1 h2
  unfold supportedCredsE
  rw [numLeaves_pow hd hl]
  refine Nat.le_trans (Effort.cost_bind h1 (b := pc.step * ((List.range (2 ^ d)).map fun li => nodeEntries (nodeAt t (2 * li))).sum) fun ms hms => ?_) ?_
  · rw [Effort.cost_spend_bind, Effort.cost_pure]
    exact Nat.mul_le_mul_left _ (h2 ms hms)
  · have e : t.length = 2 * 2 ^ d - 1 := by rw [hl, Nat.pow_succ]; omega
    rw [e]
    refine Nat.le_trans ?_ (leaves_le _ _)
    refine sum_parts fun li => ?_
    unfold nodeWork stepWork
    have : pc.step * (1 + nodeEntries (nodeAt t (2 * li))) = pc.step + pc.step * nodeEntries (nodeAt t (2 * li)) := by
      rw [Nat.mul_add, Nat.mul_one]
    omega

theorem leaves_cost (ctx : GroupContext) (now : GoTime) (creds : List UInt16) (t : VTree) : ∀ k li sk ek,
    (verifyLeavesLoopE pr pc ctx now creds t k li sk ek).cost ≤ k * (pc.step + pc.verification) := by
  intro k
  induction k with
  | zero => intro li sk ek; exact Nat.zero_le _
  | succ k ih =>
    intro li sk ek
    unfold verifyLeavesLoopE
    rw [Effort.cost_spend_bind, Nat.add_mul, Nat.one_mul]
    refine Nat.le_trans (Nat.add_le_add_left (Effort.cost_liftM_bind (b := pc.verification + k * (pc.step + pc.verification)) fun n _ => ?_) _) (by omega)
    cases n with
    | none => exact Nat.le_trans (ih _ _ _) (Nat.le_add_left _ _)
    | some l =>
      simp only
      rw [Effort.cost_spend_bind]
      exact Nat.add_le_add_left (Effort.cost_liftM_bind fun _ _ => ih _ _ _) _

/-- How many entries there are in a tree. -/
def treeEntries (t : VTree) : Nat := (t.map nodeEntries).sum

theorem entries_le {t : VTree} {n : Option Node} (h : n ∈ t) : nodeEntries n ≤ treeEntries t := by
  unfold treeEntries
  induction t with
  | nil => cases h
  | cons a t ih =>
    rw [List.map_cons, List.sum_cons]
    rcases List.mem_cons.1 h with rfl | h
    · omega
    · have := ih h; omega

theorem unmerged_cost (t : VTree) (n p : Nat) (li : UInt32) : ∀ fuel x,
    (unmergedLoopE pc t n p li fuel x).cost ≤ fuel * (pc.step * (1 + treeEntries t)) := by
  intro fuel
  induction fuel with
  | zero => intro x; exact Nat.zero_le _
  | succ fuel ih =>
    intro x
    unfold unmergedLoopE
    rw [Effort.cost_spend_bind, Nat.add_mul, Nat.one_mul, Nat.mul_add pc.step, Nat.mul_one]
    suffices h : _ ≤ pc.step * treeEntries t + fuel * (pc.step * (1 + treeEntries t)) by
      refine Nat.le_trans (Nat.add_le_add_left h _) (by rw [Nat.mul_add pc.step, Nat.mul_one]; omega)
    cases parent n x with
    | none => exact Nat.zero_le _
    | some x' =>
      simp only
      split
      · exact Nat.zero_le _
      · refine Effort.cost_liftM_bind fun node hnode => ?_
        cases node with
        | none => exact Nat.le_trans (ih _) (Nat.le_add_left _ _)
        | some node =>
          cases node with
          | leaf l => exact Nat.zero_le _
          | parent q =>
            simp only
            rw [Effort.cost_spend_bind]
            have : q.unmergedLeaves.length ≤ treeEntries t :=
              entries_le (n := some (.parent q)) (List.mem_of_getElem? (Res.idx_ok_iff.1 hnode))
            exact Nat.add_le_add (Nat.mul_le_mul_left _ (by omega)) (Effort.cost_liftM_bind fun _ _ => ih _)

theorem unmergedList_cost (t : VTree) (n p : Nat) : ∀ lis,
    (unmergedListLoopE pc t n p lis).cost ≤ lis.length * (64 * (pc.step * (1 + treeEntries t))) := by
  intro lis
  induction lis with
  | nil => exact Nat.zero_le _
  | cons li lis ih =>
    unfold unmergedListLoopE
    rw [List.length_cons, Nat.add_mul, Nat.one_mul, Nat.add_comm]
    exact Effort.cost_bind (unmerged_cost t n p li 64 _) fun _ _ => ih

theorem parentsLoop_cost (t : VTree) (n : Nat) : ∀ ns i ek,
    (verifyParentsLoopE pc t n i ns ek).cost ≤ ns.length * pc.step + (ns.map nodeEntries).sum * (64 * (pc.step * (1 + treeEntries t))) := by
  intro ns
  induction ns with
  | nil => intro i ek; exact Nat.zero_le _
  | cons a ns ih =>
    intro i ek
    rw [List.length_cons, List.map_cons, List.sum_cons, Nat.add_mul, Nat.add_mul, Nat.one_mul]
    have other : ∀ ek, pc.step + (verifyParentsLoopE pc t n (i + 1) ns ek).cost ≤ ns.length * pc.step + pc.step +
        (nodeEntries a * (64 * (pc.step * (1 + treeEntries t))) + (ns.map nodeEntries).sum * (64 * (pc.step * (1 + treeEntries t)))) := by
      intro ek
      have := ih (i + 1) ek
      omega
    cases a with
    | none => simp only [verifyParentsLoopE]; exact other ek
    | some a =>
      cases a with
      | leaf l => simp only [verifyParentsLoopE]; exact other ek
      | parent p =>
        simp only [verifyParentsLoopE]
        rw [Effort.cost_spend_bind]
        refine Nat.le_trans (Nat.add_le_add_left (Effort.cost_bind (unmergedList_cost t n _ _) fun _ _ =>
          Effort.cost_liftM_bind fun _ _ => ih (i + 1) _) _) ?_
        simp only [nodeEntries]
        omega

/-- The cost of verifyIntegrity in terms of the nodes of the tree. -/
theorem verifyIntegrity_cost (hc : pr.Correct) {t : VTree} {d : Nat} (hd : d ≤ 31) (hl : t.length = 2 ^ (d + 1) - 1) (ctx : GroupContext)
    (now : GoTime) :
    (verifyIntegrityE pr pc t ctx now).cost ≤ (d + 4) * ((List.range t.length).map fun i => nodeWork pc (nodeAt t i)).sum +
      2 ^ d * (pc.step + pc.verification) + (t.length * pc.step + treeEntries t * (64 * (pc.step * (1 + treeEntries t)))) := by
  have hlow : Low d 0 := by
    have : 2 ^ (d + 1) ≤ 2 ^ 32 := Nat.pow_le_pow_right (by decide) (by omega)
    simpa [Low] using this
  have hsum : ∀ f, weigh f d 0 = ((List.range t.length).map f).sum := by
    intro f
    rw [weigh_sum, Nat.zero_mul, ← hl, List.range_eq_range']
  have h1 : (computeTreeHashLoopE pr pc ctx.cipherSuite t [] 34 (root (treeNumLeaves t))).cost ≤
      ((List.range t.length).map fun i => nodeWork pc (nodeAt t i)).sum := by
    rw [numLeaves_pow hd hl, root_idx hd, ← hsum]
    refine Nat.le_trans (treeHashE_cost hc _ t [] d 0 34 hlow) (weigh_mono (fun i => ?_) d 0)
    unfold nodeWork
    omega
  have h2 : (verifyParentHashesLoopE pr pc ctx.cipherSuite t 0 t).cost ≤
      (d + 2) * ((List.range t.length).map fun i => nodeWork pc (nodeAt t i)).sum := by
    refine Nat.le_trans (parents_cost hc ctx.cipherSuite hd hl t 0 rfl) ?_
    rw [← List.range_eq_range', ← hsum, ← hsum]
    exact weigh_nested d 0 fun k' j' hk => Nat.le_of_eq (parentWork_idx t (by omega))
  unfold verifyIntegrityE
  refine Nat.le_trans (Effort.cost_bind h1 fun _ _ => Effort.cost_liftM_bind fun _ _ => Effort.cost_bind h2 fun _ _ =>
    Effort.cost_liftM_bind fun _ _ => Effort.cost_bind (creds_cost hd hl) fun creds _ =>
    Effort.cost_bind (leaves_cost ctx now creds t _ 0 [] []) fun ek _ => parentsLoop_cost t _ t 0 ek) ?_
  rw [numLeaves_pow hd hl]
  have : (d + 4) * ((List.range t.length).map fun i => nodeWork pc (nodeAt t i)).sum =
      ((List.range t.length).map fun i => nodeWork pc (nodeAt t i)).sum + (d + 2) * ((List.range t.length).map fun i => nodeWork pc (nodeAt t i)).sum +
        ((List.range t.length).map fun i => nodeWork pc (nodeAt t i)).sum := by ring
  unfold treeEntries at *
  omega

end Mls
