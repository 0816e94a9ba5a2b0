import Verif.Proofs.Res
import Verif.Proofs.TreeMath
import Verif.Spec.Schedule
import Verif.Model.SecretTree
import Verif.Model.KeySchedule
/-
Evaluation of the derivations of the model in terms of the specification.
-/
namespace Mls

variable {pr : Prims}

theorem suite_sizes {cs : UInt16} {d : SuiteDesc} (h : suite cs = .ok d) :
    d.nh.toNat = d.kdf.size ∧ d.hash = d.kdf := by
  rw [suite_ok_iff] at h
  unfold cipherSuiteDescriptions at h
  repeat' split at h
  all_goals first | (cases h; exact ⟨rfl, rfl⟩) | cases h

theorem kdfSize_le (a : HashAlg) : a.size ≤ 64 := by cases a <;> decide
theorem keySize_le (a : Aead) : a.keySize ≤ 32 := by cases a <;> decide
theorem nonceSize_eq (a : Aead) : a.nonceSize = 12 := by cases a <;> rfl

theorem beBytes2 (n : Nat) : beBytes 2 n = [UInt8.ofNat (n / 256), UInt8.ofNat (n % 256)] := by
  simp [beBytes, ← UInt8.toNat_inj]

theorem beBytes4 (n : Nat) : beBytes 4 n = [UInt8.ofNat (n / 16777216), UInt8.ofNat (n / 65536 % 256),
     UInt8.ofNat (n / 256 % 256), UInt8.ofNat (n % 256)] := by
  simp [beBytes, ← UInt8.toNat_inj]

theorem writeOpaqueVec_vec {b : Bytes} (h : b.length < 2 ^ 30) : writeOpaqueVec b = .ok (Spec.vec b) := by
  obtain ⟨x, h1, h2⟩ := writeOpaqueVec_ok h
  rw [h2, Spec.vec, h1]; rfl

/-- ExpandWithLabel of the code is that of the RFC. -/
theorem expandWithLabel_eq {cs : UInt16} {d : SuiteDesc} (hd : suite cs = .ok d) (secret context : Bytes)
    {label : Bytes} {name : String} (hl : lblPrefix ++ label = Spec.ascii ("MLS 1.0 " ++ name))
    (hs : label.length < 2 ^ 20) (hc : context.length < 2 ^ 30) (n : UInt16)
    (hn : n.toNat ≤ 255 * d.kdf.size) :
    expandWithLabel pr cs secret label context n = .ok (Spec.expandWithLabel pr d secret name context n.toNat) := by
  have hp : (lblPrefix ++ label).length < 2 ^ 30 := by simp [lblPrefix]; omega
  have he : encKdfLabel label context n = .ok (Spec.kdfLabel n.toNat name context) := by
    unfold encKdfLabel Spec.kdfLabel
    rw [writeOpaqueVec_vec hp, writeOpaqueVec_vec hc, ← hl, addU16, beBytes2]
    rfl
  unfold expandWithLabel
  rw [he, hd]
  simp only [Res.ok_bind]
  rw [if_neg (by omega)]
  rfl

/-- DeriveSecret of the code is that of the RFC. -/
theorem deriveSecret_eq {cs : UInt16} {d : SuiteDesc} (hd : suite cs = .ok d) (secret : Bytes)
    {label : Bytes} {name : String} (hl : lblPrefix ++ label = Spec.ascii ("MLS 1.0 " ++ name))
    (hs : label.length < 2 ^ 20) :
    deriveSecret pr cs secret label = .ok (Spec.deriveSecret pr d secret name) := by
  unfold deriveSecret
  have hsz := (suite_sizes hd).1
  rw [hd]
  simp only [Res.ok_bind]
  rw [expandWithLabel_eq hd _ _ hl hs (by simp) _ (by omega), hsz]
  rfl

/-- DeriveTreeSecret of the code is that of the RFC. -/
theorem deriveTreeSecret_eq {cs : UInt16} {d : SuiteDesc} (hd : suite cs = .ok d) (secret : Bytes)
    {label : Bytes} {name : String} (hl : lblPrefix ++ label = Spec.ascii ("MLS 1.0 " ++ name))
    (hs : label.length < 2 ^ 20) (g : UInt32) (n : UInt16) (hn : n.toNat ≤ 255 * d.kdf.size) :
    deriveTreeSecret pr cs secret label g n =
      .ok (Spec.deriveTreeSecret pr d secret name g.toNat n.toNat) := by
  unfold deriveTreeSecret
  rw [expandWithLabel_eq hd _ _ hl hs (by simp [beBytes_length]) _ hn, beBytes4]
  rfl

theorem lblSecret_name : lblPrefix ++ lblSecret = Spec.ascii ("MLS 1.0 " ++ "secret") := by decide
theorem lblKey_name : lblPrefix ++ lblKey = Spec.ascii ("MLS 1.0 " ++ "key") := by decide
theorem lblNonce_name : lblPrefix ++ lblNonce = Spec.ascii ("MLS 1.0 " ++ "nonce") := by decide
theorem lblTree_name : lblPrefix ++ lblTree = Spec.ascii ("MLS 1.0 " ++ "tree") := by decide
theorem lblDerivedPsk_name : lblPrefix ++ lblDerivedPsk = Spec.ascii ("MLS 1.0 " ++ "derived psk") := by decide
theorem lblLeft_name : lblLeft = Spec.ascii "left" := by decide
theorem lblRight_name : lblRight = Spec.ascii "right" := by decide

/-! ### Ratchets -/

theorem deriveNext_eq {cs : UInt16} {d : SuiteDesc} (hd : suite cs = .ok d) (s : RatchetSecret) :
    s.deriveNext pr cs = .ok { secret := Spec.deriveTreeSecret pr d s.secret "secret" s.generation.toNat d.kdf.size,
                               generation := s.generation + 1 } := by
  unfold RatchetSecret.deriveNext
  have hsz := (suite_sizes hd).1
  rw [hd]
  simp only [Res.ok_bind]
  rw [deriveTreeSecret_eq hd _ lblSecret_name (by decide) _ _ (by omega), hsz]
  rfl

theorem fastForward_eq {cs : UInt16} {d : SuiteDesc} (hd : suite cs = .ok d) (root : Bytes) (target : UInt32) :
    ∀ (m g fuel : Nat), g + m = target.toNat → m ≤ fuel →
      fastForward pr cs target fuel ⟨Spec.ratchet pr d root g, UInt32.ofNat g⟩ =
        .ok ⟨Spec.ratchet pr d root target.toNat, target⟩ := by
  intro m
  induction m with
  | zero =>
    intro g fuel hg _
    have hg' : UInt32.ofNat g = target := by
      apply UInt32.toNat_inj.1; simp; rw [Nat.mod_eq_of_lt]
      · omega
      · have := target.toNat_lt; omega
    cases fuel <;> simp [fastForward, hg'] <;> congr
  | succ m ih =>
    intro g fuel hg hf
    obtain ⟨fuel, rfl⟩ : ∃ f, fuel = f + 1 := ⟨fuel - 1, by omega⟩
    have ht := target.toNat_lt
    have hgn : (UInt32.ofNat g).toNat = g := by simp; omega
    have hne : UInt32.ofNat g ≠ target := by
      intro h
      rw [h] at hgn
      omega
    rw [fastForward, if_neg hne, deriveNext_eq hd]
    simp only [Res.ok_bind, hgn]
    rw [show UInt32.ofNat g + 1 = UInt32.ofNat (g + 1) from by
      apply UInt32.toNat_inj.1; simp]
    exact ih (g + 1) fuel (by omega) (by omega)

/-! ### The secret tree -/

open Spec in
theorem nodeSecret_cons (d : SuiteDesc) (s : Bytes) (b : Bool) (p : List Bool) :
    nodeSecret pr d s (b :: p) =
      nodeSecret pr d (Spec.expandWithLabel pr d s "tree" (ascii (if b then "right" else "left")) d.kdf.size) p := rfl

theorem walk_mem {t : Spec.ITree} {p : List Bool} {x : Nat} (h : t.walk p = some x) : Spec.ITree.Mem x t := by
  induction t generalizing p with
  | leaf y =>
    cases p with
    | nil => cases h; exact .leaf _
    | cons b p => cases h
  | node l y r ihl ihr =>
    cases p with
    | nil => cases h; exact .here _ _ _
    | cons b p =>
      cases b
      · exact .inl _ _ (ihl h)
      · exact .inr _ _ (ihr h)

theorem children_idx_succ {k j : Nat} (hk : k < 31) (hx : idx (k + 1) j < 2 ^ 32) :
    children (idx (k + 1) j) = some (idx k (2 * j), idx k (2 * j + 1)) := by
  unfold children
  rw [left_idx hx, right_idx hk]; rfl

theorem children_idx_zero (j : Nat) : children (idx 0 j) = none := by
  unfold children left
  rw [level_idx 0 j (by decide)]; rfl

theorem secretTreeGet_of {tree : List (Option Bytes)} {x : Nat} {s : Bytes} (h : tree[x]? = some (some s)) :
    secretTreeGet tree x = .ok s := by
  unfold secretTreeGet
  rw [Res.idx_ok_iff.2 h]; rfl

open Spec in
theorem deriveChildren_spec {cs : UInt16} {d : SuiteDesc} (hd : suite cs = .ok d) :
    ∀ (k j fuel : Nat) (tree : List (Option Bytes)) (s : Bytes), k ≤ 31 → k < fuel →
      (j + 1) * 2 ^ (k + 1) - 1 ≤ tree.length → tree.length < 2 ^ 32 → tree[idx k j]? = some (some s) →
      ∃ tree', deriveChildren pr cs fuel tree (idx k j) = .ok tree' ∧ tree'.length = tree.length ∧
        (∀ p x, (ITree.perfect k (j * 2 ^ (k + 1))).walk p = some x →
          tree'[x]? = some (some (nodeSecret pr d s p))) ∧
        (∀ x, (x < j * 2 ^ (k + 1) ∨ (j + 1) * 2 ^ (k + 1) - 1 ≤ x) → tree'[x]? = tree[x]?) := by
  intro k
  induction k with
  | zero =>
    intro j fuel tree s _ hf hlen _ hs
    obtain ⟨fuel, rfl⟩ : ∃ f, fuel = f + 1 := ⟨fuel - 1, by omega⟩
    refine ⟨tree, ?_, rfl, ?_, fun x _ => rfl⟩
    · rw [deriveChildren, children_idx_zero]
    · intro p x hp
      cases p with
      | nil =>
        cases hp
        rw [show (ITree.perfect 0 (j * 2 ^ (0 + 1))).top = idx 0 j from perfect_top 0 j]
        exact hs
      | cons b p => cases hp
  | succ k ih =>
    intro j fuel tree s hk hf hlen hlt hs
    obtain ⟨fuel, rfl⟩ : ∃ f, fuel = f + 1 := ⟨fuel - 1, by omega⟩
    have hr := idx_range (k + 1) j
    have hrl := idx_range k (2 * j)
    have hrr := idx_range k (2 * j + 1)
    have hpow : 2 ^ (k + 1 + 1) = 2 * 2 ^ (k + 1) := by rw [Nat.pow_succ]; omega
    have hpos : 0 < 2 ^ (k + 1) := Nat.two_pow_pos _
    have e1 : j * 2 ^ (k + 1 + 1) = 2 * j * 2 ^ (k + 1) := by rw [hpow, Nat.mul_comm 2 j, Nat.mul_assoc]
    have e2 : (j + 1) * 2 ^ (k + 1 + 1) = (2 * j + 1 + 1) * 2 ^ (k + 1) := by
      rw [hpow, show 2 * j + 1 + 1 = (j + 1) * 2 from by omega, Nat.mul_assoc]
    have e3 : (2 * j + 1) * 2 ^ (k + 1) = 2 * j * 2 ^ (k + 1) + 2 ^ (k + 1) := by rw [Nat.add_mul]; omega
    have e4 : (2 * j + 1 + 1) * 2 ^ (k + 1) = 2 * j * 2 ^ (k + 1) + 2 ^ (k + 1) + 2 ^ (k + 1) := by
      rw [Nat.add_mul (2 * j + 1), e3]; omega
    have hmid : idx (k + 1) j = 2 * j * 2 ^ (k + 1) + 2 ^ (k + 1) - 1 := by
      show j * 2 ^ (k + 1 + 1) + (2 ^ (k + 1) - 1) = _
      rw [e1]; omega
    have hsz := (suite_sizes hd).1
    rw [e1, e2] at hr
    rw [e2] at hlen
    rw [e1, e2]
    have hll : idx k (2 * j) < tree.length := by omega
    have hrl' : idx k (2 * j + 1) < tree.length := by omega
    have hn : d.nh.toNat ≤ 255 * d.kdf.size := by omega
    rw [deriveChildren, children_idx_succ (by omega) (by omega)]
    simp only [secretTreeGet_of hs, Res.ok_bind, hd]
    rw [expandWithLabel_eq hd _ _ lblTree_name (by decide) (by decide) _ hn,
      expandWithLabel_eq hd _ _ lblTree_name (by decide) (by decide) _ hn]
    simp only [Res.ok_bind]
    rw [Res.setIdx_of_lt _ hll]
    simp only [Res.ok_bind]
    rw [Res.setIdx_of_lt _ (by simpa using hrl')]
    simp only [Res.ok_bind, hsz, lblLeft_name, lblRight_name]
    have hne : idx k (2 * j) ≠ idx k (2 * j + 1) := by omega
    generalize hL : Spec.expandWithLabel pr d s "tree" (ascii "left") d.kdf.size = sl
    generalize hR : Spec.expandWithLabel pr d s "tree" (ascii "right") d.kdf.size = sr
    obtain ⟨t1, h1, l1, p1, o1⟩ := ih (2 * j) fuel ((tree.set (idx k (2 * j)) (some sl)).set (idx k (2 * j + 1)) (some sr))
      sl (by omega) (by omega) (by simp; omega) (by simpa using hlt)
      (by rw [List.getElem?_set_ne (by omega), List.getElem?_set_self hll])
    obtain ⟨t2, h2, l2, p2, o2⟩ := ih (2 * j + 1) fuel t1 sr (by omega) (by omega)
      (by rw [l1]; simp; omega) (by rw [l1]; simpa using hlt)
      (by rw [o1 _ (by omega), List.getElem?_set_self (by simpa using hrl')])
    rw [h1]
    simp only [Res.ok_bind, h2]
    refine ⟨t2, rfl, by rw [l2, l1]; simp, ?_, ?_⟩
    · intro p x hp
      rw [← e1, perfect_succ] at hp
      cases p with
      | nil =>
        cases hp
        show t2[idx (k + 1) j]? = _
        rw [o2 _ (by omega), o1 _ (by omega), List.getElem?_set_ne (by omega),
          List.getElem?_set_ne (by omega), hs]
        rfl
      | cons b p =>
        rw [nodeSecret_cons]
        cases b
        · simp only [ITree.walk] at hp
          have hm := walk_mem hp
          rw [mem_perfect_range] at hm
          rw [o2 _ (by omega), p1 _ _ hp, ← hL]
          rfl
        · simp only [ITree.walk] at hp
          rw [p2 _ _ hp, ← hR]
          rfl
    · intro x hx
      rw [o2 _ (by omega), o1 _ (by omega), List.getElem?_set_ne (by omega), List.getElem?_set_ne (by omega)]

end Mls
