import Verif.Spec.Nonces
import Verif.Props.Private
import Verif.Props.Invariant
import Verif.Props.Transcript
import Verif.Props.Keys
/-
C81: no two messages are protected under the same key and nonce.
-/
namespace Mls

variable {pr : Prims}

/-! ### Different leaves, ratchets and generations have different keys, or the key derivation collides -/

theorem be4_inj {m n : Nat} (hm : m < 2 ^ 32) (hn : n < 2 ^ 32) (h : Spec.be4 m = Spec.be4 n) : m = n := by
  unfold Spec.be4 at h
  simp only [List.cons.injEq, and_true] at h
  obtain ⟨h1, h2, h3, h4⟩ := h
  have e : ∀ {a b : Nat}, a < 256 → b < 256 → UInt8.ofNat a = UInt8.ofNat b → a = b := by
    intro a b ha hb h
    have := congrArg UInt8.toNat h
    simp only [UInt8.toNat_ofNat'] at this
    omega
  have h1 := e (by omega) (by omega) h1
  have h2 := e (by omega) (by omega) h2
  have h3 := e (by omega) (by omega) h3
  have h4 := e (by omega) (by omega) h4
  omega

theorem kdfLabel_context {n : Nat} {l : String} {c c' : Bytes} (hc : c.length < 2 ^ 30) (hc' : c'.length < 2 ^ 30)
    (h : Spec.kdfLabel n l c = Spec.kdfLabel n l c') : c = c' :=
  vec_inj hc hc' (List.append_cancel_left h)

variable {d : SuiteDesc} {es : Bytes} {depth : Nat}

/-- Two inputs of the same length with the same output are equal or collide. -/
theorem input_inj {s s' i i' : Bytes} {n : Nat} (h : Spec.MessageInput pr d es depth (s, i, n))
    (h' : Spec.MessageInput pr d es depth (s', i', n)) (he : pr.expand d.kdf s i n = pr.expand d.kdf s' i' n) :
    (s = s' ∧ i = i') ∨ Spec.MessageCollision pr d es depth := by
  by_cases hx : (s, i, n) = (s', i', n)
  · simp only [Prod.mk.injEq, and_true] at hx
    exact .inl hx
  · exact .inr ⟨_, _, h, h', hx, rfl, he⟩

theorem nodeSecret_snoc (s : Bytes) (p : List Bool) (b : Bool) :
    Spec.nodeSecret pr d s (p ++ [b]) =
      Spec.expandWithLabel pr d (Spec.nodeSecret pr d s p) "tree" (Spec.ascii (if b then "right" else "left")) d.kdf.size := by
  unfold Spec.nodeSecret
  rw [List.foldl_append]
  rfl

theorem nodeSecret_inj : ∀ (n : Nat) (p p' : List Bool), p.length = n → p'.length = n → n ≤ depth →
    Spec.nodeSecret pr d (Spec.deriveSecret pr d es "encryption") p =
      Spec.nodeSecret pr d (Spec.deriveSecret pr d es "encryption") p' →
    p = p' ∨ Spec.MessageCollision pr d es depth := by
  intro n
  induction n with
  | zero =>
    intro p p' h h' _ _
    rw [List.eq_nil_of_length_eq_zero h, List.eq_nil_of_length_eq_zero h']
    exact .inl rfl
  | succ n ih =>
    intro p p' h h' hn he
    have hp : p ≠ [] := by rintro rfl; cases h
    have hp' : p' ≠ [] := by rintro rfl; cases h'
    obtain ⟨q, b, rfl⟩ := List.eq_nil_or_concat p |>.resolve_left hp
    obtain ⟨q', b', rfl⟩ := List.eq_nil_or_concat p' |>.resolve_left hp'
    simp only [List.concat_eq_append, List.length_append, List.length_cons, List.length_nil, Nat.add_right_cancel_iff] at h h' he ⊢
    rw [nodeSecret_snoc, nodeSecret_snoc] at he
    have e1 := Spec.MessageInput.node (pr := pr) (d := d) (epochSecret := es) (depth := depth) q b (by omega)
    have e2 := Spec.MessageInput.node (pr := pr) (d := d) (epochSecret := es) (depth := depth) q' b' (by omega)
    rcases input_inj e1 e2 he with ⟨h1, h2⟩ | h
    · rcases ih q q' h h' (by omega) h1 with rfl | h
      · left
        have : b = b' := by
          cases b <;> cases b' <;> first | rfl | (have := kdfLabel_context (by decide) (by decide) h2; revert this; decide)
        rw [this]
      · exact .inr h
    · exact .inr h

theorem leafPath_length (depth li : Nat) : (Spec.leafPath depth li).length = depth := by
  induction depth generalizing li with
  | zero => rfl
  | succ k ih => unfold Spec.leafPath; rw [List.length_cons, ih]

theorem leafPath_inj : ∀ (depth li li' : Nat), li < 2 ^ depth → li' < 2 ^ depth →
    Spec.leafPath depth li = Spec.leafPath depth li' → li = li' := by
  intro depth
  induction depth with
  | zero => intro li li' h h' _; simp at h h'; omega
  | succ k ih =>
    intro li li' h h' he
    unfold Spec.leafPath at he
    rw [List.cons.injEq] at he
    obtain ⟨h1, h2⟩ := he
    rw [Nat.pow_succ] at h h'
    rw [decide_eq_decide] at h1
    by_cases hb : 2 ^ k ≤ li
    · rw [if_pos hb, if_pos (h1.1 hb)] at h2
      have := ih _ _ (by omega) (by omega) h2
      have := h1.1 hb
      omega
    · have hb' := fun x => hb (h1.2 x)
      rw [if_neg hb, if_neg hb'] at h2
      exact ih _ _ (by omega) (by omega) h2

theorem messageSecret_zero_inj {li li' : Nat} {ct ct' : ContentType} (hl : li < 2 ^ depth) (hl' : li' < 2 ^ depth)
    (h : Spec.messageSecret pr d es depth li ct 0 = Spec.messageSecret pr d es depth li' ct' 0) :
    (li = li' ∧ Spec.ratchetName ct = Spec.ratchetName ct') ∨ Spec.MessageCollision pr d es depth := by
  rcases input_inj (.ratchet li ct hl) (.ratchet li' ct' hl') h with ⟨h1, h2⟩ | h
  · rcases nodeSecret_inj depth _ _ (leafPath_length ..) (leafPath_length ..) le_rfl h1 with h1 | h1
    · refine .inl ⟨leafPath_inj depth li li' hl hl' h1, ?_⟩
      have h2 := (List.append_cancel_left (List.append_cancel_right h2))
      revert h2
      cases ct <;> cases ct' <;> first | (intro _; rfl) | (intro h; revert h; decide)
    · exact .inr h1
  · exact .inr h

theorem messageSecret_inj : ∀ (gen : Nat) {li li' : Nat} {ct ct' : ContentType}, gen < 2 ^ 32 → li < 2 ^ depth → li' < 2 ^ depth →
    Spec.messageSecret pr d es depth li ct gen = Spec.messageSecret pr d es depth li' ct' gen →
    (li = li' ∧ Spec.ratchetName ct = Spec.ratchetName ct') ∨ Spec.MessageCollision pr d es depth := by
  intro gen
  induction gen with
  | zero => intro li li' ct ct' _ hl hl' h; exact messageSecret_zero_inj hl hl' h
  | succ g ih =>
    intro li li' ct ct' hg hl hl' h
    rcases input_inj (.next li ct g hl (by omega)) (.next li' ct' g hl' (by omega)) h with ⟨h1, _⟩ | h
    · exact ih (by omega) hl hl' h1
    · exact .inr h

/-- C81: messages of different leaves, of different ratchets or of different generations have different keys, unless two of the
key derivations of the epoch collide. -/
theorem C81_apart {li li' gen gen' : Nat} {ct ct' : ContentType} (hl : li < 2 ^ depth) (hl' : li' < 2 ^ depth) (hg : gen < 2 ^ 32)
    (hg' : gen' < 2 ^ 32)
    (h : Spec.messageKey pr d es depth li ct gen = Spec.messageKey pr d es depth li' ct' gen') :
    (li = li' ∧ Spec.ratchetName ct = Spec.ratchetName ct' ∧ gen = gen') ∨ Spec.MessageCollision pr d es depth := by
  rcases input_inj (.key li ct gen hl hg) (.key li' ct' gen' hl' hg') h with ⟨h1, h2⟩ | h
  · have := be4_inj hg hg' (kdfLabel_context (by rw [be4_length]; omega) (by rw [be4_length]; omega) h2)
    subst this
    rcases messageSecret_inj gen hg hl hl' h1 with ⟨h3, h4⟩ | h
    · exact .inl ⟨h3, h4, rfl⟩
    · exact .inr h
  · exact .inr h

/-- The application keys of the two leaves of a small tree, and the two keys of one leaf. -/
example : Spec.messageKey toyPrims ⟨.sha256, .x25519, .sha256, .aes128gcm, .ed25519⟩ [1, 2, 3] 1 0 .application 0 ≠ Spec.messageKey toyPrims ⟨.sha256, .x25519, .sha256, .aes128gcm, .ed25519⟩ [1, 2, 3] 1 1 .application 0 ∧
    Spec.messageKey toyPrims ⟨.sha256, .x25519, .sha256, .aes128gcm, .ed25519⟩ [1, 2, 3] 1 0 .application 0 ≠ Spec.messageKey toyPrims ⟨.sha256, .x25519, .sha256, .aes128gcm, .ed25519⟩ [1, 2, 3] 1 0 .commit 0 := by
  decide +kernel

/-! ### One member -/

theorem mask_inj {nonce : Bytes} (h : 4 ≤ nonce.length) {g g' : Bytes4} :
    Spec.mask nonce g.toBytes = Spec.mask nonce g'.toBytes ↔ g = g' := by
  refine ⟨fun he => ?_, fun he => by rw [he]⟩
  have h1 := xorGuard_mask h g
  have h2 := xorGuard_mask h g'
  rw [← he] at h2
  exact xorGuard_inj h1 h2

/-- The plaintext of an application message starts with the data. -/
theorem application_plaintext {data sig pt : Bytes} (h : PrivateMessageContent.enc ⟨.application data, ⟨sig, []⟩⟩ = .ok pt) :
    ∃ rest, pt = Spec.vec data ++ rest ∧ data.length < 2 ^ 30 := by
  unfold PrivateMessageContent.enc Content.enc AuthData.enc at h
  obtain ⟨x, y, hx, _, rfl⟩ := Enc.append_ok_iff.1 h
  dsimp only at hx
  rw [writeOpaqueVec_spec] at hx
  refine ⟨y, by rw [Spec.vec, hx]; rfl, ?_⟩
  unfold Spec.opaqueVec Spec.varint at hx
  by_contra hlt
  rw [if_neg (by omega), if_neg (by omega), if_neg (by omega)] at hx
  cases hx

/-- C81: any two application messages that a member sends in one epoch, whatever it receives and whomever it invites in between,
are sealed under the same key, and under the same nonce exactly when the random reuse guards are equal. -/
theorem C81_same (hc : pr.Correct) {st st2 : GroupState} (hr : Reachable pr st) {as : List AuthenticatedContent}
    (ht : Trace pr st as st2) (hn : ∀ a ∈ as, a.isCommit = false) {data1 data2 r1 r2 raw1 raw2 : Bytes} {g1 g2 : Bytes4}
    (h1 : createApplicationMessage pr st data1 r1 g1 = .ok raw1) (h2 : createApplicationMessage pr st2 data2 r2 g2 = .ok raw2) :
    ∃ (d : SuiteDesc) (key n1 n2 aad : Bytes) (m1 m2 : PrivateMessage) (rest1 rest2 : Bytes),
      unmarshal MlsMessage.dec raw1 = .ok ⟨1, .privateMessage m1⟩ ∧ unmarshal MlsMessage.dec raw2 = .ok ⟨1, .privateMessage m2⟩ ∧
      pr.aeadSeal d.aead key n1 (Spec.vec data1 ++ rest1) aad = some m1.ciphertext ∧
      pr.aeadSeal d.aead key n2 (Spec.vec data2 ++ rest2) aad = some m2.ciphertext ∧
      (n1 = n2 ↔ g1 = g2) ∧ data1.length < 2 ^ 30 ∧ data2.length < 2 ^ 30 := by
  have hi := hr.inv hc
  obtain ⟨d, hd⟩ := hi.suite
  obtain ⟨depth, hdep, hlen⟩ := hi.tree.complete
  have hin : st.group.myLeafIndex.toNat < 2 ^ depth := by have := hi.own; rw [hlen, Nat.pow_succ] at this; omega
  have hg := trace_noCommit ht hn
  obtain ⟨m1, p1, s1, t1, a1, -, -, -, -, b1, -, c1, -⟩ := C62_sent_application pr hc st d hd depth hdep hlen hin data1 r1 g1 raw1 h1
  obtain ⟨m2, p2, s2, t2, a2, -, -, -, -, b2, -, c2, -⟩ := C62_sent_application pr hc st2 d (by rw [hg]; exact hd) depth hdep
    (by rw [hg]; exact hlen) (by rw [hg]; exact hin) data2 r2 g2 raw2 h2
  rw [hg] at c2
  dsimp only at c2
  obtain ⟨rest1, rfl, l1⟩ := application_plaintext b1
  obtain ⟨rest2, rfl, l2⟩ := application_plaintext b2
  refine ⟨d, _, _, _, _, m1, m2, rest1, rest2, a1, a2, c1, c2, ?_, l1, l2⟩
  refine mask_inj ?_
  unfold Spec.deriveTreeSecret Spec.expandWithLabel
  rw [hc.expand_length _ _ _ _ (expandable_nonce _ _)]
  cases d.aead <;> decide

theorem vec_get {b : Bytes} (h : b.length < 2 ^ 30) (j : Nat) (x : UInt8) (hj : b[j]? = some x) (rest : Bytes) :
    (Spec.vec b ++ rest)[Spec.lengthSize b.length + j]? = some x := by
  have hjl : j < b.length := by
    by_contra hn
    rw [List.getElem?_eq_none (by omega)] at hj
    cases hj
  have hv : ∃ pre, Spec.vec b = pre ++ b ∧ pre.length = Spec.lengthSize b.length := by
    unfold Spec.vec Spec.opaqueVec Spec.varint Spec.lengthSize
    split
    · exact ⟨_, rfl, rfl⟩
    · split
      · exact ⟨_, rfl, rfl⟩
      · rw [if_pos (show b.length < 1073741824 from h)]; exact ⟨_, rfl, rfl⟩
  obtain ⟨pre, hv, hp⟩ := hv
  rw [hv, ← hp, List.append_assoc, List.getElem?_append_right (by omega), Nat.add_sub_cancel_left,
    List.getElem?_append_left hjl]
  exact hj

/-- C81: when two guards are equal, and the AEAD is a stream cipher with a tag, whoever sees the two messages learns the
difference of the two payloads. -/
theorem C81_leak (hc : pr.Correct) (hs : Spec.StreamCipher pr) {st st2 : GroupState} (hr : Reachable pr st)
    {as : List AuthenticatedContent} (ht : Trace pr st as st2) (hn : ∀ a ∈ as, a.isCommit = false)
    {data1 data2 r1 r2 raw1 raw2 : Bytes} {g : Bytes4} (h1 : createApplicationMessage pr st data1 r1 g = .ok raw1)
    (h2 : createApplicationMessage pr st2 data2 r2 g = .ok raw2) (hl : data1.length = data2.length) :
    ∃ m1 m2, unmarshal MlsMessage.dec raw1 = .ok ⟨1, .privateMessage m1⟩ ∧ unmarshal MlsMessage.dec raw2 = .ok ⟨1, .privateMessage m2⟩ ∧
      ∀ (j : Nat) (b1 b2 : UInt8), data1[j]? = some b1 → data2[j]? = some b2 →
        ∃ x1 x2, m1.ciphertext[Spec.lengthSize data1.length + j]? = some x1 ∧
          m2.ciphertext[Spec.lengthSize data1.length + j]? = some x2 ∧ x1 ^^^ x2 = b1 ^^^ b2 := by
  obtain ⟨d, key, n1, n2, aad, m1, m2, rest1, rest2, a1, a2, c1, c2, hng, l1, l2⟩ := C81_same hc hr ht hn h1 h2
  obtain rfl := hng.2 rfl
  obtain ⟨stream, hs⟩ := hs
  refine ⟨m1, m2, a1, a2, fun j b1 b2 e1 e2 => ?_⟩
  refine ⟨_, _, hs _ _ _ _ _ _ c1 _ _ (vec_get l1 j b1 e1 rest1), hl ▸ hs _ _ _ _ _ _ c2 _ _ (vec_get l2 j b2 e2 rest2), ?_⟩
  rw [hl]
  generalize stream d.aead key n1 (Spec.lengthSize data2.length + j) = s
  apply UInt8.toBitVec_inj.1
  simp only [UInt8.toBitVec_xor]
  rw [BitVec.xor_assoc, BitVec.xor_comm s.toBitVec, BitVec.xor_assoc, BitVec.xor_self, BitVec.xor_zero]

/-! ### Examples -/

/-- Toy primitives whose AEAD is a stream cipher, with a stream of zeros. -/
def streamPrims : Prims :=
  { toyPrims with
    aeadSeal := fun a k n p aad => if k.length = a.keySize then some (p ++ (k ++ n ++ aad)) else none
    aeadOpen := fun a k n c aad =>
      if k.length = a.keySize then (stripPrefix (k ++ n ++ aad).reverse c.reverse).map List.reverse else none }

theorem streamPrims_correct : streamPrims.Correct :=
  { toyPrims_correct with
    aead_seal := fun a k n p aad h _ _ => by simp [streamPrims, h]
    aead_open := fun a k n p aad c h => by
      simp only [streamPrims] at h ⊢
      split at h
      · next hk =>
        cases h
        rw [if_pos hk, List.reverse_append (as := p), stripPrefix_append, Option.map_some, List.reverse_reverse]
      · cases h }

theorem streamPrims_stream : Spec.StreamCipher streamPrims := by
  refine ⟨fun _ _ _ _ => 0, fun a k n p aad c h j b hj => ?_⟩
  simp only [streamPrims] at h
  split at h
  · cases h
    have : j < p.length := by
      by_contra hn
      rw [List.getElem?_eq_none (by omega)] at hj
      cases hj
    rw [List.getElem?_append_left this, hj, UInt8.xor_zero]
  · cases h

/-- A group under these primitives. -/
def streamState : Res GroupState := do
  let kp ← generateKeyPairPackage streamPrims 1 (.basic [1])
    { init := [1], enc := [2], sig := [3], leafSign := [], pkgSign := [], now1 := toyNow, now2 := toyNow }
  createGroup streamPrims [7] kp fun _ => 0

/-- Its creator sends "yes" and "nop" with the same guard: the hypotheses of C81_same and C81_leak are met. -/
example : ∃ (st : GroupState) (raw1 raw2 : Bytes), Reachable streamPrims st ∧ Trace streamPrims st [] st ∧
    createApplicationMessage streamPrims st ([121, 101, 115]) [] ⟨1, 2, 3, 4⟩ = .ok raw1 ∧
    createApplicationMessage streamPrims st ([110, 111, 112]) [] ⟨1, 2, 3, 4⟩ = .ok raw2 ∧ raw1 ≠ raw2 := by
  have key : Res.holds streamState (fun st =>
      Res.holds (createApplicationMessage streamPrims st ([121, 101, 115]) [] ⟨1, 2, 3, 4⟩) fun a =>
      Res.holds (createApplicationMessage streamPrims st ([110, 111, 112]) [] ⟨1, 2, 3, 4⟩) fun b => decide (a ≠ b)) = true := by
    decide +kernel
  obtain ⟨st, hst, key⟩ := Res.holds_ok key
  obtain ⟨a, ha, key⟩ := Res.holds_ok key
  obtain ⟨b, hb, key⟩ := Res.holds_ok key
  unfold streamState at hst
  rw [Res.bind_ok_iff] at hst
  obtain ⟨kp, _, hst⟩ := hst
  exact ⟨st, a, b, .create hst, .nil st, ha, hb, of_decide_eq_true key⟩

end Mls
