import Verif.Proofs.Codec4
/-
C04 - C11: serialisation of key packages, welcomes and MLS messages.
-/
namespace Mls

/-! ### Evaluation helpers -/

theorem unmarshalKeyPackage_ok_iff {raw : Bytes} {k : KeyPackage} :
    unmarshalKeyPackage raw = .ok k ↔
      ∃ v, MlsMessage.dec.run raw = (.ok { version := v, body := .keyPackage k }, []) := by
  unfold unmarshalKeyPackage
  rcases h : unmarshal MlsMessage.dec raw with m | _ | _ | _
  · rw [unmarshal_ok_iff] at h
    obtain ⟨v, body⟩ := m
    cases body with
    | keyPackage k' =>
      show (Res.ok k' = Res.ok k) ↔ _
      rw [h]
      simp
    | publicMessage _ => show (Res.err = Res.ok k) ↔ _; rw [h]; simp
    | privateMessage _ => show (Res.err = Res.ok k) ↔ _; rw [h]; simp
    | welcome _ => show (Res.err = Res.ok k) ↔ _; rw [h]; simp
    | groupInfo _ => show (Res.err = Res.ok k) ↔ _; rw [h]; simp
  all_goals
    constructor
    · intro h'; cases h'
    · rintro ⟨v, h'⟩
      rw [← unmarshal_ok_iff, h] at h'
      cases h'

theorem unmarshalWelcome_ok_iff {raw : Bytes} {w : Welcome} :
    unmarshalWelcome raw = .ok w ↔
      ∃ v, MlsMessage.dec.run raw = (.ok { version := v, body := .welcome w }, []) := by
  unfold unmarshalWelcome
  rcases h : unmarshal MlsMessage.dec raw with m | _ | _ | _
  · rw [unmarshal_ok_iff] at h
    obtain ⟨v, body⟩ := m
    cases body with
    | welcome k' =>
      show (Res.ok k' = Res.ok w) ↔ _
      rw [h]
      simp
    | publicMessage _ => show (Res.err = Res.ok w) ↔ _; rw [h]; simp
    | privateMessage _ => show (Res.err = Res.ok w) ↔ _; rw [h]; simp
    | keyPackage _ => show (Res.err = Res.ok w) ↔ _; rw [h]; simp
    | groupInfo _ => show (Res.err = Res.ok w) ↔ _; rw [h]; simp
  all_goals
    constructor
    · intro h'; cases h'
    · rintro ⟨v, h'⟩
      rw [← unmarshal_ok_iff, h] at h'
      cases h'

theorem keyPackage_bytes_iff {k : KeyPackage} {raw : Bytes} :
    k.bytes = .ok raw ↔ MlsMessage.enc { version := 1, body := .keyPackage k } = .ok raw := by
  unfold KeyPackage.bytes
  rcases MlsMessage.enc { version := 1, body := .keyPackage k } with _ | _ | _ | _ <;> simp

theorem welcome_bytes_iff {w : Welcome} {raw : Bytes} :
    w.bytes = .ok raw ↔ MlsMessage.enc { version := 1, body := .welcome w } = .ok raw := by
  unfold Welcome.bytes
  rcases MlsMessage.enc { version := 1, body := .welcome w } with _ | _ | _ | _ <;> simp

theorem unmarshalKeyPackage_safe (raw : Bytes) :
    unmarshalKeyPackage raw ≠ .panic ∧ unmarshalKeyPackage raw ≠ .hang := by
  have h := unmarshal_safe message_safe raw
  unfold unmarshalKeyPackage
  rcases hm : unmarshal MlsMessage.dec raw with m | _ | _ | _
  · obtain ⟨v, body⟩ := m
    cases body <;> constructor <;> intro h' <;> cases h'
  · constructor <;> intro h' <;> cases h'
  · exact absurd hm h.1
  · exact absurd hm h.2

theorem unmarshalWelcome_safe (raw : Bytes) :
    unmarshalWelcome raw ≠ .panic ∧ unmarshalWelcome raw ≠ .hang := by
  have h := unmarshal_safe message_safe raw
  unfold unmarshalWelcome
  rcases hm : unmarshal MlsMessage.dec raw with m | _ | _ | _
  · obtain ⟨v, body⟩ := m
    cases body <;> constructor <;> intro h' <;> cases h'
  · constructor <;> intro h' <;> cases h'
  · exact absurd hm h.1
  · exact absurd hm h.2

theorem Res.eq_err_of {α : Type} {r : Res α} (h1 : r ≠ .panic) (h2 : r ≠ .hang)
    (h3 : ∀ a, r ≠ .ok a) : r = .err := by
  cases r with
  | ok a => exact absurd rfl (h3 a)
  | err => rfl
  | panic => exact absurd rfl h1
  | hang => exact absurd rfl h2

/-! ### C04 -/

/-- C04: a key package of protocol version 1 which `Bytes` can encode reads back as itself. -/
theorem C04_roundtrip (k : KeyPackage) (raw : Bytes) (hv : k.version = 1) (h : k.bytes = .ok raw) :
    unmarshalKeyPackage raw = .ok k := by
  rw [keyPackage_bytes_iff] at h
  rw [unmarshalKeyPackage_ok_iff]
  refine ⟨1, ?_⟩
  have := message_rt _ _ [] h ⟨rfl, hv⟩
  rwa [List.append_nil] at this

/-- C04: and nothing else reads back: different key packages have different bytes. -/
theorem C04_injective (k₁ k₂ : KeyPackage) (raw : Bytes) (hv₁ : k₁.version = 1) (hv₂ : k₂.version = 1)
    (h₁ : k₁.bytes = .ok raw) (h₂ : k₂.bytes = .ok raw) : k₁ = k₂ := by
  have a := C04_roundtrip k₁ raw hv₁ h₁
  rw [C04_roundtrip k₂ raw hv₂ h₂] at a
  cases a; rfl

/-- A leaf node for the concrete cases. -/
def exLeaf (name : UInt8) : LeafNode where
  encryptionKey := [10, name]
  signatureKey := [11, name]
  credential := .basic [name]
  capabilities := ⟨[1], [1], [], [], [1]⟩
  source := .keyPackage ⟨1, 2⟩
  extensions := [⟨7, [1, 2]⟩]
  signature := [9]

/-- A key package for the concrete cases. -/
def exKeyPackage (name : UInt8) : KeyPackage where
  version := 1
  cipherSuite := 1
  initKey := [12, name]
  leafNode := exLeaf name
  extensions := [⟨9, []⟩]
  signature := [13, 14]

example : (exKeyPackage 5).version = 1 ∧ ∃ raw, (exKeyPackage 5).bytes = .ok raw := ⟨rfl, _, rfl⟩

/-! ### C05 -/

/-- C05 is false: a key package whose signature is cut off is accepted, with an empty
signature, and its `Bytes` differ from the input. -/
theorem C05_refuted : ∃ raw k, unmarshalKeyPackage raw = .ok k ∧ k.bytes ≠ .ok raw := by
  refine ⟨[0, 1, 0, 5, 0, 1, 0, 1, 0, 0, 0, 0, 1, 0, 0, 0, 0, 0, 0, 2, 0, 0, 0], ?_⟩
  exact ⟨⟨1, 1, [], ⟨[], [], .basic [], ⟨[], [], [], [], []⟩, .update, [], []⟩, [], []⟩,
    by decide, by decide⟩

/-- C05 is false even up to one byte string per key package: two different byte strings
decode to the same key package. -/
theorem C05_refuted_unique : ∃ raw₁ raw₂ k, raw₁ ≠ raw₂ ∧ unmarshalKeyPackage raw₁ = .ok k ∧
    unmarshalKeyPackage raw₂ = .ok k := by
  refine ⟨[0, 1, 0, 5, 0, 1, 0, 1, 0, 0, 0, 0, 1, 0, 0, 0, 0, 0, 0, 2, 0, 0, 0],
    [0, 1, 0, 5, 0, 1, 0, 1, 0, 0, 0, 0, 1, 0, 0, 0, 0, 0, 0, 2, 0, 0, 0, 0xC0], ?_⟩
  exact ⟨⟨1, 1, [], ⟨[], [], .basic [], ⟨[], [], [], [], []⟩, .update, [], []⟩, [], []⟩,
    by decide, by decide, by decide⟩

/-- `k` bytes at most are consumed. -/
def AtMost {α : Type} (k : Nat) (p : P α) : Prop := ∀ s, s.length ≤ ((p.run s).2).length + k

theorem AtMost.bind {α β : Type} {p : P α} {f : α → P β} {j k : Nat} (hp : AtMost j p)
    (hf : ∀ s a s', p.run s = (.ok a, s') → s'.length ≤ (((f a).run s').2).length + k) :
    AtMost (j + k) (p >>= f) := by
  intro s
  rw [P.bind_run]
  have := hp s
  rcases hps : p.run s with ⟨r, s'⟩
  rw [hps] at this
  cases r with
  | ok a => have h := hf _ _ _ hps; simp only at this ⊢; omega
  | err => simp only at this ⊢; omega
  | panic => simp only at this ⊢; omega
  | hang => simp only at this ⊢; omega

theorem readU8_atMost : AtMost 1 readU8 := by
  refine AtMost.bind (j := 1) (k := 0) ?_ fun _ _ _ _ => Nat.le_refl _
  intro s
  rw [readN_run]
  split <;> simp; omega

theorem readVarintLoop_atMost (k : Nat) (v : UInt32) : AtMost k (readVarintLoop k v) := by
  induction k generalizing v with
  | zero => exact fun _ => Nat.le_refl _
  | succ k ih =>
    have := AtMost.bind (j := 1) (k := k) readU8_atMost (f := fun b => readVarintLoop k ((v <<< 8) + b.toUInt32))
      fun _ _ s' _ => ih _ s'
    rwa [Nat.add_comm] at this

theorem readVarint_atMost : AtMost 4 readVarint := by
  unfold readVarint
  refine AtMost.bind (j := 1) (k := 3) readU8_atMost fun s b s' _ => ?_
  have hpre : (b >>> 6).toNat = b.toNat / 64 := by
    simp [UInt8.toNat_shiftRight, Nat.shiftRight_eq_div_pow]
  have hb := b.toNat_lt
  simp only [P.ite_run]
  split
  · simp [P.fail]
  · rename_i h3
    have hk : 1 <<< (b >>> 6).toNat - 1 ≤ 3 := by
      have h4 : (b >>> 6).toNat ≠ 3 := by
        intro h; apply h3; rw [beq_iff_eq, ← UInt8.toNat_inj]; exact h
      rw [hpre] at h4 ⊢
      have : b.toNat / 64 = 0 ∨ b.toNat / 64 = 1 ∨ b.toNat / 64 = 2 := by omega
      rcases this with h | h | h <;> rw [h] <;> decide
    have := AtMost.bind (j := 1 <<< (b >>> 6).toNat - 1) (k := 0)
      (readVarintLoop_atMost _ (b &&& 0x3F).toUInt32)
      (f := fun v => if (b >>> 6).toNat ≥ 1 ∧ v.toNat < 1 <<< (8 * (1 <<< (b >>> 6).toNat / 2) - 2) then P.fail
          else Pure.pure v) (fun s a s' _ => by rw [P.ite_run]; split <;> exact Nat.le_refl _) s'
    omega

/-- A failed read of an opaque vector that used up its input had at most four bytes. -/
theorem opaque_err_nil_length {s : Bytes} (h : readOpaqueVec.run s = (.err, [])) : s.length ≤ 4 := by
  have := AtMost.bind (j := 4) (k := 0) readVarint_atMost (f := fun n => readN n.toNat) (p := readVarint)
  have hv := readVarint_atMost s
  unfold readOpaqueVec at h
  rw [P.bind_run] at h
  rcases hr : readVarint.run s with ⟨r, s'⟩
  rw [hr] at h hv
  cases r with
  | ok n =>
    simp only at h hv
    have := readN_err_eq h
    subst this
    simpa using hv
  | err => cases h; simpa using hv
  | panic => cases h
  | hang => cases h

/-- C05, what does hold: an accepted byte string is either the canonical encoding of the
key package, or its canonical encoding with the final empty signature (one zero byte)
replaced by at most four bytes that are not an opaque vector. Missing from the full
statement: the second case. -/
theorem C05_partial (raw : Bytes) (k : KeyPackage) (h : unmarshalKeyPackage raw = .ok k) :
    k.version = 1 ∧ (k.bytes = .ok raw ∨
      (k.signature = [] ∧ ∃ body junk, k.bytes = .ok (body ++ [0]) ∧ raw = body ++ junk ∧
        junk.length ≤ 4 ∧ (readOpaqueVec.run junk).1 = .err)) := by
  rw [unmarshalKeyPackage_ok_iff] at h
  obtain ⟨v, h⟩ := h
  unfold MlsMessage.dec at h
  rw [P.bind_ok_iff] at h
  obtain ⟨v', s0, h0, h⟩ := h
  obtain ⟨x0, e0, rfl⟩ := readU16_canon _ _ _ h0 trivial
  rw [P.ite_run] at h
  split at h
  · rw [P.fail_ok_iff] at h; exact h.elim
  rename_i hv
  have hv : v' = 1 := by simpa using hv
  subst hv
  rw [P.bind_ok_iff] at h
  simp only [wireFormatTag, tag16_ok] at h
  obtain ⟨t, s1, ⟨h1, hc⟩, h⟩ := h
  obtain ⟨x1, e1, rfl⟩ := readU16_canon _ _ _ h1 trivial
  simp only [Bool.or_eq_true, beq_iff_eq] at hc
  have hk : t = 5 ∧ KeyPackage.dec.run s1 = (.ok k, []) := by
    rcases hc with (((rfl | rfl) | rfl) | rfl) | rfl
    · change (do let m ← PublicMessage.dec; return { version := 1, body := .publicMessage m } : P MlsMessage).run s1 = _ at h
      simp [P.bind_ok_iff, P.pure_ok_iff] at h
    · change (do let m ← PrivateMessage.dec; return { version := 1, body := .privateMessage m } : P MlsMessage).run s1 = _ at h
      simp [P.bind_ok_iff, P.pure_ok_iff] at h
    · change (do let m ← Welcome.dec; return { version := 1, body := .welcome m } : P MlsMessage).run s1 = _ at h
      simp [P.bind_ok_iff, P.pure_ok_iff] at h
    · change (do let m ← GroupInfo.dec; return { version := 1, body := .groupInfo m } : P MlsMessage).run s1 = _ at h
      simp [P.bind_ok_iff, P.pure_ok_iff] at h
    · change (do let m ← KeyPackage.dec; return { version := 1, body := .keyPackage m } : P MlsMessage).run s1 = _ at h
      simp only [P.bind_ok_iff, P.pure_ok_iff] at h
      obtain ⟨a, s', h2, h3, rfl⟩ := h
      cases h3
      exact ⟨rfl, h2⟩
  obtain ⟨rfl, hk⟩ := hk
  obtain ⟨hv, hcase⟩ := keyPackage_dec_cases hk
  refine ⟨hv, ?_⟩
  simp only [keyPackage_bytes_iff, MlsMessage.enc, MessageBody.wireFormat, WireFormat.enc]
  rcases hcase with ⟨bs, he, rfl⟩ | ⟨hs, tbs, junk, he, rfl, hj⟩
  · left
    rw [e0, e1, he]
    simp
  · right
    refine ⟨hs, x0 ++ x1 ++ tbs, junk, ?_, by simp, opaque_err_nil_length hj, by rw [hj]⟩
    rw [e0, e1, KeyPackage.enc, he, hs]
    show (Res.ok x0 ++ Res.ok x1 ++ (Res.ok tbs ++ Res.ok [0]) : Enc) = _
    simp

/-- Both cases occur: with the signature, and with it cut off after four bytes of junk. -/
example : (∃ raw k, unmarshalKeyPackage raw = .ok k ∧ k.bytes = .ok raw) ∧
    ∃ k, unmarshalKeyPackage [0, 1, 0, 5, 0, 1, 0, 1, 0, 0, 0, 0, 1, 0, 0, 0, 0, 0, 0, 2, 0, 0, 0, 128, 0, 64, 0] = .ok k ∧
      k.signature = [] := by
  refine ⟨?_, ⟨1, 1, [], ⟨[], [], .basic [], ⟨[], [], [], [], []⟩, .update, [], []⟩, [], []⟩, by decide +kernel⟩
  have hb : ∃ raw, (exKeyPackage 5).bytes = .ok raw := ⟨_, rfl⟩
  obtain ⟨raw, hb⟩ := hb
  exact ⟨raw, _, C04_roundtrip _ _ rfl hb, hb⟩

/-- C05, corollary: decoding is canonical for every key package with a non-empty signature. -/
theorem C05_partial_signed (raw : Bytes) (k : KeyPackage) (h : unmarshalKeyPackage raw = .ok k)
    (hs : k.signature ≠ []) : k.bytes = .ok raw := by
  rcases (C05_partial raw k h).2 with h | ⟨h, _⟩
  · exact h
  · exact absurd h hs

example : ∃ raw k, unmarshalKeyPackage raw = .ok k ∧ k.signature ≠ [] := by
  have hb : ∃ raw, (exKeyPackage 5).bytes = .ok raw := ⟨_, rfl⟩
  obtain ⟨raw, hb⟩ := hb
  exact ⟨raw, _, C04_roundtrip _ _ rfl hb, by decide⟩

/-! ### C06, C07 -/

/-- C06: every welcome that `Bytes` can encode reads back as itself. -/
theorem C06_roundtrip (w : Welcome) (raw : Bytes) (h : w.bytes = .ok raw) :
    unmarshalWelcome raw = .ok w := by
  rw [welcome_bytes_iff] at h
  rw [unmarshalWelcome_ok_iff]
  refine ⟨1, ?_⟩
  have := message_rt _ _ [] h ⟨rfl, trivial⟩
  rwa [List.append_nil] at this

/-- C07: an accepted welcome is its own encoding. -/
theorem C07_canonical (raw : Bytes) (w : Welcome) (h : unmarshalWelcome raw = .ok w) :
    w.bytes = .ok raw := by
  rw [unmarshalWelcome_ok_iff] at h
  obtain ⟨v, h⟩ := h
  obtain ⟨hw, hc⟩ := message_dec h
  obtain ⟨bs, he, hr⟩ := hc trivial
  have hv : v = 1 := hw.1
  subst hv
  rw [welcome_bytes_iff, he, hr]
  simp

example : ∃ raw w, unmarshalWelcome raw = .ok w ∧ w.secrets.length = 2 ∧
    w.bytes = .ok raw := by
  have hb : ∃ raw, Welcome.bytes ⟨1, [⟨[1], ⟨[2], [3]⟩⟩, ⟨[4], ⟨[5], [6]⟩⟩], [7, 8]⟩ = .ok raw := ⟨_, rfl⟩
  obtain ⟨raw, hb⟩ := hb
  exact ⟨raw, _, C06_roundtrip _ _ hb, rfl, hb⟩

/-! ### C08 -/

/-- C08: decoding of messages, key packages, welcomes, group infos, group secrets, and of
the node list of a ratchet tree, ends with a value or an error on every input. -/
theorem C08_total (raw : Bytes) :
    (unmarshal MlsMessage.dec raw ≠ .panic ∧ unmarshal MlsMessage.dec raw ≠ .hang) ∧
    (unmarshalKeyPackage raw ≠ .panic ∧ unmarshalKeyPackage raw ≠ .hang) ∧
    (unmarshalWelcome raw ≠ .panic ∧ unmarshalWelcome raw ≠ .hang) ∧
    (unmarshal GroupInfo.dec raw ≠ .panic ∧ unmarshal GroupInfo.dec raw ≠ .hang) ∧
    (unmarshal GroupSecrets.dec raw ≠ .panic ∧ unmarshal GroupSecrets.dec raw ≠ .hang) ∧
    (unmarshal SenderData.dec raw ≠ .panic ∧ unmarshal SenderData.dec raw ≠ .hang) ∧
    (∀ ct, ((PrivateMessageContent.dec ct).run raw).1 ≠ .panic ∧
      ((PrivateMessageContent.dec ct).run raw).1 ≠ .hang) ∧
    (unmarshal (readVector decOptNode) raw ≠ .panic ∧ unmarshal (readVector decOptNode) raw ≠ .hang) :=
  ⟨unmarshal_safe message_safe raw, unmarshalKeyPackage_safe raw, unmarshalWelcome_safe raw,
    unmarshal_safe groupInfo_safe raw, unmarshal_safe groupSecrets_safe raw,
    unmarshal_safe senderData_safe raw, fun ct => privateContent_safe ct raw,
    unmarshal_safe vecOptNode_safe raw⟩

/-! ### C09 -/

/-- C09: a whole message followed by excess bytes is refused. -/
theorem C09_excess (m : MlsMessage) (hm : m.WF) (bs extra : Bytes) (h : m.enc = .ok bs)
    (hx : extra ≠ []) :
    unmarshalKeyPackage (bs ++ extra) = .err ∧ unmarshalWelcome (bs ++ extra) = .err := by
  have hd := message_rt m bs extra h hm
  constructor
  · refine Res.eq_err_of (unmarshalKeyPackage_safe _).1 (unmarshalKeyPackage_safe _).2 fun a ha => ?_
    obtain ⟨v, ha⟩ := unmarshalKeyPackage_ok_iff.1 ha
    rw [hd] at ha
    cases ha
    exact hx rfl
  · refine Res.eq_err_of (unmarshalWelcome_safe _).1 (unmarshalWelcome_safe _).2 fun a ha => ?_
    obtain ⟨v, ha⟩ := unmarshalWelcome_ok_iff.1 ha
    rw [hd] at ha
    cases ha
    exact hx rfl

/-- The first two fields of an accepted message. -/
theorem message_header {raw rest : Bytes} {m : MlsMessage} (h : MlsMessage.dec.run raw = (.ok m, rest)) :
    ∃ body, raw = 0 :: 1 :: 0 :: (match m.body.wireFormat with
      | .publicMessage => 1 | .privateMessage => 2 | .welcome => 3 | .groupInfo => 4
      | .keyPackage => 5) :: body := by
  unfold MlsMessage.dec at h
  rw [P.bind_ok_iff] at h
  obtain ⟨v', s0, h0, h⟩ := h
  obtain ⟨x0, e0, rfl⟩ := readU16_canon _ _ _ h0 trivial
  rw [P.ite_run] at h
  split at h
  · rw [P.fail_ok_iff] at h; exact h.elim
  rename_i hv
  have hv : v' = 1 := by simpa using hv
  subst hv
  cases e0
  rw [P.bind_ok_iff] at h
  simp only [wireFormatTag, tag16_ok] at h
  obtain ⟨t, s1, ⟨h1, hc⟩, h⟩ := h
  obtain ⟨x1, e1, rfl⟩ := readU16_canon _ _ _ h1 trivial
  cases e1
  simp only [Bool.or_eq_true, beq_iff_eq] at hc
  rcases hc with (((rfl | rfl) | rfl) | rfl) | rfl
  · change (do let m ← PublicMessage.dec; return { version := 1, body := .publicMessage m } : P MlsMessage).run s1 = _ at h
    simp only [P.bind_ok_iff, P.pure_ok_iff] at h
    obtain ⟨a, s', h2, rfl, rfl⟩ := h
    exact ⟨s1, rfl⟩
  · change (do let m ← PrivateMessage.dec; return { version := 1, body := .privateMessage m } : P MlsMessage).run s1 = _ at h
    simp only [P.bind_ok_iff, P.pure_ok_iff] at h
    obtain ⟨a, s', h2, rfl, rfl⟩ := h
    exact ⟨s1, rfl⟩
  · change (do let m ← Welcome.dec; return { version := 1, body := .welcome m } : P MlsMessage).run s1 = _ at h
    simp only [P.bind_ok_iff, P.pure_ok_iff] at h
    obtain ⟨a, s', h2, rfl, rfl⟩ := h
    exact ⟨s1, rfl⟩
  · change (do let m ← GroupInfo.dec; return { version := 1, body := .groupInfo m } : P MlsMessage).run s1 = _ at h
    simp only [P.bind_ok_iff, P.pure_ok_iff] at h
    obtain ⟨a, s', h2, rfl, rfl⟩ := h
    exact ⟨s1, rfl⟩
  · change (do let m ← KeyPackage.dec; return { version := 1, body := .keyPackage m } : P MlsMessage).run s1 = _ at h
    simp only [P.bind_ok_iff, P.pure_ok_iff] at h
    obtain ⟨a, s', h2, rfl, rfl⟩ := h
    exact ⟨s1, rfl⟩

/-- C09: UnmarshalKeyPackage accepts only inputs that start with version 1 and wire format 5. -/
theorem C09_keyPackage_header (raw : Bytes) (k : KeyPackage) (h : unmarshalKeyPackage raw = .ok k) :
    ∃ body, raw = 0 :: 1 :: 0 :: 5 :: body := by
  obtain ⟨v, h⟩ := unmarshalKeyPackage_ok_iff.1 h
  exact message_header h

/-- C09: UnmarshalWelcome accepts only inputs that start with version 1 and wire format 3. -/
theorem C09_welcome_header (raw : Bytes) (w : Welcome) (h : unmarshalWelcome raw = .ok w) :
    ∃ body, raw = 0 :: 1 :: 0 :: 3 :: body := by
  obtain ⟨v, h⟩ := unmarshalWelcome_ok_iff.1 h
  exact message_header h

/-- C09: any other version or wire format, and any input shorter than the header, is refused. -/
theorem C09_refused (raw : Bytes) :
    ((¬ ∃ body, raw = 0 :: 1 :: 0 :: 5 :: body) → unmarshalKeyPackage raw = .err) ∧
    ((¬ ∃ body, raw = 0 :: 1 :: 0 :: 3 :: body) → unmarshalWelcome raw = .err) := by
  constructor
  · intro h
    exact Res.eq_err_of (unmarshalKeyPackage_safe _).1 (unmarshalKeyPackage_safe _).2
      fun a ha => h (C09_keyPackage_header raw a ha)
  · intro h
    exact Res.eq_err_of (unmarshalWelcome_safe _).1 (unmarshalWelcome_safe _).2
      fun a ha => h (C09_welcome_header raw a ha)

example : (MlsMessage.mk 1 (.keyPackage (exKeyPackage 3))).WF ∧
    ∃ bs, (MlsMessage.mk 1 (.keyPackage (exKeyPackage 3))).enc = .ok bs := ⟨⟨rfl, rfl⟩, _, rfl⟩

/-- A key package with one byte too many, and one with the wire format of a welcome. -/
example : (∃ bs, (MlsMessage.mk 1 (.keyPackage (exKeyPackage 3))).enc = .ok bs ∧ unmarshalKeyPackage (bs ++ [0]) = .err) ∧
    unmarshalKeyPackage [0, 1, 0, 3, 0, 1] = .err ∧ unmarshalWelcome [0, 2, 0, 3, 0, 1] = .err := by
  have hb : ∃ bs, (MlsMessage.mk 1 (.keyPackage (exKeyPackage 3))).enc = .ok bs := ⟨_, rfl⟩
  obtain ⟨bs, hb⟩ := hb
  refine ⟨⟨bs, hb, (C09_excess (MlsMessage.mk 1 (.keyPackage (exKeyPackage 3))) ⟨rfl, rfl⟩ bs [0] hb (by decide)).1⟩, (C09_refused _).1 ?_, (C09_refused _).2 ?_⟩ <;> simp

/-! ### C10, C11 -/

/-- C10: every well-formed message that can be encoded decodes to itself, whatever is nested. -/
theorem C10_roundtrip (m : MlsMessage) (hm : m.WF) (bs : Bytes) (h : m.enc = .ok bs) :
    unmarshal MlsMessage.dec bs = .ok m := unmarshal_rt message_rt h hm

/-- C10: the hypothesis costs nothing: everything that was ever received is well formed. -/
theorem C10_wf (raw : Bytes) (m : MlsMessage) (h : unmarshal MlsMessage.dec raw = .ok m) : m.WF :=
  (message_dec (unmarshal_ok_iff.1 h)).1

/-- C10: the encrypted parts round-trip as well: group secrets, sender data, and the content
of private messages followed by any padding. -/
theorem C10_inner :
    (∀ g bs, GroupSecrets.enc g = .ok bs → unmarshal GroupSecrets.dec bs = .ok g) ∧
    (∀ d bs, SenderData.enc d = .ok bs → unmarshal SenderData.dec bs = .ok d) ∧
    (∀ (c : PrivateMessageContent) bs pad, c.enc = .ok bs → c.content.WF → c.auth.WF c.content.ty →
      (PrivateMessageContent.dec c.content.ty).run (bs ++ pad) = (.ok c, pad)) ∧
    (∀ (i : GroupInfo) bs, i.groupContext.version = 1 → i.enc = .ok bs → unmarshal GroupInfo.dec bs = .ok i) :=
  ⟨fun _ _ h => unmarshal_rt groupSecrets_rt h trivial, fun _ _ h => unmarshal_rt senderData_rt h trivial,
    fun c bs pad h hw ha => privateContent_rt c bs pad h hw ha,
    fun _ _ hw h => unmarshal_rt groupInfo_rt h hw⟩

/-- The inner parts can be encoded: group secrets with a path secret and a key, sender data, a commit, and a group info. -/
example : (∃ bs, GroupSecrets.enc ⟨[1], some [2], [⟨.external [3], [4]⟩]⟩ = .ok bs) ∧
    (∃ bs, SenderData.enc ⟨5, 6, ⟨1, 2, 3, 4⟩⟩ = .ok bs) ∧
    (∃ bs, PrivateMessageContent.enc ⟨.commit ⟨[.reference [5]], none⟩, ⟨[6], [7]⟩⟩ = .ok bs) ∧
    ∃ bs, GroupInfo.enc ⟨⟨1, 1, [7], 3, [1, 2], [4], []⟩, [⟨2, [0]⟩], [8], 0, [9]⟩ = .ok bs :=
  ⟨⟨_, rfl⟩, ⟨_, rfl⟩, ⟨_, rfl⟩, _, rfl⟩

/-- C11 is false: key packages and group infos with missing last fields are accepted. -/
theorem C11_refuted :
    (∃ raw m, unmarshal MlsMessage.dec raw = .ok m ∧ (∃ k, m.body = .keyPackage k) ∧ m.enc ≠ .ok raw) ∧
    (∃ raw m, unmarshal MlsMessage.dec raw = .ok m ∧ (∃ i, m.body = .groupInfo i) ∧ m.enc ≠ .ok raw) ∧
    (∃ raw m, unmarshal MlsMessage.dec raw = .ok m ∧ (∃ p, m.body = .publicMessage p) ∧ m.enc ≠ .ok raw) := by
  refine ⟨⟨[0, 1, 0, 5, 0, 1, 0, 1, 0, 0, 0, 0, 1, 0, 0, 0, 0, 0, 0, 2, 0, 0, 0], ?_⟩, ?_, ?_⟩
  · exact ⟨⟨1, .keyPackage ⟨1, 1, [], ⟨[], [], .basic [], ⟨[], [], [], [], []⟩, .update, [], []⟩, [], []⟩⟩,
      by decide, ⟨_, rfl⟩, by decide⟩
  · refine ⟨[0, 1, 0, 4, 0, 1, 0, 1, 0, 0, 0, 0, 0, 0, 0, 0, 0, 0, 0, 0, 0], ?_⟩
    exact ⟨⟨1, .groupInfo ⟨⟨1, 1, [], 0, [], [], []⟩, [], [], 0, []⟩⟩, by decide, ⟨_, rfl⟩, by decide⟩
  · -- a commit whose add proposal's key package lacks its signature
    refine ⟨[0, 1, 0, 1] ++ [0] ++ [0, 0, 0, 0, 0, 0, 0, 0] ++ [3] ++ [0] ++ [3] ++
      [22, 1, 0, 1, 0, 1, 0, 1, 0, 0, 0, 0, 1, 0, 0, 0, 0, 0, 0, 2, 0, 0, 0] ++ [0] ++ [0, 0], ?_⟩
    exact ⟨⟨1, .publicMessage ⟨⟨[], 0, .newMemberProposal, [], .commit ⟨[.proposal (.add
      ⟨1, 1, [], ⟨[], [], .basic [], ⟨[], [], [], [], []⟩, .update, [], []⟩, [], []⟩)], none⟩⟩,
      ⟨[], []⟩, []⟩⟩, by decide, ⟨_, rfl⟩, by decide⟩

/-- C11, what does hold: an accepted message re-encodes to the same bytes when every key
package in it, and the message itself if it is a group info, has a non-empty signature.
Missing from the full statement: messages with empty signatures. -/
theorem C11_partial (raw : Bytes) (m : MlsMessage) (h : unmarshal MlsMessage.dec raw = .ok m)
    (hs : m.body.Signed) : m.enc = .ok raw := by
  obtain ⟨bs, he, hr⟩ := (message_dec (unmarshal_ok_iff.1 h)).2 hs
  rw [he, hr]; simp

/-- C11: private messages and welcomes are canonical without any condition. -/
theorem C11_partial_opaque (raw : Bytes) (m : MlsMessage) (h : unmarshal MlsMessage.dec raw = .ok m)
    (hb : (∃ p, m.body = .privateMessage p) ∨ (∃ w, m.body = .welcome w)) : m.enc = .ok raw := by
  refine C11_partial raw m h ?_
  rcases hb with ⟨p, hb⟩ | ⟨p, hb⟩ <;> rw [hb] <;> trivial

example : ∃ raw m, unmarshal MlsMessage.dec raw = .ok m ∧ (∃ p, m.body = .privateMessage p) ∧ m.enc = .ok raw := by
  have hb : ∃ raw, (MlsMessage.mk 1 (.privateMessage ⟨[7], 3, .application, [], [1, 2], [3, 4, 5]⟩)).enc = .ok raw := ⟨_, rfl⟩
  obtain ⟨raw, hb⟩ := hb
  have hr := C10_roundtrip (MlsMessage.mk 1 (.privateMessage ⟨[7], 3, .application, [], [1, 2], [3, 4, 5]⟩)) ⟨rfl, trivial⟩ raw hb
  exact ⟨raw, _, hr, ⟨_, rfl⟩, C11_partial_opaque raw _ hr (.inl ⟨_, rfl⟩)⟩

/-- C11: a commit message with one member add and one reference. -/
def exCommitMessage : MlsMessage := ⟨1, .publicMessage {
  content := ⟨[1], 7, .member 3, [2],
    .commit ⟨[.proposal (.add (exKeyPackage 4)), .reference [5]], none⟩⟩
  auth := ⟨[6], [7]⟩
  membershipTag := [8] }⟩

example : exCommitMessage.WF ∧ exCommitMessage.body.Signed ∧ ∃ raw, exCommitMessage.enc = .ok raw := by
  refine ⟨⟨rfl, ?_, Or.inl rfl, Or.inl ⟨3, rfl⟩⟩, ?_, _, rfl⟩
  · intro p hp
    simp only [List.mem_cons, List.not_mem_nil, or_false] at hp
    rcases hp with rfl | rfl
    · rfl
    · trivial
  · intro p hp
    simp only [List.mem_cons, List.not_mem_nil, or_false] at hp
    rcases hp with rfl | rfl
    · show (exKeyPackage 4).signature ≠ []; decide
    · trivial

end Mls
