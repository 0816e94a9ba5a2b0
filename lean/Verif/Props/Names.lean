import Verif.Model.Misc
import Verif.Props.Schedule
import Verif.Props.Serial
/-
C41 and C10, on the remaining exported functions: the names of cipher suites, and authenticated content.
-/
namespace Mls

/-- How RFC 9420 section 17.1 spells the algorithms. -/
def Spec.kemName : Kem → String
  | .p256 => "DHKEMP256" | .p384 => "DHKEMP384" | .p521 => "DHKEMP521" | .x25519 => "DHKEMX25519" | .x448 => "DHKEMX448"
def Spec.aeadName : Aead → String
  | .aes128gcm => "AES128GCM" | .aes256gcm => "AES256GCM" | .chacha20poly1305 => "CHACHA20POLY1305"
def Spec.hashName : HashAlg → String
  | .sha256 => "SHA256" | .sha384 => "SHA384" | .sha512 => "SHA512"
def Spec.sigName : SigScheme → String
  | .ed25519 => "Ed25519" | .ed448 => "Ed448" | .ecdsaP256 => "P256" | .ecdsaP384 => "P384" | .ecdsaP521 => "P521"
/-- The security level in bits of a KEM. -/
def Spec.levelName : Kem → String
  | .p256 | .x25519 => "128" | .p384 | .p521 | .x448 => "256"

/-- **C41**: the name of a suite lists the algorithms that the table gives it, as RFC 9420 section 17.1 forms names. -/
theorem C41_named (cs : UInt16) (d : SuiteDesc) (h : suite cs = .ok d) :
    suiteString cs = "MLS_" ++ Spec.levelName d.kem ++ "_" ++ Spec.kemName d.kem ++ "_" ++ Spec.aeadName d.aead ++ "_" ++
      Spec.hashName d.hash ++ "_" ++ Spec.sigName d.sig := by
  rw [C41_table] at h
  have he : ∀ n : Nat, n < 2 ^ 16 → cs.toNat = n → cs = UInt16.ofNat n := by
    rintro n hn rfl; exact (UInt16.ofNat_toNat).symm
  simp only [Spec.suites, List.mem_cons, Prod.mk.injEq, List.not_mem_nil, or_false] at h
  rcases h with ⟨h, rfl⟩ | ⟨h, rfl⟩ | ⟨h, rfl⟩ | ⟨h, rfl⟩ | ⟨h, rfl⟩ | ⟨h, rfl⟩ | ⟨h, rfl⟩ <;>
    (rw [he _ (by decide) h]; decide +kernel)

theorem number_injective {a b : Nat} (h : "<" ++ toString a ++ ">" = "<" ++ toString b ++ ">") : a = b := by
  have h := congrArg String.toList h
  simp only [String.toList_append, Nat.toString_eq_ofList_toDigits, String.toList_ofList] at h
  have h := List.append_cancel_right h
  have h := List.append_cancel_left h
  rw [← Nat.ofDigitChars_ten_toDigits (n := a), h, Nat.ofDigitChars_ten_toDigits]

/-- **C41**: suites have different names, unknown ones too. -/
theorem C41_names (a b : UInt16) (h : suiteString a = suiteString b) : a = b := by
  have hne : ∀ (s : String) (n : Nat), s.toList.head? ≠ some '<' → s ≠ "<" ++ toString n ++ ">" := by
    rintro s n hs rfl
    exact hs (by simp [String.toList_append])
  unfold suiteString at h
  repeat' split at h
  all_goals first
    | (subst_vars; rfl)
    | exact absurd h (by decide)
    | exact absurd h (hne _ _ (by decide))
    | exact absurd h.symm (hne _ _ (by decide))
    | exact UInt16.toNat_inj.1 (number_injective h)

/-- **C10**: authenticated content round-trips. -/
theorem C10_authenticated (a : AuthenticatedContent) (hw : a.content.content.WF) (ha : a.auth.WF a.content.content.ty) (bs : Bytes)
    (h : a.enc = .ok bs) : unmarshal AuthenticatedContent.dec bs = .ok a := by
  have hrt : RT AuthenticatedContent.enc AuthenticatedContent.dec
      (fun a => a.content.content.WF ∧ a.auth.WF a.content.content.ty) := by
    rintro ⟨wf, c, au⟩ bs rest h ⟨hw, ha⟩
    unfold AuthenticatedContent.enc at h
    simp only [Enc.append_ok_iff] at h
    obtain ⟨_, y3, ⟨y1, y2, h1, h2, rfl⟩, h3, rfl⟩ := h
    have hwf : ∀ r, WireFormat.dec.run (y1 ++ r) = (.ok wf, r) := by
      intro r
      cases wf <;> cases h1 <;> rfl
    unfold AuthenticatedContent.dec
    rw [List.append_assoc, List.append_assoc, P.bind_eq (hwf _), P.bind_eq (framedContent_rt c y2 _ h2 hw),
      P.bind_eq (authData_rt _ _ _ _ h3 ha)]
    rfl
  exact unmarshal_rt hrt h ⟨hw, ha⟩

example : suiteString 3 = "MLS_128_DHKEMX25519_CHACHA20POLY1305_SHA256_Ed25519" ∧ suiteString 77 = "<77>" := by decide +kernel

example : (AuthenticatedContent.mk .publicMessage ⟨[7], 5, .member 1, [], .commit ⟨[.reference [5]], none⟩⟩ ⟨[1], [2]⟩).enc.holds
    (fun bs => decide (unmarshal AuthenticatedContent.dec bs = .ok ⟨.publicMessage, ⟨[7], 5, .member 1, [], .commit ⟨[.reference [5]], none⟩⟩, ⟨[1], [2]⟩⟩)) = true := by
  decide +kernel

end Mls
