import Verif.Proofs.Schedule
import Verif.Model.Framing
import Verif.Proofs.Rfc
/-
Signatures with labels, evaluated to the RFC's strings.
-/
namespace Mls

/-- RFC 9420 section 5.1.2: struct SignContent; `none` when the content is too long for a vector. -/
def Spec.signContent (label : String) (content : Bytes) : Option Bytes :=
  if content.length < 2 ^ 30 then some (vec (ascii ("MLS 1.0 " ++ label)) ++ vec content) else none

theorem writeOpaqueVec_long {b : Bytes} (h : ¬ b.length < 2 ^ 30) : writeOpaqueVec b = .err := by
  rw [writeOpaqueVec_eq_spec]
  unfold Spec.opaqueVec Spec.varint
  rw [if_neg (by omega), if_neg (by omega), if_neg (by omega)]
  rfl

theorem encSignContent_eq {label : Bytes} {name : String}
    (hl : lblPrefix ++ label = Spec.ascii ("MLS 1.0 " ++ name)) (hs : (lblPrefix ++ label).length < 2 ^ 30)
    (content : Bytes) : encSignContent label content = orErr (Spec.signContent name content) := by
  unfold encSignContent Spec.signContent
  rw [writeOpaqueVec_vec hs, hl]
  by_cases hc : content.length < 2 ^ 30
  · rw [if_pos hc, writeOpaqueVec_vec hc]; rfl
  · rw [if_neg hc, writeOpaqueVec_long hc]; rfl

theorem lblKeyPackageTBS_name : lblPrefix ++ lblKeyPackageTBS = Spec.ascii ("MLS 1.0 " ++ "KeyPackageTBS") := by decide
theorem lblLeafNodeTBS_name : lblPrefix ++ lblLeafNodeTBS = Spec.ascii ("MLS 1.0 " ++ "LeafNodeTBS") := by decide
theorem lblGroupInfoTBS_name : lblPrefix ++ lblGroupInfoTBS = Spec.ascii ("MLS 1.0 " ++ "GroupInfoTBS") := by decide
theorem lblFramedContentTBS_name :
    lblPrefix ++ lblFramedContentTBS = Spec.ascii ("MLS 1.0 " ++ "FramedContentTBS") := by decide

/-- `sig` is a signature of `key` on `content` under `label`, in cipher suite `cs`. -/
def Spec.ValidSig (pr : Prims) (cs : UInt16) (key : Bytes) (label : String) (content sig : Bytes) : Prop :=
  ∃ d m, (cs.toNat, d) ∈ Spec.suites ∧ Spec.signContent label content = some m ∧
    pr.verify d.sig key m sig = some true

theorem orFalse_ok_true {α : Type} {x : Res α} {f : α → Res Bool} :
    orFalse x f = .ok true ↔ ∃ a, x = .ok a ∧ f a = .ok true := by
  cases x <;> simp [orFalse]

theorem suite_iff_spec (cs : UInt16) (d : SuiteDesc) : suite cs = .ok d ↔ (cs.toNat, d) ∈ Spec.suites := by
  rw [suite_ok_iff]
  have h : ∀ k : UInt16, (cs == k) = true ↔ cs.toNat = k.toNat := by
    intro k; rw [beq_iff_eq, UInt16.toNat_inj]
  unfold cipherSuiteDescriptions Spec.suites
  simp only [h, List.mem_cons, Prod.mk.injEq, List.not_mem_nil, or_false]
  generalize cs.toNat = n
  by_cases h1 : n = 1
  · subst h1; simp [eq_comm]
  by_cases h2 : n = 2
  · subst h2; simp [eq_comm]
  by_cases h3 : n = 3
  · subst h3; simp [eq_comm]
  by_cases h4 : n = 4
  · subst h4; simp [eq_comm]
  by_cases h5 : n = 5
  · subst h5; simp [eq_comm]
  by_cases h6 : n = 6
  · subst h6; simp [eq_comm]
  by_cases h7 : n = 7
  · subst h7; simp [eq_comm]
  simp [h1, h2, h3, h4, h5, h6, h7]

theorem sigVerify_iff {pr : Prims} {s : SigScheme} {k m sig : Bytes} :
    sigVerify pr s k m sig = .ok true ↔ pr.verify s k m sig = some true := by
  unfold sigVerify
  split
  · exact Res.deref_ok_iff
  · simp [pure]

theorem verifyWithLabel_iff {pr : Prims} {cs : UInt16} {label : Bytes} {name : String}
    (hl : lblPrefix ++ label = Spec.ascii ("MLS 1.0 " ++ name)) (hs : (lblPrefix ++ label).length < 2 ^ 30)
    (key content sig : Bytes) :
    verifyWithLabel pr cs key label content sig = .ok true ↔ Spec.ValidSig pr cs key name content sig := by
  unfold verifyWithLabel Spec.ValidSig
  rw [encSignContent_eq hl hs]
  simp only [← suite_iff_spec]
  cases h : Spec.signContent name content with
  | none => simp [orErr]
  | some m =>
    simp only [orErr, Option.some.injEq]
    rcases hd : suite cs with d | _ | _ | _ <;> simp [Bind.bind, Res.bind, sigVerify_iff]

theorem leaf_verifySignature_iff {pr : Prims} {cs : UInt16} {n : LeafNode} {g : Bytes} {li : UInt32} :
    n.verifySignature pr cs g li = .ok true ↔
      ∃ tbs, (Spec.Rfc.leafNodeTBS n g li.toNat).bytes = some tbs ∧ Spec.ValidSig pr cs n.signatureKey "LeafNodeTBS" tbs n.signature := by
  unfold LeafNode.verifySignature
  rw [orFalse_ok_true]
  simp only [verifyWithLabel_iff lblLeafNodeTBS_name (by decide), leafTBS_some]

theorem keyPackage_verifySignature_iff {pr : Prims} {k : KeyPackage} :
    k.verifySignature pr = .ok true ↔
      ∃ tbs, (Spec.Rfc.keyPackageTBS k).bytes = some tbs ∧
        Spec.ValidSig pr k.cipherSuite k.leafNode.signatureKey "KeyPackageTBS" tbs k.signature := by
  unfold KeyPackage.verifySignature
  rw [orFalse_ok_true]
  simp only [verifyWithLabel_iff lblKeyPackageTBS_name (by decide), packageTBS_some]

theorem content_verifySignature_iff {pr : Prims} {a : AuthenticatedContent} {key : Bytes} {ctx : GroupContext} :
    a.verifySignature pr key ctx = .ok true ↔
      ∃ tbs, (Spec.Rfc.framedContentTBS a.wireFormat a.content ctx).bytes = some tbs ∧
        Spec.ValidSig pr ctx.cipherSuite key "FramedContentTBS" tbs a.auth.signature := by
  unfold AuthenticatedContent.verifySignature
  rw [orFalse_ok_true]
  simp only [verifyWithLabel_iff lblFramedContentTBS_name (by decide), contentTBS_some]

/-- What is signed with a generated key verifies under it. -/
theorem signWithLabel_valid {pr : Prims} (hc : pr.Correct) {cs : UInt16} {d : SuiteDesc} (hd : suite cs = .ok d)
    {label : Bytes} {name : String} (hl : lblPrefix ++ label = Spec.ascii ("MLS 1.0 " ++ name))
    (hs : (lblPrefix ++ label).length < 2 ^ 30) {r content rand sig : Bytes}
    (h : signWithLabel pr cs (pr.sigKeyPair d.sig r).2 label content rand = .ok sig) :
    Spec.ValidSig pr cs (pr.sigKeyPair d.sig r).1 name content sig := by
  unfold signWithLabel at h
  rw [encSignContent_eq hl hs] at h
  simp only [Res.bind_ok_iff, orErr_ok_iff, hd, Res.ok.injEq] at h
  obtain ⟨m, hm, _, rfl, h⟩ := h
  exact ⟨d, m, (suite_iff_spec _ _).1 hd, hm, hc.sign_verify _ _ _ _ _ h⟩

end Mls
