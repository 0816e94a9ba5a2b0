import Verif.Proofs.Res
import Verif.Proofs.Unamb
import Verif.Model.Group
/-
C32 - C34: the checks on the proposal list of a commit.
-/
namespace Mls
namespace Spec

/-- The signature key of the member an add brings in. -/
def addKey : Proposal × UInt32 → Option Bytes
  | (.add k, _) => some k.leafNode.signatureKey
  | _ => none

/-- The leaf an update or remove is about: the sender's own, or the one removed. -/
def target : Proposal × UInt32 → Option UInt32
  | (.update _, sender) => some sender
  | (.remove li, _) => some li
  | _ => none

def pskID : Proposal × UInt32 → Option PreSharedKeyID
  | (.psk id, _) => some id
  | _ => none

def isGce : Proposal × UInt32 → Bool
  | (.groupContextExtensions _, _) => true
  | _ => false

def isReInit : Proposal × UInt32 → Bool
  | (.reInit _, _) => true
  | _ => false

def isExternalInit : Proposal × UInt32 → Bool
  | (.externalInit _, _) => true
  | _ => false

/-- The rules of RFC 9420 section 12.2 named in the comment of verifyProposalList, for proposals
paired with their senders. -/
structure ProposalListOk (l : List (Proposal × UInt32)) (committer : UInt32) : Prop where
  adds : (l.filterMap addKey).Nodup
  committer : committer ∉ l.filterMap target
  targets : (l.filterMap target).Nodup
  psks : (l.filterMap pskID).Nodup
  gce : l.countP isGce ≤ 1
  reInit : (∃ x ∈ l, isReInit x = true) → l.length = 1
  externalInit : ∀ x ∈ l, isExternalInit x = false

end Spec

/-- Every PSK id of the list can be encoded (always so for decoded proposals). -/
def PsksEncodable (l : List (Proposal × UInt32)) : Prop :=
  ∀ id ∈ l.filterMap Spec.pskID, ∃ b, id.enc = .ok b

theorem pskEnc_inj {a b : PreSharedKeyID} {x : Bytes} (h : a.enc = .ok x) (h' : b.enc = .ok x) : a = b :=
  uPskID.inj h h'

theorem pskID_enc_fine (id : PreSharedKeyID) : Res.Fine id.enc := by
  unfold PreSharedKeyID.enc
  cases id.kind with
  | external => 
    refine enc_append_fine ?_ (writeOpaqueVec_fine _)
    exact enc_append_fine (Res.fine_ok _) (writeOpaqueVec_fine _)
  | resumption =>
    refine enc_append_fine ?_ (writeOpaqueVec_fine _)
    exact enc_append_fine (enc_append_fine (enc_append_fine (Res.fine_ok _) (by rename_i u _ _; cases u <;> exact Res.fine_ok _)) (writeOpaqueVec_fine _)) (Res.fine_ok _)

theorem verifyProposalStep_fine (n : Nat) (c : UInt32) (s : ProposalListState) (p : Proposal) (x : UInt32) :
    Res.Fine (verifyProposalStep n c s p x) := by
  unfold verifyProposalStep
  cases p <;> simp only
  case psk id =>
    refine (pskID_enc_fine id).bind fun b _ => ?_
    split
    · exact Res.fine_err
    · exact Res.fine_ok _
  case externalInit => exact Res.fine_err
  case update =>
    split
    · exact Res.fine_err
    · split
      · exact Res.fine_err
      · exact Res.fine_ok _
  case remove =>
    split
    · exact Res.fine_err
    · split
      · exact Res.fine_err
      · exact Res.fine_ok _
  all_goals
    split
    · exact Res.fine_err
    · exact Res.fine_ok _

/-- What the loop still has to find, given what it has already met. -/
structure LoopOk (n : Nat) (c : UInt32) (s : ProposalListState) (l : List (Proposal × UInt32)) : Prop where
  adds : (l.filterMap Spec.addKey).Nodup
  adds' : ∀ k ∈ l.filterMap Spec.addKey, k ∉ s.add
  committer : c ∉ l.filterMap Spec.target
  targets : (l.filterMap Spec.target).Nodup
  targets' : ∀ k ∈ l.filterMap Spec.target, k ∉ s.updateOrRemove
  psks : (l.filterMap Spec.pskID).Nodup
  psks' : ∀ k ∈ l.filterMap Spec.pskID, ∃ b, k.enc = .ok b ∧ b ∉ s.psk
  gce : l.countP Spec.isGce + (if s.groupContextExtensions then 1 else 0) ≤ 1
  reInit : (∃ x ∈ l, Spec.isReInit x = true) → n ≤ 1
  externalInit : ∀ x ∈ l, Spec.isExternalInit x = false

theorem verifyProposalLoop_iff (n : Nat) (c : UInt32) :
    ∀ (ps : List Proposal) (ss : List UInt32) (s : ProposalListState), ps.length = ss.length →
      (verifyProposalLoop n c s ps ss = .ok () ↔ LoopOk n c s (ps.zip ss)) := by
  intro ps
  induction ps with
  | nil =>
    intro ss s hl
    cases ss with
    | nil =>
      simp only [verifyProposalLoop, List.zip_nil_left, true_iff]
      exact ⟨by simp, by simp, by simp, by simp, by simp, by simp, by simp, by simp; split <;> omega, by simp, by simp⟩
    | cons => cases hl
  | cons p ps ih =>
    intro ss s hl
    cases ss with
    | nil => cases hl
    | cons x ss =>
      have hl' : ps.length = ss.length := by simpa using hl
      rw [verifyProposalLoop, List.zip_cons_cons]
      generalize hz : ps.zip ss = l
      have ih' := fun s => ih ss s hl'
      rw [hz] at ih'
      cases p with
      | add k =>
        simp only [verifyProposalStep]
        by_cases hc : s.add.contains k.leafNode.signatureKey
        · rw [if_pos hc]
          simp only [Res.err_bind, reduceCtorEq, false_iff]
          intro h
          exact h.adds' k.leafNode.signatureKey (by simp [Spec.addKey]) (by simpa using hc)
        · rw [if_neg hc, Res.ok_bind, ih']
          simp only [List.contains_iff_mem] at hc
          constructor
          · intro h
            refine ⟨?_, ?_, h.committer, h.targets, h.targets', h.psks, h.psks', h.gce, ?_, ?_⟩
            · simp only [List.filterMap_cons, Spec.addKey, List.nodup_cons]
              exact ⟨fun hm => h.adds' _ hm (by simp), h.adds⟩
            · intro k' hk'
              simp only [List.filterMap_cons, Spec.addKey, List.mem_cons] at hk'
              rcases hk' with rfl | hk'
              · exact hc
              · exact fun hm => h.adds' _ hk' (by simp [hm])
            · rintro ⟨y, hy, hy'⟩
              rcases List.mem_cons.1 hy with rfl | hy
              · cases hy'
              · exact h.reInit ⟨y, hy, hy'⟩
            · intro y hy
              rcases List.mem_cons.1 hy with rfl | hy
              · rfl
              · exact h.externalInit y hy
          · intro h
            have h1 := h.adds
            simp only [List.filterMap_cons, Spec.addKey, List.nodup_cons] at h1
            refine ⟨h1.2, ?_, h.committer, h.targets, h.targets', h.psks, h.psks', h.gce, ?_, ?_⟩
            · intro k' hk' hm
              rcases List.mem_cons.1 hm with rfl | hm
              · exact h1.1 hk'
              · exact h.adds' k' (by simp [Spec.addKey, hk']) hm
            · rintro ⟨y, hy, hy'⟩
              exact h.reInit ⟨y, by simp [hy], hy'⟩
            · intro y hy
              exact h.externalInit y (by simp [hy])
      | update u =>
        simp only [verifyProposalStep]
        by_cases hx : x = c
        · rw [if_pos hx]
          simp only [Res.err_bind, reduceCtorEq, false_iff]
          intro h
          exact h.committer (by simp [Spec.target, hx])
        rw [if_neg hx]
        by_cases hc : s.updateOrRemove.contains x
        · rw [if_pos hc]
          simp only [Res.err_bind, reduceCtorEq, false_iff]
          intro h
          exact h.targets' x (by simp [Spec.target]) (by simpa using hc)
        · rw [if_neg hc, Res.ok_bind, ih']
          simp only [List.contains_iff_mem] at hc
          constructor
          · intro h
            refine ⟨h.adds, h.adds', ?_, ?_, ?_, h.psks, h.psks', h.gce, ?_, ?_⟩
            · simp only [List.filterMap_cons, Spec.target, List.mem_cons, not_or]
              exact ⟨fun e => hx e.symm, h.committer⟩
            · simp only [List.filterMap_cons, Spec.target, List.nodup_cons]
              exact ⟨fun hm => h.targets' _ hm (by simp), h.targets⟩
            · intro k' hk'
              simp only [List.filterMap_cons, Spec.target, List.mem_cons] at hk'
              rcases hk' with rfl | hk'
              · exact hc
              · exact fun hm => h.targets' _ hk' (by simp [hm])
            · rintro ⟨y, hy, hy'⟩
              rcases List.mem_cons.1 hy with rfl | hy
              · cases hy'
              · exact h.reInit ⟨y, hy, hy'⟩
            · intro y hy
              rcases List.mem_cons.1 hy with rfl | hy
              · rfl
              · exact h.externalInit y hy
          · intro h
            have h1 := h.targets
            have h2 := h.committer
            simp only [List.filterMap_cons, Spec.target, List.nodup_cons, List.mem_cons, not_or] at h1 h2
            refine ⟨h.adds, h.adds', h2.2, h1.2, ?_, h.psks, h.psks', h.gce, ?_, ?_⟩
            · intro k' hk' hm
              rcases List.mem_cons.1 hm with rfl | hm
              · exact h1.1 hk'
              · exact h.targets' k' (by simp [Spec.target, hk']) hm
            · rintro ⟨y, hy, hy'⟩
              exact h.reInit ⟨y, by simp [hy], hy'⟩
            · intro y hy
              exact h.externalInit y (by simp [hy])
      | remove x =>
        simp only [verifyProposalStep]
        by_cases hx : x = c
        · rw [if_pos hx]
          simp only [Res.err_bind, reduceCtorEq, false_iff]
          intro h
          exact h.committer (by simp [Spec.target, hx])
        rw [if_neg hx]
        by_cases hc : s.updateOrRemove.contains x
        · rw [if_pos hc]
          simp only [Res.err_bind, reduceCtorEq, false_iff]
          intro h
          exact h.targets' x (by simp [Spec.target]) (by simpa using hc)
        · rw [if_neg hc, Res.ok_bind, ih']
          simp only [List.contains_iff_mem] at hc
          constructor
          · intro h
            refine ⟨h.adds, h.adds', ?_, ?_, ?_, h.psks, h.psks', h.gce, ?_, ?_⟩
            · simp only [List.filterMap_cons, Spec.target, List.mem_cons, not_or]
              exact ⟨fun e => hx e.symm, h.committer⟩
            · simp only [List.filterMap_cons, Spec.target, List.nodup_cons]
              exact ⟨fun hm => h.targets' _ hm (by simp), h.targets⟩
            · intro k' hk'
              simp only [List.filterMap_cons, Spec.target, List.mem_cons] at hk'
              rcases hk' with rfl | hk'
              · exact hc
              · exact fun hm => h.targets' _ hk' (by simp [hm])
            · rintro ⟨y, hy, hy'⟩
              rcases List.mem_cons.1 hy with rfl | hy
              · cases hy'
              · exact h.reInit ⟨y, hy, hy'⟩
            · intro y hy
              rcases List.mem_cons.1 hy with rfl | hy
              · rfl
              · exact h.externalInit y hy
          · intro h
            have h1 := h.targets
            have h2 := h.committer
            simp only [List.filterMap_cons, Spec.target, List.nodup_cons, List.mem_cons, not_or] at h1 h2
            refine ⟨h.adds, h.adds', h2.2, h1.2, ?_, h.psks, h.psks', h.gce, ?_, ?_⟩
            · intro k' hk' hm
              rcases List.mem_cons.1 hm with rfl | hm
              · exact h1.1 hk'
              · exact h.targets' k' (by simp [Spec.target, hk']) hm
            · rintro ⟨y, hy, hy'⟩
              exact h.reInit ⟨y, by simp [hy], hy'⟩
            · intro y hy
              exact h.externalInit y (by simp [hy])
      | psk id =>
        simp only [verifyProposalStep]
        rcases Res.fine_iff.1 (pskID_enc_fine id) with he | ⟨b, he⟩
        · rw [he]
          simp only [Res.err_bind, reduceCtorEq, false_iff]
          intro h
          obtain ⟨b, hb, _⟩ := h.psks' id (by simp [Spec.pskID])
          rw [he] at hb; cases hb
        · rw [he]
          simp only [Res.ok_bind]
          by_cases hc : s.psk.contains b
          · rw [if_pos hc]
            simp only [Res.err_bind, reduceCtorEq, false_iff]
            intro h
            obtain ⟨b', hb, hb'⟩ := h.psks' id (by simp [Spec.pskID])
            rw [he] at hb; cases hb
            exact hb' (by simpa using hc)
          · rw [if_neg hc, Res.ok_bind, ih']
            simp only [List.contains_iff_mem] at hc
            constructor
            · intro h
              refine ⟨h.adds, h.adds', h.committer, h.targets, h.targets', ?_, ?_, h.gce, ?_, ?_⟩
              · simp only [List.filterMap_cons, Spec.pskID, List.nodup_cons]
                refine ⟨fun hm => ?_, h.psks⟩
                obtain ⟨b', hb, hb'⟩ := h.psks' _ hm
                rw [he] at hb; cases hb
                exact hb' (by simp)
              · intro k' hk'
                simp only [List.filterMap_cons, Spec.pskID, List.mem_cons] at hk'
                rcases hk' with rfl | hk'
                · exact ⟨b, he, hc⟩
                · obtain ⟨b', hb, hb'⟩ := h.psks' _ hk'
                  exact ⟨b', hb, fun hm => hb' (by simp [hm])⟩
              · rintro ⟨y, hy, hy'⟩
                rcases List.mem_cons.1 hy with rfl | hy
                · cases hy'
                · exact h.reInit ⟨y, hy, hy'⟩
              · intro y hy
                rcases List.mem_cons.1 hy with rfl | hy
                · rfl
                · exact h.externalInit y hy
            · intro h
              have h1 := h.psks
              simp only [List.filterMap_cons, Spec.pskID, List.nodup_cons] at h1
              refine ⟨h.adds, h.adds', h.committer, h.targets, h.targets', h1.2, ?_, h.gce, ?_, ?_⟩
              · intro k' hk'
                obtain ⟨b', hb, hb'⟩ := h.psks' k' (by simp [Spec.pskID, hk'])
                refine ⟨b', hb, fun hm => ?_⟩
                rcases List.mem_cons.1 hm with rfl | hm
                · exact h1.1 (pskEnc_inj he hb ▸ hk')
                · exact hb' hm
              · rintro ⟨y, hy, hy'⟩
                exact h.reInit ⟨y, by simp [hy], hy'⟩
              · intro y hy
                exact h.externalInit y (by simp [hy])
      | groupContextExtensions e =>
        simp only [verifyProposalStep]
        by_cases hc : s.groupContextExtensions = true
        · rw [if_pos hc]
          simp only [Res.err_bind, reduceCtorEq, false_iff]
          intro h
          have := h.gce
          rw [if_pos hc] at this
          simp [Spec.isGce] at this
        · rw [if_neg hc, Res.ok_bind, ih']
          have hc' : s.groupContextExtensions = false := by simpa using hc
          constructor
          · intro h
            refine ⟨h.adds, h.adds', h.committer, h.targets, h.targets', h.psks, h.psks', ?_, ?_, ?_⟩
            · have := h.gce
              rw [List.countP_cons] at *
              simp only [hc', Spec.isGce, if_true, Bool.false_eq_true, if_false] at this ⊢
              omega
            · rintro ⟨y, hy, hy'⟩
              rcases List.mem_cons.1 hy with rfl | hy
              · cases hy'
              · exact h.reInit ⟨y, hy, hy'⟩
            · intro y hy
              rcases List.mem_cons.1 hy with rfl | hy
              · rfl
              · exact h.externalInit y hy
          · intro h
            refine ⟨h.adds, h.adds', h.committer, h.targets, h.targets', h.psks, h.psks', ?_, ?_, ?_⟩
            · have := h.gce
              rw [List.countP_cons] at *
              simp only [hc', Spec.isGce, if_true, Bool.false_eq_true, if_false] at this ⊢
              omega
            · rintro ⟨y, hy, hy'⟩
              exact h.reInit ⟨y, by simp [hy], hy'⟩
            · intro y hy
              exact h.externalInit y (by simp [hy])
      | reInit r =>
        simp only [verifyProposalStep]
        by_cases hc : n > 1
        · rw [if_pos hc]
          simp only [Res.err_bind, reduceCtorEq, false_iff]
          intro h
          have := h.reInit ⟨_, by simp; left; rfl, rfl⟩
          omega
        · rw [if_neg hc, Res.ok_bind, ih']
          constructor
          · intro h
            refine ⟨h.adds, h.adds', h.committer, h.targets, h.targets', h.psks, h.psks', h.gce, ?_, ?_⟩
            · intro _; omega
            · intro y hy
              rcases List.mem_cons.1 hy with rfl | hy
              · rfl
              · exact h.externalInit y hy
          · intro h
            refine ⟨h.adds, h.adds', h.committer, h.targets, h.targets', h.psks, h.psks', h.gce, ?_, ?_⟩
            · intro _; omega
            · intro y hy
              exact h.externalInit y (by simp [hy])
      | externalInit e =>
        simp only [verifyProposalStep, Res.err_bind, reduceCtorEq, false_iff]
        intro h
        have := h.externalInit _ (List.mem_cons_self)
        cases this

/-- C32: for as many senders as proposals, the check accepts exactly the lists that follow the
rules. -/
theorem C32_rules (ps : List Proposal) (ss : List UInt32) (committer : UInt32) (hl : ps.length = ss.length)
    (he : PsksEncodable (ps.zip ss)) :
    verifyProposalList ps ss committer = .ok () ↔ Spec.ProposalListOk (ps.zip ss) committer := by
  unfold verifyProposalList
  rw [if_neg (by omega), verifyProposalLoop_iff _ _ _ _ _ hl]
  have hz : (ps.zip ss).length = ps.length := by simp; omega
  constructor
  · intro h
    refine ⟨h.adds, h.committer, h.targets, h.psks, by simpa using h.gce, fun hr => ?_, h.externalInit⟩
    have h1 := h.reInit hr
    obtain ⟨x, hx, _⟩ := hr
    have := List.length_pos_of_mem hx
    omega
  · intro h
    refine ⟨h.adds, by simp, h.committer, h.targets, by simp, h.psks, ?_, by simpa using h.gce, fun hr => ?_,
      h.externalInit⟩
    · intro k hk
      obtain ⟨b, hb⟩ := he k hk
      exact ⟨b, hb, by simp⟩
    · have := h.reInit hr
      omega

/-- C32: the check never panics, and a list it does not accept is refused with an error. -/
theorem C32_total (ps : List Proposal) (ss : List UInt32) (committer : UInt32) (hl : ps.length = ss.length) :
    verifyProposalList ps ss committer = .ok () ∨ verifyProposalList ps ss committer = .err := by
  unfold verifyProposalList
  rw [if_neg (by omega)]
  have key : ∀ (ps : List Proposal) (ss : List UInt32) (n : Nat) (s : ProposalListState), ps.length = ss.length →
      Res.Fine (verifyProposalLoop n committer s ps ss) := by
    intro ps
    induction ps with
    | nil => intro ss n s _; exact Res.fine_ok _
    | cons p ps ih =>
      intro ss n s hl
      cases ss with
      | nil => cases hl
      | cons x ss =>
        rw [verifyProposalLoop]
        exact (verifyProposalStep_fine _ _ _ _ _).bind fun s' _ => ih ss n s' (by simpa using hl)
  rcases Res.fine_iff.1 (key ps ss ps.length ⟨[], [], [], false⟩ hl) with h | ⟨x, h⟩
  · exact .inr h
  · exact .inl h

/-- C32: the verdict does not depend on the order of the proposals. -/
theorem C32_order (l l' : List (Proposal × UInt32)) (committer : UInt32) (hp : l.Perm l')
    (he : PsksEncodable l) :
    verifyProposalList (l.map Prod.fst) (l.map Prod.snd) committer =
      verifyProposalList (l'.map Prod.fst) (l'.map Prod.snd) committer := by
  have hz : ∀ l : List (Proposal × UInt32), (l.map Prod.fst).zip (l.map Prod.snd) = l := by
    intro l; induction l with
    | nil => rfl
    | cons x l ih => simp [ih]
  have he' : PsksEncodable l' := fun id hid => he id ((hp.filterMap _).mem_iff.2 hid)
  have h1 := C32_rules (l.map Prod.fst) (l.map Prod.snd) committer (by simp) (by rw [hz]; exact he)
  have h2 := C32_rules (l'.map Prod.fst) (l'.map Prod.snd) committer (by simp) (by rw [hz]; exact he')
  rw [hz] at h1 h2
  have hiff : Spec.ProposalListOk l committer ↔ Spec.ProposalListOk l' committer := by
    have side : ∀ {l l' : List (Proposal × UInt32)}, l.Perm l' → Spec.ProposalListOk l committer →
        Spec.ProposalListOk l' committer := by
      intro l l' hp h
      exact ⟨(hp.filterMap _).nodup_iff.1 h.adds, fun hm => h.committer ((hp.filterMap _).mem_iff.2 hm),
        (hp.filterMap _).nodup_iff.1 h.targets, (hp.filterMap _).nodup_iff.1 h.psks,
        by rw [← hp.countP_eq]; exact h.gce,
        fun ⟨x, hx, hx'⟩ => by rw [← hp.length_eq]; exact h.reInit ⟨x, hp.mem_iff.2 hx, hx'⟩,
        fun x hx => h.externalInit x (hp.mem_iff.2 hx)⟩
    exact ⟨side hp, side hp.symm⟩
  rcases C32_total (l.map Prod.fst) (l.map Prod.snd) committer (by simp) with a | a <;>
  rcases C32_total (l'.map Prod.fst) (l'.map Prod.snd) committer (by simp) with b | b
  · rw [a, b]
  · rw [h2.2 (hiff.1 (h1.1 a))] at b; cases b
  · rw [h1.2 (hiff.2 (h2.1 b))] at a; cases a
  · rw [a, b]

/-- Two removes and an update by leaf 5, committed by leaf 0. -/
example : verifyProposalList [.remove 1, .update default, .remove 2] [0, 5, 0] 0 = .ok () := by decide
example : verifyProposalList [.remove 1, .update default, .remove 2] [0, 2, 0] 0 = .err := by decide

/-! ### C33 -/

/-- The types that need no path (RFC 9420 section 17.4). -/
def Spec.pathless : Proposal → Prop
  | .add _ => True
  | .psk _ => True
  | .reInit _ => True
  | _ => False

theorem needsPath_false_iff (p : Proposal) : p.needsPath = false ↔ Spec.pathless p := by
  cases p <;> simp [Proposal.needsPath, Spec.pathless]

theorem proposalListNeedsPath_iff (ps : List Proposal) :
    proposalListNeedsPath ps = false ↔ ps ≠ [] ∧ ∀ p ∈ ps, Spec.pathless p := by
  unfold proposalListNeedsPath
  cases ps with
  | nil => simp
  | cons p ps =>
    rw [if_neg (by simp)]
    rw [List.any_eq_false]
    simp only [ne_eq, reduceCtorEq, not_false_eq_true, true_and, Bool.not_eq_true, needsPath_false_iff]

/-- C33: a path is demanded exactly when the resolved proposals are none, or not all add, PSK or
re-init. -/
theorem C33_needs_path (ps : List Proposal) :
    proposalListNeedsPath ps = false ↔ ps ≠ [] ∧ ∀ p ∈ ps, Spec.pathless p := proposalListNeedsPath_iff ps

/-- C33: a commit accepted without a path has resolved to a non-empty list of add, PSK and re-init
proposals. -/
theorem C33_commit (pr : Prims) (st st' : GroupState) (a : AuthenticatedContent) (c : Commit)
    (ids : List PreSharedKeyID) (psks : List Bytes) (now : GoTime) (hc : a.content.content = .commit c)
    (hp : c.path = none) (h : processCommit pr st a ids psks now = (.ok (), st')) :
    ∃ ps ss, resolveProposals a.content.sender.leafIndex st.group.pendingProposals c.proposals = .ok (ps, ss) ∧
      ps ≠ [] ∧ ∀ p ∈ ps, Spec.pathless p := by
  unfold processCommit at h
  rw [hc] at h
  simp only at h
  split at h <;> try (simp at h; done)
  next ps ss hk =>
  unfold checkProposals at hk
  simp only [Res.bind_ok_iff] at hk
  obtain ⟨⟨ps', ss'⟩, h1, _, _, _, _, _, h4, h5⟩ := hk
  rw [hp, Res.guardErr_ok_iff] at h4
  simp only [Res.pure_eq, Res.ok.injEq, Prod.mk.injEq] at h5
  refine ⟨ps', ss', h1, ?_⟩
  rw [← proposalListNeedsPath_iff]
  simpa using h4

/-! ### C34 -/

/-- The position of the tree a leaf index addresses. -/
def Spec.position (li : UInt32) : Nat := nodeOfLeaf li.toNat

/-- C34 is false: the check compares leaf indices, but the position of a leaf index of 2^31 or more
wraps around. Here leaf 0 is removed twice over, by the committer of leaf 0. -/
theorem C34_refuted :
    ∃ (ps : List Proposal) (ss : List UInt32) (committer : UInt32),
      verifyProposalList ps ss committer = .ok () ∧
      (∃ li, Proposal.remove li ∈ ps ∧ Spec.position li = Spec.position committer) ∧
      ¬ ((ps.zip ss).filterMap Spec.target |>.map Spec.position).Nodup := by
  refine ⟨[.remove 2147483648, .remove 1, .remove 2147483649], [0, 0, 0], 0, by decide, ?_, by decide⟩
  exact ⟨2147483648, by decide, by decide⟩

/-- C34 for the indices below 2^31: positions are pairwise distinct and none is the committer's.
Missing: indices of 2^31 or more (see C34_refuted). -/
theorem C34_partial (ps : List Proposal) (ss : List UInt32) (committer : UInt32) (hl : ps.length = ss.length)
    (h : verifyProposalList ps ss committer = .ok ()) (hc : committer.toNat < 2 ^ 31)
    (hb : ∀ li ∈ (ps.zip ss).filterMap Spec.target, li.toNat < 2 ^ 31) :
    (((ps.zip ss).filterMap Spec.target).map Spec.position).Nodup ∧
      Spec.position committer ∉ ((ps.zip ss).filterMap Spec.target).map Spec.position := by
  unfold verifyProposalList at h
  rw [if_neg (by omega), verifyProposalLoop_iff _ _ _ _ _ hl] at h
  have hpos : ∀ li : UInt32, li.toNat < 2 ^ 31 → Spec.position li = 2 * li.toNat := by
    intro li hli
    exact Nat.mod_eq_of_lt (by omega)
  have hinj : ∀ a b : UInt32, a.toNat < 2 ^ 31 → b.toNat < 2 ^ 31 → Spec.position a = Spec.position b → a = b := by
    intro a b ha hb hab
    rw [hpos a ha, hpos b hb] at hab
    exact UInt32.toNat_inj.1 (by omega)
  constructor
  · rw [List.Nodup, List.pairwise_map]
    have := h.targets
    rw [List.Nodup] at this
    refine this.imp_of_mem ?_
    intro a b ha hb' hne he
    exact hne (hinj a b (hb a ha) (hb b hb') he)
  · rw [List.mem_map]
    rintro ⟨li, hli, he⟩
    have := hinj li committer (hb li hli) hc he
    exact h.committer (this ▸ hli)

example : verifyProposalList [.remove 1, .update default] [0, 5] 0 = .ok () ∧
    ∀ li ∈ ([Proposal.remove 1, .update default].zip [(0 : UInt32), 5]).filterMap Spec.target, li.toNat < 2 ^ 31 := by
  decide

end Mls
