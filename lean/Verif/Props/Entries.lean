import Verif.Props.KeyPackages
import Verif.Props.Joinable
/-
C96: the entries of a welcome for other key packages.
-/
namespace Mls

variable {pr : Prims}

/-- The entries of a welcome that carry the reference. -/
def Spec.entriesFor (w : Welcome) (ref : Bytes) : List EncryptedGroupSecrets := w.secrets.filter fun s => s.newMember = ref

theorem findSecret_entries (w : Welcome) (ref : Bytes) : w.findSecret ref = (Spec.entriesFor w ref).head? := by
  unfold Welcome.findSecret Spec.entriesFor
  rw [List.head?_filter]
  congr 1
  funext s
  by_cases h : s.newMember = ref <;> simp [h]

/-- **C96.** Joining depends on the cipher suite, the encrypted group info and the first entry with the joiner's own reference:
two welcomes with the same of these have the same outcome, be it a group, an error or a panic. -/
theorem C96_entries (w w' : Welcome) (kp : KeyPairPackage) (now : GoTime) (hcs : w.cipherSuite = w'.cipherSuite)
    (hegi : w.encryptedGroupInfo = w'.encryptedGroupInfo)
    (h : ∀ ref, kp.pub.generateRef pr = .ok ref → (Spec.entriesFor w ref).head? = (Spec.entriesFor w' ref).head?) :
    groupFromWelcome pr w kp now = groupFromWelcome pr w' kp now := by
  unfold groupFromWelcome
  have hs : ∀ gs, groupFromSecrets pr w kp gs none [] now = groupFromSecrets pr w' kp gs none [] now := by
    intro gs
    unfold groupFromSecrets Welcome.decryptGroupInfo
    rw [hcs, hegi]
  cases hr : kp.pub.generateRef pr with
  | ok ref =>
    simp only [Res.ok_bind]
    have hd : w.decryptGroupSecrets pr ref kp.priv.initKey = w'.decryptGroupSecrets pr ref kp.priv.initKey := by
      unfold Welcome.decryptGroupSecrets
      rw [findSecret_entries, findSecret_entries, h ref hr, hcs, hegi]
    rw [hd]
    simp only [hs]
  | err => rfl
  | panic => rfl
  | hang => rfl

/-- **C96**: a welcome cut down to the joiner's own entries serves the joiner as well. -/
theorem C96_alone (w : Welcome) (kp : KeyPairPackage) (now : GoTime) (ref : Bytes) (hr : kp.pub.generateRef pr = .ok ref) :
    groupFromWelcome pr { w with secrets := Spec.entriesFor w ref } kp now = groupFromWelcome pr w kp now := by
  refine C96_entries _ _ kp now rfl rfl fun ref' h => ?_
  rw [hr] at h
  cases h
  simp [Spec.entriesFor]

/-- **C96**: entries with other references can be added, anywhere. -/
theorem C96_others (w : Welcome) (l l' : List EncryptedGroupSecrets) (kp : KeyPairPackage) (now : GoTime) (ref : Bytes)
    (hr : kp.pub.generateRef pr = .ok ref) (hl : ∀ s ∈ l, s.newMember ≠ ref) :
    groupFromWelcome pr { w with secrets := l ++ w.secrets ++ l' } kp now =
      groupFromWelcome pr (if ref ∈ w.newMembers then w else { w with secrets := l' }) kp now := by
  have hl0 : l.filter (fun s => decide (s.newMember = ref)) = [] := by
    rw [List.filter_eq_nil_iff]
    intro s hs
    simpa using hl s hs
  split
  · next hm =>
    refine C96_entries _ _ kp now rfl rfl fun ref' h => ?_
    rw [hr] at h
    cases h
    simp only [Spec.entriesFor, List.filter_append, hl0, List.nil_append]
    obtain ⟨s, hs, hn⟩ := List.mem_map.1 hm
    have : s ∈ w.secrets.filter (fun s => decide (s.newMember = ref)) := by
      rw [List.mem_filter]; exact ⟨hs, by simpa using hn⟩
    cases hf : w.secrets.filter (fun s => decide (s.newMember = ref)) with
    | nil => rw [hf] at this; cases this
    | cons a as => rfl
  · next hm =>
    refine C96_entries _ _ kp now rfl rfl fun ref' h => ?_
    rw [hr] at h
    cases h
    simp only [Spec.entriesFor, List.filter_append, hl0, List.nil_append]
    have : w.secrets.filter (fun s => decide (s.newMember = ref)) = [] := by
      rw [List.filter_eq_nil_iff]
      intro s hs
      have : s.newMember ≠ ref := fun h => hm (List.mem_map.2 ⟨s, hs, h⟩)
      simpa using this
    rw [this, List.nil_append]

/-- **C96**: the order of the entries makes no difference, if no reference is listed twice. -/
theorem C96_order (w w' : Welcome) (kp : KeyPairPackage) (now : GoTime) (hcs : w.cipherSuite = w'.cipherSuite)
    (hegi : w.encryptedGroupInfo = w'.encryptedGroupInfo) (hp : w.secrets.Perm w'.secrets) (hd : w.newMembers.Nodup) :
    groupFromWelcome pr w kp now = groupFromWelcome pr w' kp now := by
  refine C96_entries w w' kp now hcs hegi fun ref _ => ?_
  have hpf : (Spec.entriesFor w ref).Perm (Spec.entriesFor w' ref) := hp.filter _
  have hle : ∀ l : List EncryptedGroupSecrets, (l.map EncryptedGroupSecrets.newMember).Nodup →
      (l.filter fun s => decide (s.newMember = ref)).length ≤ 1 := by
    intro l hl
    induction l with
    | nil => simp
    | cons a l ih =>
      rw [List.map_cons, List.nodup_cons] at hl
      rw [List.filter_cons]
      split
      · next ha =>
        have : l.filter (fun s => decide (s.newMember = ref)) = [] := by
          rw [List.filter_eq_nil_iff]
          intro s hs hsr
          refine hl.1 ?_
          have h1 : a.newMember = ref := by simpa using ha
          have h2 : s.newMember = ref := by simpa using hsr
          rw [h1, ← h2]
          exact List.mem_map.2 ⟨s, hs, rfl⟩
        rw [this]
        simp
      · exact ih hl.2
  have h1 := hle w.secrets hd
  change (Spec.entriesFor w ref).length ≤ 1 at h1
  have h2 := hpf.length_eq
  cases ha : Spec.entriesFor w ref with
  | nil =>
    rw [ha] at hpf
    rw [List.nil_perm.1 hpf]
  | cons a as =>
    rw [ha] at h1 hpf
    have : as = [] := by
      cases as with
      | nil => rfl
      | cons b bs => simp at h1
    subst this
    rw [List.singleton_perm.1 hpf]

/-- **C96**: the first entry decides. If it cannot be opened, joining fails, whatever follows: whoever passes on a welcome can
keep one invited from joining, and not the others. -/
theorem C96_first (w : Welcome) (s : EncryptedGroupSecrets) (kp : KeyPairPackage) (now : GoTime)
    (hr : kp.pub.generateRef pr = .ok s.newMember)
    (ho : decryptWithLabel pr w.cipherSuite kp.priv.initKey lblWelcome w.encryptedGroupInfo s.encryptedGroupSecrets = .err) :
    groupFromWelcome pr { w with secrets := s :: w.secrets } kp now = .err := by
  unfold groupFromWelcome Welcome.decryptGroupSecrets
  rw [hr]
  simp only [Res.ok_bind, findSecret_entries, Spec.entriesFor, List.filter_cons, decide_true, if_true, List.head?_cons, orErr, ho, Res.err_bind]

/-- Two are invited at once. Both join with the whole welcome, with only their own entry, and with the entries the other way round; with a
broken entry put before its own the first cannot join, and the second still can. -/
example : (do
    let a ← toyCreated
    let (_, w) ← a.invite [1, 2]
    let r1 ← (toyMember 1).pub.generateRef toyPrims
    let r2 ← (toyMember 2).pub.generateRef toyPrims
    let join (w : Welcome) (i : UInt8) := groupFromWelcome toyPrims w (toyMember i) toyLater
    return decide (r1 ≠ r2) && decide (w.newMembers = [r1, r2]) && decide (w.newMembers.Nodup) &&
      (join w 1).holds (fun b => decide (b.group.myLeafIndex = 1)) && (join w 2).holds (fun c => decide (c.group.myLeafIndex = 2)) &&
      decide ((Spec.entriesFor w r1).length = 1) &&
      decide (join { w with secrets := Spec.entriesFor w r1 } 1 = join w 1) &&
      decide (join { w with secrets := w.secrets.reverse } 2 = join w 2) &&
      decide (join { w with secrets := ⟨r1, ⟨[], []⟩⟩ :: w.secrets } 1 = .err) &&
      decide (join { w with secrets := ⟨r1, ⟨[], []⟩⟩ :: w.secrets } 2 = join w 2) : Res Bool) = .ok true := by
  decide +kernel

end Mls
