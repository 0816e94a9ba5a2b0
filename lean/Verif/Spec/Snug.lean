import Verif.Spec.Ratchet
/-
Independent specification of ratchet trees that are no larger than needed (RFC 9420 section 7.7: the tree is truncated when the right half
has become blank; section 12.4.3.3: blanks at the end are left out when a tree is sent).
-/
namespace Mls.Spec.Ratchet

/-- The right half of the tree has a member; a tree of one leaf has a member. -/
def snug {P : Type} : {d : Nat} → Ratchet P d → Bool
  | _, leaf n => n.isSome
  | _, node _ _ r => r.occupied

end Mls.Spec.Ratchet
