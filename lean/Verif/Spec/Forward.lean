import Verif.Spec.Authorship
import Verif.Spec.Nonces
/-
What the network can make of the messages it carries.
-/
namespace Mls

/-- The same primitives, but for an AEAD that does not seal the plaintext `p` with the additional data `ad` under the key `k` and the nonce `n`. -/
def Prims.unsealing (pr : Prims) (a : Aead) (k n p ad : Bytes) : Prims :=
  { pr with aeadSeal := fun a' k' n' p' ad' => if a' = a ∧ k' = k ∧ n' = n ∧ p' = p ∧ ad' = ad then none else pr.aeadSeal a' k' n' p' ad' }

namespace Spec

/-- The call seals the plaintext `p`: it returns, and would not if that could not be sealed. -/
def Call.Seals (pr : Prims) (a : Aead) (k n p ad : Bytes) (c : Call) : Prop :=
  c.Returns pr ∧ ¬ c.Returns (pr.unsealing a k n p ad)

/-- The ciphertext `ct` opens, and none of these calls sealed anything to it. -/
def Forged (pr : Prims) (calls : Call → Prop) (a : Aead) (k n ct ad : Bytes) : Prop :=
  ∃ p, pr.aeadOpen a k n ct ad = some p ∧ ¬ ∃ c, calls c ∧ c.Seals pr a k n p ad ∧ pr.aeadSeal a k n p ad = some ct

/-- The call returns `raw` as the message for the members of the group. -/
def Call.Sends (pr : Prims) (raw : Bytes) : Call → Prop
  | .package .. => False
  | .message st data rand guard => createApplicationMessage pr st data rand guard = .ok raw
  | .invite st kps r => ∃ w, (createWelcome pr st kps r).1 = .ok (w, raw)

end Spec
end Mls
