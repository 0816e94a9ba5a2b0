import Verif.Model.Crypto
/-
Encryption that hides what it should, taken as ideal.
-/
namespace Mls.Spec

/-- Ideal encryption: what is sealed depends on the length of the plaintext and on the additional data, but neither on the
plaintext nor on key and nonce; HPKE may also depend on the public key and its randomness. -/
structure Hiding (pr : Prims) : Prop where
  aead_length : ∀ a k n p aad c, pr.aeadSeal a k n p aad = some c → c.length = p.length + 16
  aead : ∀ a k n p aad c k' n' p' c', pr.aeadSeal a k n p aad = some c → pr.aeadSeal a k' n' p' aad = some c' →
    p.length = p'.length → c = c'
  hpke : ∀ s pub info p rand c p' c', pr.hpkeSeal s pub info p rand = some c → pr.hpkeSeal s pub info p' rand = some c' →
    p.length = p'.length → c = c'
  expand_length : ∀ a k i n, n ≤ 255 * a.size → (pr.expand a k i n).length = n

end Mls.Spec
