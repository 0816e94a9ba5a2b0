import Verif.Model.Group
/-
Who signed what: the calls of the library that use a private signature key, and signatures that cannot be forged.
-/
namespace Mls

/-- The same primitives, but for a signer that does not sign the message `m` with the private key `key`. -/
def Prims.refusing (pr : Prims) (s : SigScheme) (key m : Bytes) : Prims :=
  { pr with sign := fun s' k m' rand => if s' = s ∧ k = key ∧ m' = m then none else pr.sign s' k m' rand }

namespace Spec

/-- A call of GenerateKeyPairPackage, CreateApplicationMessage or CreateWelcome. -/
inductive Call where
  | package (cs : UInt16) (cred : Credential) (r : KeyPackageRand)
  | message (st : GroupState) (data rand : Bytes) (guard : Bytes4)
  | invite (st : GroupState) (kps : List KeyPackage) (r : WelcomeRand)

/-- The call returns without an error. -/
def Call.Returns (pr : Prims) : Call → Prop
  | .package cs cred r => ∃ kp, generateKeyPairPackage pr cs cred r = .ok kp
  | .message st data rand guard => ∃ raw, createApplicationMessage pr st data rand guard = .ok raw
  | .invite st kps r => ∃ o, (createWelcome pr st kps r).1 = .ok o

/-- The call has `m` signed with the private key `key`: it returns, and would not if that signature could not be made. -/
def Call.Signs (pr : Prims) (s : SigScheme) (key m : Bytes) (c : Call) : Prop :=
  c.Returns pr ∧ ¬ c.Returns (pr.refusing s key m)

/-- The public key `pub` belongs to someone who uses the private key `key` for nothing but the given calls of the library, and nobody can
forge their signatures: whatever verifies is something that they signed in one of these calls. -/
def Unforgeable (pr : Prims) (calls : Call → Prop) (s : SigScheme) (key pub : Bytes) : Prop :=
  ∀ m sig, pr.verify s pub m sig = some true → ∃ c, calls c ∧ c.Signs pr s key m

end Spec
end Mls
