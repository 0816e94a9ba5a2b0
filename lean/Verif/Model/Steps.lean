import Verif.Model.Group
/-
How often processPrivateMessage steps a ratchet (the loop with "TODO: limit number of
iterations", group.go:364-371).
-/
namespace Mls

variable (pr : Prims)

/-- The number of calls of deriveNext in the loop (group.go:364-369), where `fastForward` is
its result. -/
def fastForwardSteps (cs : UInt16) (target : UInt32) : Nat → RatchetSecret → Nat
  | 0, _ => 0
  | fuel + 1, s =>
    if s.generation = target then 0
    else
      match s.deriveNext pr cs with
      | .ok s' => 1 + fastForwardSteps cs target fuel s'
      | _ => 1

/-- processPrivateMessage up to the loop (group.go:326-362): the sender data and the root of
the ratchet they name. -/
def ratchetStart (st : GroupState) (m : PrivateMessage) : Res (SenderData × RatchetSecret) := do
  let ctx := st.group.groupContext
  let cs := ctx.cipherSuite
  Res.guardErr (m.groupID == ctx.groupID)
  Res.guardErr (m.epoch == ctx.epoch)
  let senderDataSecret ← deriveSecret pr cs st.group.epochSecret lblSenderData
  let sd ← m.decryptSenderData pr cs senderDataSecret
  let encryptionSecret ← deriveSecret pr cs st.group.epochSecret lblEncryption
  let secretTree ← deriveSecretTree pr cs (treeNumLeaves st.group.tree) encryptionSecret
  let secret ← deriveRatchetRoot pr cs secretTree (nodeOfLeaf sd.leafIndex.toNat) (ratchetLabel m.contentType)
  return (sd, secret)

/-- The number of steps that processPrivateMessage takes on `m` (group.go:364-369). -/
def privateMessageSteps (st : GroupState) (m : PrivateMessage) : Nat :=
  match ratchetStart pr st m with
  | .ok (sd, secret) =>
    fastForwardSteps pr st.group.groupContext.cipherSuite sd.generation (2 ^ 32) secret
  | _ => 0

/-- The number of steps that UnmarshalAndProcessMessage takes on `raw` (group.go:256-271):
only private messages lead to the loop. -/
def messageSteps (st : GroupState) (raw : Bytes) : Nat :=
  match unmarshal MlsMessage.dec raw with
  | .ok ⟨_, .privateMessage m⟩ => privateMessageSteps pr st m
  | _ => 0

end Mls
