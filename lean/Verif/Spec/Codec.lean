import Verif.Model.Types
/-
Side conditions of the serialisation properties.

`WF`: what every value of the API satisfies anyway (a value that the decoders can
return): protocol version 1 where the wire format demands it, no confirmation tag
outside commits, no membership tag for non-member senders.

`Signed`: every nested key package and group info has a non-empty signature field.
-/
namespace Mls

/-- A key package has protocol version MLS 1.0. -/
def KeyPackage.WF (k : KeyPackage) : Prop := k.version = 1

/-- Nested key packages are well formed. -/
def Proposal.WF : Proposal → Prop
  | .add k => k.WF
  | _ => True

/-- Nested key packages are well formed. -/
def ProposalOrRef.WF : ProposalOrRef → Prop
  | .proposal p => p.WF
  | .reference _ => True

/-- Nested key packages are well formed. -/
def Commit.WF (c : Commit) : Prop := ∀ p ∈ c.proposals, p.WF

/-- Nested key packages are well formed. -/
def Content.WF : Content → Prop
  | .application _ => True
  | .proposal p => p.WF
  | .commit c => c.WF

/-- Only commits carry a confirmation tag. -/
def AuthData.WF (a : AuthData) (ct : ContentType) : Prop := ct = .commit ∨ a.confirmationTag = []

/-- Only messages from members carry a membership tag. -/
def PublicMessage.WF (m : PublicMessage) : Prop :=
  m.content.content.WF ∧ m.auth.WF m.content.content.ty ∧
    ((∃ i, m.content.sender = .member i) ∨ m.membershipTag = [])

/-- Group contexts have protocol version MLS 1.0. -/
def GroupContext.WF (c : GroupContext) : Prop := c.version = 1

/-- The nested parts are well formed. -/
def MessageBody.WF : MessageBody → Prop
  | .publicMessage m => m.WF
  | .privateMessage _ => True
  | .welcome _ => True
  | .groupInfo i => i.groupContext.WF
  | .keyPackage k => k.WF

/-- Protocol version MLS 1.0 and well formed parts. -/
def MlsMessage.WF (m : MlsMessage) : Prop := m.version = 1 ∧ m.body.WF

/-- The signature field is not empty. -/
def KeyPackage.Signed (k : KeyPackage) : Prop := k.signature ≠ []

/-- Nested key packages are signed. -/
def Proposal.Signed : Proposal → Prop
  | .add k => k.Signed
  | _ => True

/-- Nested key packages are signed. -/
def ProposalOrRef.Signed : ProposalOrRef → Prop
  | .proposal p => p.Signed
  | .reference _ => True

/-- Nested key packages are signed. -/
def Commit.Signed (c : Commit) : Prop := ∀ p ∈ c.proposals, p.Signed

/-- Nested key packages are signed. -/
def Content.Signed : Content → Prop
  | .application _ => True
  | .proposal p => p.Signed
  | .commit c => c.Signed

/-- Nested key packages and group infos are signed. -/
def MessageBody.Signed : MessageBody → Prop
  | .publicMessage m => m.content.content.Signed
  | .privateMessage _ => True
  | .welcome _ => True
  | .groupInfo i => i.signature ≠ []
  | .keyPackage k => k.Signed

end Mls
