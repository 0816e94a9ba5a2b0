import Verif.Model.Tree
/-
The decoders of Model/Codec.lean once more, with the buffers they ask for counted.

Only one place in the decoding code asks for memory of a size that the input names:
`make([]byte, n)` in readOpaqueVec (mls.go:60), before it is known whether n bytes are
left. readVector slices the input (mls.go:83-87) and copies nothing. The slices that
hold the decoded elements grow with `append`, by a constant per element actually read,
and are not counted.

Each definition below is the text of the decoder of the same name in Model/Codec.lean
(the last: Model/Tree.lean) over the monad `Metered`; Proofs/Meter.lean proves that forgetting the count gives that
decoder back.
-/
namespace Mls

/-- What the calls of `make` in readOpaqueVec (mls.go:60) asked for so far: `kept`
bytes in buffers that were filled and returned, and the sizes of the buffers that were
`dropped` because the input was too short to fill them (mls.go:61-63). -/
structure Meter where
  kept : Nat
  dropped : List Nat

/-- The bytes asked for in all. -/
def Meter.total (m : Meter) : Nat := m.kept + m.dropped.sum

/-- Nothing asked for. -/
def Meter.zero : Meter := ⟨0, []⟩

/-- What was asked for first, then what was asked for next. -/
def Meter.add (a b : Meter) : Meter := ⟨a.kept + b.kept, a.dropped ++ b.dropped⟩

/-- A decoder together with the count of its buffers. -/
structure Metered (α : Type) where
  run : Bytes → (Res α × Bytes) × Meter

namespace Metered

/-- A decoder that asks for no memory. -/
def lift {α : Type} (p : P α) : Metered α := ⟨fun s => (p.run s, Meter.zero)⟩

/-- Value returned without reading. -/
def pure {α : Type} (a : α) : Metered α := ⟨fun s => ((.ok a, s), Meter.zero)⟩

/-- Sequencing with early return on error, as `P.bind`. -/
def bind {α β : Type} (p : Metered α) (f : α → Metered β) : Metered β := ⟨fun s =>
  match p.run s with
  | ((.ok a, s'), m) => (((f a).run s').1, m.add ((f a).run s').2)
  | ((.err, s'), m) => ((.err, s'), m)
  | ((.panic, s'), m) => ((.panic, s'), m)
  | ((.hang, s'), m) => ((.hang, s'), m)⟩

instance : Monad Metered where
  pure := Metered.pure
  bind := Metered.bind

instance : MonadLift P Metered where
  monadLift := Metered.lift

/-- `return someError`. -/
def fail {α : Type} : Metered α := lift P.fail

/-- `panic("unreachable")`. -/
def panic {α : Type} : Metered α := lift P.panic

/-- As `P.attempt`: the caller carries on after a failure. -/
def attempt {α : Type} (p : Metered α) : Metered (Option α) := ⟨fun s =>
  match p.run s with
  | ((.ok a, s'), m) => ((.ok (some a), s'), m)
  | ((.err, s'), m) => ((.ok none, s'), m)
  | ((.panic, s'), m) => ((.panic, s'), m)
  | ((.hang, s'), m) => ((.hang, s'), m)⟩

end Metered

/-- `make([]byte, n)` and `s.CopyBytes(b)` (mls.go:60-66): the buffer is there whether
or not the input fills it. -/
def makeN (n : Nat) : Metered Bytes := ⟨fun s =>
  if s.length < n then ((.err, s), ⟨0, [n]⟩) else ((.ok (s.take n), s.drop n), ⟨n, []⟩)⟩

/-- `readOpaqueVec` with its buffer counted (mls.go:54-67). -/
def readOpaqueVecM : Metered Bytes := do
  let n ← readVarint
  makeN n.toNat

/-- `readVectorLoop` with the buffers of the elements counted (mls.go:88-92). -/
def readVectorLoopM {α : Type} (f : Metered α) : Nat → Bytes → Res (List α) × Meter
  | _, [] => (.ok [], Meter.zero)
  | 0, _ :: _ => (.hang, Meter.zero)
  | fuel + 1, b :: bs =>
    match f.run (b :: bs) with
    | ((.ok a, ss'), m) =>
      let r := readVectorLoopM f fuel ss'
      (r.1.bind fun as => .ok (a :: as), m.add r.2)
    | ((.err, _), m) => (.err, m)
    | ((.panic, _), m) => (.panic, m)
    | ((.hang, _), m) => (.hang, m)

/-- `readVector` with the buffers of the elements counted (mls.go:78-94). -/
def readVectorM {α : Type} (f : Metered α) : Metered (List α) := do
  let n ← readVarint
  let vec ← readN n.toNat
  ⟨fun s =>
    let r := readVectorLoopM f vec.length vec
    ((r.1, s), r.2)⟩

/-- `Credential.dec` with its buffers counted (crypto.go:41-66). -/
def Credential.decM : Metered Credential := do
  let ty ← readU16
  if ty == 1 then
    let identity ← readOpaqueVecM
    return .basic identity
  else if ty == 2 then
    let certs ← readVectorM readOpaqueVecM
    return .x509 certs
  else Metered.fail

/-- `HpkeCiphertext.dec` with its buffers counted (crypto.go:87-93). -/
def HpkeCiphertext.decM : Metered HpkeCiphertext := do
  let kemOutput ← readOpaqueVecM
  let ciphertext ← readOpaqueVecM
  return { kemOutput, ciphertext }

/-- `ParentNode.dec` with its buffers counted (tree.go:18-31). -/
def ParentNode.decM : Metered ParentNode := do
  let encryptionKey ← readOpaqueVecM
  let parentHash ← readOpaqueVecM
  let unmergedLeaves ← readVector readU32
  return { encryptionKey, parentHash, unmergedLeaves }

/-- `Extension.dec` with its buffers counted (tree.go:245-252). -/
def Extension.decM : Metered Extension := do
  let ty ← readU16
  let data ← readOpaqueVecM
  return { ty, data }

/-- `decExtensions` with its buffers counted (tree.go:243-254). -/
def decExtensionsM : Metered (List Extension) := readVectorM Extension.decM

/-- `LeafNodeSource.decBody` with its buffers counted (tree.go:304-316). -/
def LeafNodeSource.decBodyM (t : UInt8) : Metered LeafNodeSource :=
  if t == 1 then do
    let lt ← Lifetime.dec
    return .keyPackage lt
  else if t == 3 then do
    let h ← readOpaqueVecM
    return .commit h
  else return .update

/-- `LeafNode.dec` with its buffers counted (tree.go:287-329). -/
def LeafNode.decM : Metered LeafNode := do
  let encryptionKey ← readOpaqueVecM
  let signatureKey ← readOpaqueVecM
  let credential ← Credential.decM
  let capabilities ← Capabilities.dec
  let t ← leafNodeSourceTag
  let source ← LeafNodeSource.decBodyM t
  let extensions ← decExtensionsM
  let signature ← readOpaqueVecM
  return { encryptionKey, signatureKey, credential, capabilities, source, extensions, signature }

/-- `UpdatePathNode.dec` with its buffers counted (tree.go:465-480). -/
def UpdatePathNode.decM : Metered UpdatePathNode := do
  let encryptionKey ← readOpaqueVecM
  let encryptedPathSecret ← readVectorM HpkeCiphertext.decM
  return { encryptionKey, encryptedPathSecret }

/-- `UpdatePath.dec` with its buffers counted (tree.go:520-535). -/
def UpdatePath.decM : Metered UpdatePath := do
  let leafNode ← LeafNode.decM
  let nodes ← readVectorM UpdatePathNode.decM
  return { leafNode, nodes }

/-- `Node.dec` with its buffers counted (tree.go:573-590). -/
def Node.decM : Metered Node := do
  let t ← nodeTypeTag
  if t == 1 then
    let n ← LeafNode.decM
    return .leaf n
  else if t == 2 then
    let n ← ParentNode.decM
    return .parent n
  else Metered.panic

/-- `decOptNode` with its buffers counted (tree.go:623-636). -/
def decOptNodeM : Metered (Option Node) := do
  let hasNode ← readOptional
  if hasNode then
    let n ← Node.decM
    return some n
  else return none

/-- `KeyPackage.dec` with its buffers counted (key_package.go:50-79). -/
def KeyPackage.decM : Metered KeyPackage := do
  let version ← readU16
  let cipherSuite ← readU16
  let initKey ← readOpaqueVecM
  if version != 1 then Metered.fail
  else
    let leafNode ← LeafNode.decM
    let extensions ← decExtensionsM
    let signature? ← Metered.attempt readOpaqueVecM
    return { version, cipherSuite, initKey, leafNode, extensions, signature := signature?.getD [] }

/-- `PreSharedKeyID.dec` with its buffers counted (key_schedule.go:236-264). -/
def PreSharedKeyID.decM : Metered PreSharedKeyID := do
  let t ← pskTypeTag
  let kind ← (if t == 1 then do
      let pskID ← readOpaqueVecM
      return PskKind.external pskID
    else if t == 2 then do
      let usage ← PskUsage.dec
      let groupID ← readOpaqueVecM
      let epoch ← readU64
      return PskKind.resumption usage groupID epoch
    else Metered.panic)
  let nonce ← readOpaqueVecM
  return { kind, nonce }

/-- `ReInit.dec` with its buffers counted (proposal.go:167-181). -/
def ReInit.decM : Metered ReInit := do
  let groupID ← readOpaqueVecM
  let version ← readU16
  let cipherSuite ← readU16
  let extensions ← decExtensionsM
  return { groupID, version, cipherSuite, extensions }

/-- `Proposal.dec` with its buffers counted (proposal.go:51-81; proposal.go:109-112, 122-125, 135-141). -/
def Proposal.decM : Metered Proposal := do
  let t ← proposalTypeTag
  if t == 1 then do let k ← KeyPackage.decM; return .add k
  else if t == 2 then do let n ← LeafNode.decM; return .update n
  else if t == 3 then do let r ← readU32; return .remove r
  else if t == 4 then do let id ← PreSharedKeyID.decM; return .psk id
  else if t == 5 then do let r ← ReInit.decM; return .reInit r
  else if t == 6 then do let k ← readOpaqueVecM; return .externalInit k
  else if t == 7 then do let e ← decExtensionsM; return .groupContextExtensions e
  else Metered.panic

/-- `ProposalOrRef.dec` with its buffers counted (proposal.go:261-280). -/
def ProposalOrRef.decM : Metered ProposalOrRef := do
  let t ← proposalOrRefTag
  if t == 1 then do let p ← Proposal.decM; return .proposal p
  else if t == 2 then do let r ← readOpaqueVecM; return .reference r
  else Metered.panic

/-- `Commit.dec` with its buffers counted (group.go:856-882). -/
def Commit.decM : Metered Commit := do
  let proposals ← readVectorM ProposalOrRef.decM
  let hasPath ← readOptional
  if hasPath then
    let path ← UpdatePath.decM
    return { proposals, path := some path }
  else return { proposals, path := none }

/-- `Content.dec` with its buffers counted (framing.go:164-178; framing.go:713-730). -/
def Content.decM (ct : ContentType) : Metered Content :=
  match ct with
  | .application => do let d ← readOpaqueVecM; return .application d
  | .proposal => do let p ← Proposal.decM; return .proposal p
  | .commit => do let c ← Commit.decM; return .commit c

/-- `FramedContent.dec` with its buffers counted (framing.go:148-179). -/
def FramedContent.decM : Metered FramedContent := do
  let groupID ← readOpaqueVecM
  let epoch ← readU64
  let sender ← Sender.dec
  let authenticatedData ← readOpaqueVecM
  let ct ← ContentType.dec
  let content ← Content.decM ct
  return { groupID, epoch, sender, authenticatedData, content }

/-- `AuthData.dec` with its buffers counted (framing.go:348-362). -/
def AuthData.decM (ct : ContentType) : Metered AuthData := do
  let signature ← readOpaqueVecM
  if ct = .commit then
    let confirmationTag ← readOpaqueVecM
    return { signature, confirmationTag }
  else return { signature, confirmationTag := [] }

/-- `PublicMessage.dec` with its buffers counted (framing.go:429-446). -/
def PublicMessage.decM : Metered PublicMessage := do
  let content ← FramedContent.decM
  let auth ← AuthData.decM content.content.ty
  match content.sender with
  | .member _ =>
    let membershipTag ← readOpaqueVecM
    return { content, auth, membershipTag }
  | _ => return { content, auth, membershipTag := [] }

/-- `PrivateMessage.dec` with its buffers counted (framing.go:533-550). -/
def PrivateMessage.decM : Metered PrivateMessage := do
  let groupID ← readOpaqueVecM
  let epoch ← readU64
  let contentType ← ContentType.dec
  let authenticatedData ← readOpaqueVecM
  let encryptedSenderData ← readOpaqueVecM
  let ciphertext ← readOpaqueVecM
  return { groupID, epoch, contentType, authenticatedData, encryptedSenderData, ciphertext }

/-- `PrivateMessageContent.dec` with its buffers counted (framing.go:710-733). -/
def PrivateMessageContent.decM (ct : ContentType) : Metered PrivateMessageContent := do
  let content ← Content.decM ct
  let auth ← AuthData.decM ct
  return { content, auth }

/-- `GroupContext.dec` with its buffers counted (key_schedule.go:20-44). -/
def GroupContext.decM : Metered GroupContext := do
  let version ← readU16
  let cipherSuite ← readU16
  let groupID ← readOpaqueVecM
  let epoch ← readU64
  let treeHash ← readOpaqueVecM
  let confirmedTranscriptHash ← readOpaqueVecM
  if version != 1 then Metered.fail
  else
    let extensions ← decExtensionsM
    return { version, cipherSuite, groupID, epoch, treeHash, confirmedTranscriptHash, extensions }

/-- `GroupInfo.dec` with its buffers counted (group.go:902-920). -/
def GroupInfo.decM : Metered GroupInfo := do
  let groupContext ← GroupContext.decM
  let extensions ← decExtensionsM
  match ← Metered.attempt readOpaqueVecM with
  | none => return { groupContext, extensions, confirmationTag := [], signer := 0, signature := [] }
  | some confirmationTag =>
    match ← Metered.attempt (Metered.lift readU32) with
    | none => return { groupContext, extensions, confirmationTag, signer := 0, signature := [] }
    | some signer =>
      match ← Metered.attempt readOpaqueVecM with
      | none => return { groupContext, extensions, confirmationTag, signer, signature := [] }
      | some signature => return { groupContext, extensions, confirmationTag, signer, signature }

/-- `GroupSecrets.dec` with its buffers counted (group.go:1009-1031). -/
def GroupSecrets.decM : Metered GroupSecrets := do
  let joinerSecret ← readOpaqueVecM
  let hasPathSecret ← readOptional
  let pathSecret ← (if hasPathSecret then do
      let s ← readOpaqueVecM
      return some s
    else return none)
  let psks ← readVectorM PreSharedKeyID.decM
  return { joinerSecret, pathSecret, psks }

/-- `EncryptedGroupSecrets.dec` with its buffers counted (group.go:1225-1234). -/
def EncryptedGroupSecrets.decM : Metered EncryptedGroupSecrets := do
  let newMember ← readOpaqueVecM
  let encryptedGroupSecrets ← HpkeCiphertext.decM
  return { newMember, encryptedGroupSecrets }

/-- `Welcome.dec` with its buffers counted (group.go:1112-1136). -/
def Welcome.decM : Metered Welcome := do
  let cipherSuite ← readU16
  let secrets ← readVectorM EncryptedGroupSecrets.decM
  let encryptedGroupInfo ← readOpaqueVecM
  return { cipherSuite, secrets, encryptedGroupInfo }

/-- `MlsMessage.dec` with its buffers counted (framing.go:209-242). -/
def MlsMessage.decM : Metered MlsMessage := do
  let version ← readU16
  if version != 1 then Metered.fail
  else
    let t ← wireFormatTag
    if t == 1 then do let m ← PublicMessage.decM; return { version, body := .publicMessage m }
    else if t == 2 then do let m ← PrivateMessage.decM; return { version, body := .privateMessage m }
    else if t == 3 then do let m ← Welcome.decM; return { version, body := .welcome m }
    else if t == 4 then do let m ← GroupInfo.decM; return { version, body := .groupInfo m }
    else if t == 5 then do let m ← KeyPackage.decM; return { version, body := .keyPackage m }
    else Metered.panic

/-- `decTree` with its buffers counted (tree.go:621-648). -/
def decTreeM : Metered VTree := do
  let t ← readVectorM decOptNodeM
  Metered.lift ⟨fun s => (padLoop (t.length + 1) t, s)⟩

end Mls
