import Verif.Model.Crypto
/-
Model of the functions of key_schedule.go (its types and encoders are in Types and Codec).
-/
namespace Mls

variable (pr : Prims)

/-- groupContext.extractJoinerSecret (key_schedule.go:56-67). -/
def GroupContext.extractJoinerSecret (ctx : GroupContext) (prevInitSecret commitSecret : Bytes) :
    Res Bytes := do
  let d ← suite ctx.cipherSuite
  let extracted := pr.extract d.kdf commitSecret prevInitSecret
  let rawGroupContext ← (ctx.enc : Res Bytes)
  expandWithLabel pr ctx.cipherSuite extracted lblJoiner rawGroupContext d.nh

/-- groupContext.extractEpochSecret (key_schedule.go:69-84); a nil PSK secret is `none`. -/
def GroupContext.extractEpochSecret (ctx : GroupContext) (joinerSecret : Bytes)
    (pskSecret : Option Bytes) : Res Bytes := do
  let d ← suite ctx.cipherSuite
  let pskSecret := pskSecret.getD (List.replicate d.kdf.size 0)
  let extracted := pr.extract d.kdf pskSecret joinerSecret
  let rawGroupContext ← (ctx.enc : Res Bytes)
  expandWithLabel pr ctx.cipherSuite extracted lblEpoch rawGroupContext d.nh

/-- groupContext.signConfirmationTag (key_schedule.go:86-96). -/
def GroupContext.signConfirmationTag (ctx : GroupContext) (epochSecret : Bytes) : Res Bytes := do
  let confirmationKey ← deriveSecret pr ctx.cipherSuite epochSecret lblConfirm
  signMAC pr ctx.cipherSuite confirmationKey ctx.confirmedTranscriptHash

/-- extractWelcomeSecret (key_schedule.go:98-107). -/
def extractWelcomeSecret (cs : UInt16) (joinerSecret : Bytes) (pskSecret : Option Bytes) :
    Res Bytes := do
  let d ← suite cs
  let pskSecret := pskSecret.getD (List.replicate d.kdf.size 0)
  let extracted := pr.extract d.kdf pskSecret joinerSecret
  deriveSecret pr cs extracted lblWelcomeSecret

/-- deriveExporter (key_schedule.go:109-119). -/
def deriveExporter (cs : UInt16) (exporterSecret label context : Bytes) (length : UInt16) :
    Res Bytes := do
  let derived ← deriveSecret pr cs exporterSecret label
  let d ← suite cs
  expandWithLabel pr cs derived lblExported (pr.hash d.hash context) length

/-- confirmedTranscriptHashInput.hash (key_schedule.go:149-159). -/
def confirmedTranscriptHash (cs : UInt16) (wf : WireFormat) (c : FramedContent)
    (signature interimTranscriptHashBefore : Bytes) : Res Bytes := do
  let rawInput ← (encConfirmedTranscriptHashInput wf c signature : Res Bytes)
  let d ← suite cs
  return pr.hash d.hash (interimTranscriptHashBefore ++ rawInput)

/-- nextInterimTranscriptHash (key_schedule.go:161-173). -/
def nextInterimTranscriptHash (cs : UInt16) (confirmedTranscriptHash confirmationTag : Bytes) :
    Res Bytes := do
  let rawInput ← (writeOpaqueVec confirmationTag : Res Bytes)
  let d ← suite cs
  return pr.hash d.hash (confirmedTranscriptHash ++ rawInput)

/-- The loop of extractPSKSecret (key_schedule.go:290-309) from position `i`; `count` is
`uint16(len(pskIDs))`. -/
def extractPSKSecretLoop (cs : UInt16) (d : SuiteDesc) (count : UInt16) (zero : Bytes) :
    Nat → List PreSharedKeyID → List Bytes → Bytes → Res Bytes
  | _, [], _, pskSecret => .ok pskSecret
  | _, _ :: _, [], _ => .panic
  | i, id :: ids, psk :: psks, pskSecret => do
    let pskExtracted := pr.extract d.kdf psk zero
    let rawPSKLabel ← (encPskLabel id (UInt16.ofNat i) count : Res Bytes)
    let pskInput ← expandWithLabel pr cs pskExtracted lblDerivedPsk rawPSKLabel d.nh
    extractPSKSecretLoop cs d count zero (i + 1) ids psks (pr.extract d.kdf pskSecret pskInput)

/-- extractPSKSecret (key_schedule.go:281-312). -/
def extractPSKSecret (cs : UInt16) (pskIDs : List PreSharedKeyID) (psks : List Bytes) :
    Res Bytes := do
  if pskIDs.length ≠ psks.length then .err
  else
    let d ← suite cs
    let zero : Bytes := List.replicate d.kdf.size 0
    extractPSKSecretLoop pr cs d (UInt16.ofNat pskIDs.length) zero 0 pskIDs psks zero

end Mls
