import Verif.Model.Codec
/-
The rest of the exported functions, and a decoder that only the tests of the library use.
-/
namespace Mls

/-- CipherSuite.String (ciphersuite.go:38-56). -/
def suiteString (cs : UInt16) : String :=
  if cs = 1 then "MLS_128_DHKEMX25519_AES128GCM_SHA256_Ed25519"
  else if cs = 2 then "MLS_128_DHKEMP256_AES128GCM_SHA256_P256"
  else if cs = 3 then "MLS_128_DHKEMX25519_CHACHA20POLY1305_SHA256_Ed25519"
  else if cs = 4 then "MLS_256_DHKEMX448_AES256GCM_SHA512_Ed448"
  else if cs = 5 then "MLS_256_DHKEMP521_AES256GCM_SHA512_P521"
  else if cs = 6 then "MLS_256_DHKEMX448_CHACHA20POLY1305_SHA512_Ed448"
  else if cs = 7 then "MLS_256_DHKEMP384_AES256GCM_SHA384_P384"
  else "<" ++ toString cs.toNat ++ ">"

/-- NewBasicCredential (crypto.go:34-39). -/
def newBasicCredential (identity : Bytes) : Credential := .basic identity

/-- wireFormat.unmarshal (framing.go:112-122) as a value of the enumeration. -/
def WireFormat.dec : P WireFormat := do
  let t ← wireFormatTag
  if t == 1 then return .publicMessage
  else if t == 2 then return .privateMessage
  else if t == 3 then return .welcome
  else if t == 4 then return .groupInfo
  else return .keyPackage

/-- authenticatedContent.unmarshal (framing.go:283-294). -/
def AuthenticatedContent.dec : P AuthenticatedContent := do
  let wireFormat ← WireFormat.dec
  let content ← FramedContent.dec
  let auth ← AuthData.dec content.content.ty
  return { wireFormat, content, auth }

end Mls
