import Verif.Model.Basic
/-
The byte strings used as labels, with the string each one stands for.
-/
namespace Mls

/-- "MLS 1.0 " (ciphersuite.go:168, 297, 306). -/
def lblPrefix : Bytes := [77, 76, 83, 32, 49, 46, 48, 32]

/-- "init" (key_schedule.go:122). -/
def lblInit : Bytes := [105, 110, 105, 116]

/-- "sender data" (key_schedule.go:123). -/
def lblSenderData : Bytes := [115, 101, 110, 100, 101, 114, 32, 100, 97, 116, 97]

/-- "encryption" (key_schedule.go:124). -/
def lblEncryption : Bytes := [101, 110, 99, 114, 121, 112, 116, 105, 111, 110]

/-- "exporter" (key_schedule.go:125). -/
def lblExporter : Bytes := [101, 120, 112, 111, 114, 116, 101, 114]

/-- "external" (key_schedule.go:126). -/
def lblExternal : Bytes := [101, 120, 116, 101, 114, 110, 97, 108]

/-- "confirm" (key_schedule.go:127). -/
def lblConfirm : Bytes := [99, 111, 110, 102, 105, 114, 109]

/-- "membership" (key_schedule.go:128). -/
def lblMembership : Bytes := [109, 101, 109, 98, 101, 114, 115, 104, 105, 112]

/-- "resumption" (key_schedule.go:129). -/
def lblResumption : Bytes := [114, 101, 115, 117, 109, 112, 116, 105, 111, 110]

/-- "authentication" (key_schedule.go:130). -/
def lblAuthentication : Bytes := [97, 117, 116, 104, 101, 110, 116, 105, 99, 97, 116, 105, 111, 110]

/-- "joiner" (key_schedule.go:66). -/
def lblJoiner : Bytes := [106, 111, 105, 110, 101, 114]

/-- "epoch" (key_schedule.go:83). -/
def lblEpoch : Bytes := [101, 112, 111, 99, 104]

/-- "welcome" (key_schedule.go:106). -/
def lblWelcomeSecret : Bytes := [119, 101, 108, 99, 111, 109, 101]

/-- "exported" (key_schedule.go:118). -/
def lblExported : Bytes := [101, 120, 112, 111, 114, 116, 101, 100]

/-- "derived psk" (key_schedule.go:303). -/
def lblDerivedPsk : Bytes := [100, 101, 114, 105, 118, 101, 100, 32, 112, 115, 107]

/-- "tree" (secret_tree.go:45, 49). -/
def lblTree : Bytes := [116, 114, 101, 101]

/-- "left" (secret_tree.go:45). -/
def lblLeft : Bytes := [108, 101, 102, 116]

/-- "right" (secret_tree.go:49). -/
def lblRight : Bytes := [114, 105, 103, 104, 116]

/-- "handshake" (secret_tree.go:10). -/
def lblHandshake : Bytes := [104, 97, 110, 100, 115, 104, 97, 107, 101]

/-- "application" (secret_tree.go:11). -/
def lblApplication : Bytes := [97, 112, 112, 108, 105, 99, 97, 116, 105, 111, 110]

/-- "nonce" (secret_tree.go:95, framing.go:877, group.go:972, 1194). -/
def lblNonce : Bytes := [110, 111, 110, 99, 101]

/-- "key" (secret_tree.go:101, framing.go:871, group.go:976, 1198). -/
def lblKey : Bytes := [107, 101, 121]

/-- "secret" (secret_tree.go:107). -/
def lblSecret : Bytes := [115, 101, 99, 114, 101, 116]

/-- "node" (tree.go:498). -/
def lblNode : Bytes := [110, 111, 100, 101]

/-- "path" (tree.go:1286, 1297, group.go:236). -/
def lblPath : Bytes := [112, 97, 116, 104]

/-- "LeafNodeTBS" (tree.go:377, 398). -/
def lblLeafNodeTBS : Bytes := [76, 101, 97, 102, 78, 111, 100, 101, 84, 66, 83]

/-- "KeyPackageTBS" (key_package.go:102, 119). -/
def lblKeyPackageTBS : Bytes := [75, 101, 121, 80, 97, 99, 107, 97, 103, 101, 84, 66, 83]

/-- "GroupInfoTBS" (group.go:933, 942). -/
def lblGroupInfoTBS : Bytes := [71, 114, 111, 117, 112, 73, 110, 102, 111, 84, 66, 83]

/-- "FramedContentTBS" (framing.go:384, 392). -/
def lblFramedContentTBS : Bytes := [70, 114, 97, 109, 101, 100, 67, 111, 110, 116, 101, 110, 116, 84, 66, 83]

/-- "UpdatePathNode" (tree.go:494). -/
def lblUpdatePathNode : Bytes := [85, 112, 100, 97, 116, 101, 80, 97, 116, 104, 78, 111, 100, 101]

/-- "Welcome" (group.go:1068, 1173). -/
def lblWelcome : Bytes := [87, 101, 108, 99, 111, 109, 101]

/-- "MLS 1.0 KeyPackage Reference" (key_package.go:151). -/
def lblKeyPackageRef : Bytes := [77, 76, 83, 32, 49, 46, 48, 32, 75, 101, 121, 80, 97, 99, 107, 97, 103, 101, 32, 82, 101, 102, 101, 114, 101, 110, 99, 101]

/-- "MLS 1.0 Proposal Reference" (framing.go:335). -/
def lblProposalRef : Bytes := [77, 76, 83, 32, 49, 46, 48, 32, 80, 114, 111, 112, 111, 115, 97, 108, 32, 82, 101, 102, 101, 114, 101, 110, 99, 101]

/-- Every label with the string it stands for. -/
def labelTable : List (Bytes × List Char) := [
  (lblPrefix, "MLS 1.0 ".toList),
  (lblInit, "init".toList),
  (lblSenderData, "sender data".toList),
  (lblEncryption, "encryption".toList),
  (lblExporter, "exporter".toList),
  (lblExternal, "external".toList),
  (lblConfirm, "confirm".toList),
  (lblMembership, "membership".toList),
  (lblResumption, "resumption".toList),
  (lblAuthentication, "authentication".toList),
  (lblJoiner, "joiner".toList),
  (lblEpoch, "epoch".toList),
  (lblWelcomeSecret, "welcome".toList),
  (lblExported, "exported".toList),
  (lblDerivedPsk, "derived psk".toList),
  (lblTree, "tree".toList),
  (lblLeft, "left".toList),
  (lblRight, "right".toList),
  (lblHandshake, "handshake".toList),
  (lblApplication, "application".toList),
  (lblNonce, "nonce".toList),
  (lblKey, "key".toList),
  (lblSecret, "secret".toList),
  (lblNode, "node".toList),
  (lblPath, "path".toList),
  (lblLeafNodeTBS, "LeafNodeTBS".toList),
  (lblKeyPackageTBS, "KeyPackageTBS".toList),
  (lblGroupInfoTBS, "GroupInfoTBS".toList),
  (lblFramedContentTBS, "FramedContentTBS".toList),
  (lblUpdatePathNode, "UpdatePathNode".toList),
  (lblWelcome, "Welcome".toList),
  (lblKeyPackageRef, "MLS 1.0 KeyPackage Reference".toList),
  (lblProposalRef, "MLS 1.0 Proposal Reference".toList)]

/-- The byte lists above are the ASCII codes of the strings. -/
theorem labelTable_ok : ∀ e ∈ labelTable, e.1 = e.2.map fun c => UInt8.ofNat c.toNat := by
  decide

end Mls
