import Lean.Data.Json
import Verif.Model.Group
import Verif.Conformance.Prims
/-
Runs the model on the test vectors in testdata/, function by function as the tests of the repository (`*_test.go`) do with
the Go code. This tests the transcription, it proves nothing; no theorem depends on this file.
-/
namespace Mls.Conformance

open Lean (Json)

abbrev Check := Except String

abbrev rp : Prims := realPrims

def hexDigit (c : Char) : Option UInt8 :=
  if '0' ≤ c ∧ c ≤ '9' then some (UInt8.ofNat (c.toNat - '0'.toNat))
  else if 'a' ≤ c ∧ c ≤ 'f' then some (UInt8.ofNat (c.toNat - 'a'.toNat + 10))
  else none

def unhex : List Char → Option Bytes
  | [] => some []
  | a :: b :: r => do
    let x ← hexDigit a
    let y ← hexDigit b
    let rest ← unhex r
    return (x * 16 + y) :: rest
  | _ => none

def bytes? (j : Json) : Check Bytes := do
  let s ← j.getStr?
  match unhex s.toList with
  | some b => pure b
  | none => throw "hex"

def fld (j : Json) (k : String) : Check Json := j.getObjVal? k
def bytesAt (j : Json) (k : String) : Check Bytes := do bytes? (← fld j k)
def natAt (j : Json) (k : String) : Check Nat := do (← fld j k).getNat?
def strAt (j : Json) (k : String) : Check Bytes := do return str (← (← fld j k).getStr?)
def arrAt (j : Json) (k : String) : Check (List Json) := do return (← (← fld j k).getArr?).toList
def suiteAt (j : Json) : Check UInt16 := do return UInt16.ofNat (← natAt j "cipher_suite")

def get {α : Type} (what : String) : Res α → Check α
  | .ok a => pure a
  | .err => throw s!"{what}: error"
  | .panic => throw s!"{what}: panic"
  | .hang => throw s!"{what}: hang"

def same {α : Type} [DecidableEq α] (what : String) (x y : α) : Check Unit :=
  if x = y then pure () else throw s!"{what}: wrong"

def yes (what : String) (x : Res Bool) : Check Unit := do same what (← get what x) true

/-- mls_test.go -/
def deserialization (j : Json) : Check Unit := do
  let b ← bytesAt j "vlbytes_header"
  match readVarint.run b with
  | (.ok n, rest) => same "length" n.toNat (← natAt j "length"); same "rest" rest []
  | _ => throw "readVarint"

/-- ciphersuite_test.go -/
def cryptoBasics (j : Json) : Check Unit := do
  let cs ← suiteAt j
  let t ← fld j "ref_hash"
  same "refHash" (← get "refHash" (refHash rp cs (← strAt t "label") (← bytesAt t "value"))) (← bytesAt t "out")
  let t ← fld j "expand_with_label"
  same "expandWithLabel" (← get "expandWithLabel" (expandWithLabel rp cs (← bytesAt t "secret") (← strAt t "label") (← bytesAt t "context")
    (UInt16.ofNat (← natAt t "length")))) (← bytesAt t "out")
  let t ← fld j "derive_secret"
  same "deriveSecret" (← get "deriveSecret" (deriveSecret rp cs (← bytesAt t "secret") (← strAt t "label"))) (← bytesAt t "out")
  let t ← fld j "derive_tree_secret"
  same "deriveTreeSecret" (← get "deriveTreeSecret" (deriveTreeSecret rp cs (← bytesAt t "secret") (← strAt t "label")
    (UInt32.ofNat (← natAt t "generation")) (UInt16.ofNat (← natAt t "length")))) (← bytesAt t "out")
  let t ← fld j "sign_with_label"
  let priv ← bytesAt t "priv"
  let pub ← bytesAt t "pub"
  let label ← strAt t "label"
  let content ← bytesAt t "content"
  yes "verifyWithLabel" (verifyWithLabel rp cs pub label content (← bytesAt t "signature"))
  let sig ← get "signWithLabel" (signWithLabel rp cs priv label content [1])
  yes "verifyWithLabel (own)" (verifyWithLabel rp cs pub label content sig)
  let t ← fld j "encrypt_with_label"
  let priv ← bytesAt t "priv"
  let pub ← bytesAt t "pub"
  let label ← strAt t "label"
  let ctx ← bytesAt t "context"
  let plain ← bytesAt t "plaintext"
  let p ← get "decryptWithLabel" (decryptWithLabel rp cs priv label ctx ⟨← bytesAt t "kem_output", ← bytesAt t "ciphertext"⟩)
  same "decryptWithLabel" p plain
  let c ← get "encryptWithLabel" (encryptWithLabel rp cs pub label ctx plain [1])
  same "decryptWithLabel (own)" (← get "decryptWithLabel (own)" (decryptWithLabel rp cs priv label ctx c)) plain

/-- framing_test.go: decode, and encode to the same bytes. -/
def roundTrip {α : Type} (what : String) (dec : P α) (enc : α → Enc) (raw : Bytes) : Check Unit := do
  let a ← get what (unmarshal dec raw)
  same what (← get what (enc a)) raw

def messages (j : Json) : Check Unit := do
  for k in ["mls_welcome", "mls_group_info", "mls_key_package", "public_message_application", "public_message_proposal",
      "public_message_commit", "private_message"] do
    roundTrip k MlsMessage.dec MlsMessage.enc (← bytesAt j k)
  roundTrip "ratchet_tree" decTree encTree (← bytesAt j "ratchet_tree")
  roundTrip "group_secrets" GroupSecrets.dec GroupSecrets.enc (← bytesAt j "group_secrets")
  roundTrip "commit" Commit.dec Commit.enc (← bytesAt j "commit")
  -- the model decodes a proposal with its type
  for (t, k) in [(1, "add_proposal"), (2, "update_proposal"), (3, "remove_proposal"), (4, "pre_shared_key_proposal"), (5, "re_init_proposal"),
      (6, "external_init_proposal"), (7, "group_context_extensions_proposal")] do
    roundTrip k Proposal.dec Proposal.enc (natToBE t 2 ++ (← bytesAt j k))

/-- key_schedule_test.go -/
def pskSecret (j : Json) : Check Unit := do
  let cs ← suiteAt j
  let l ← arrAt j "psks"
  let ids ← l.mapM fun p => do return ({ kind := .external (← bytesAt p "psk_id"), nonce := ← bytesAt p "psk_nonce" } : PreSharedKeyID)
  let psks ← l.mapM fun p => bytesAt p "psk"
  same "extractPSKSecret" (← get "extractPSKSecret" (extractPSKSecret rp cs ids psks)) (← bytesAt j "psk_secret")

def keySchedule (j : Json) : Check Unit := do
  let cs ← suiteAt j
  let mut init ← bytesAt j "initial_init_secret"
  let mut i := 0
  for e in ← arrAt j "epochs" do
    let ctx : GroupContext := { version := 1, cipherSuite := cs, groupID := ← bytesAt j "group_id", epoch := UInt64.ofNat i,
                                treeHash := ← bytesAt e "tree_hash", confirmedTranscriptHash := ← bytesAt e "confirmed_transcript_hash",
                                extensions := [] }
    same "groupContext" (← get "groupContext" ctx.enc) (← bytesAt e "group_context")
    let joiner ← get "extractJoinerSecret" (ctx.extractJoinerSecret rp init (← bytesAt e "commit_secret"))
    same "joiner" joiner (← bytesAt e "joiner_secret")
    let psk ← bytesAt e "psk_secret"
    same "welcome" (← get "extractWelcomeSecret" (extractWelcomeSecret rp cs joiner (some psk))) (← bytesAt e "welcome_secret")
    let epochSecret ← get "extractEpochSecret" (ctx.extractEpochSecret rp joiner (some psk))
    init ← get "init" (deriveSecret rp cs epochSecret lblInit)
    same "init" init (← bytesAt e "init_secret")
    for (l, k) in [(lblSenderData, "sender_data_secret"), (lblEncryption, "encryption_secret"), (str "exporter", "exporter_secret"),
        (str "external", "external_secret"), (lblConfirm, "confirmation_key"), (lblMembership, "membership_key"), (str "resumption", "resumption_psk"),
        (str "authentication", "epoch_authenticator")] do
      same k (← get k (deriveSecret rp cs epochSecret l)) (← bytesAt e k)
    if ← get "supported" (supported cs) then
      let (pub, _) ← get "deriveEncryptionKeyPair" (deriveEncryptionKeyPair rp cs (← bytesAt e "external_secret"))
      same "external_pub" pub (← bytesAt e "external_pub")
    let x ← fld e "exporter"
    same "exporter" (← get "deriveExporter" (deriveExporter rp cs (← bytesAt e "exporter_secret") (← strAt x "label") (← bytesAt x "context")
      (UInt16.ofNat (← natAt x "length")))) (← bytesAt x "secret")
    i := i + 1

/-- authenticatedContent.unmarshal, which only the tests of the repository use. -/
def decAuthenticated : P AuthenticatedContent := do
  let w ← wireFormatTag
  let content ← FramedContent.dec
  let auth ← AuthData.dec content.content.ty
  return { wireFormat := if w == 1 then .publicMessage else .privateMessage, content, auth }

def transcriptHashes (j : Json) : Check Unit := do
  let cs ← suiteAt j
  let a ← get "authenticatedContent" (unmarshal decAuthenticated (← bytesAt j "authenticated_content"))
  let after ← bytesAt j "confirmed_transcript_hash_after"
  yes "verifyConfirmationTag" (a.auth.verifyConfirmationTag rp cs (← bytesAt j "confirmation_key") after)
  same "confirmed" (← get "confirmed" (confirmedTranscriptHash rp cs a.wireFormat a.content a.auth.signature
    (← bytesAt j "interim_transcript_hash_before"))) after
  same "interim" (← get "interim" (nextInterimTranscriptHash rp cs after a.auth.confirmationTag)) (← bytesAt j "interim_transcript_hash_after")

/-- secret_tree_test.go -/
def secretTree (j : Json) : Check Unit := do
  let cs ← suiteAt j
  let s ← fld j "sender_data"
  let secret ← bytesAt s "sender_data_secret"
  let ct ← bytesAt s "ciphertext"
  same "sender data key" (← get "key" (expandSenderDataKey rp cs secret ct)) (← bytesAt s "key")
  same "sender data nonce" (← get "nonce" (expandSenderDataNonce rp cs secret ct)) (← bytesAt s "nonce")
  let leaves ← arrAt j "leaves"
  let tree ← get "deriveSecretTree" (deriveSecretTree rp cs leaves.length (← bytesAt j "encryption_secret"))
  let mut i := 0
  for l in leaves do
    for (ct, k) in [(ContentType.commit, "handshake"), (.application, "application")] do
      let r0 ← get "deriveRatchetRoot" (deriveRatchetRoot rp cs tree (nodeOfLeaf i) (ratchetLabel ct))
      let mut r := r0
      for g in (← l.getArr?).toList do
        r ← get "fastForward" (fastForward rp cs (UInt32.ofNat (← natAt g "generation")) 1000 r)
        same "key" (← get "deriveKey" (r.deriveKey rp cs)) (← bytesAt g (k ++ "_key"))
        same "nonce" (← get "deriveNonce" (r.deriveNonce rp cs)) (← bytesAt g (k ++ "_nonce"))
    i := i + 1

/-- tree_math_test.go -/
def treeMath (j : Json) : Check Unit := do
  let n ← natAt j "n_leaves"
  same "width" (width n) (← natAt j "n_nodes")
  same "root" (root n) (← natAt j "root")
  for (f, k) in [(left, "left"), (right, "right"), (parent n, "parent"), (sibling n, "sibling")] do
    let mut i := 0
    for w in ← arrAt j k do
      let w ← if w.isNull then pure none else some <$> w.getNat?
      same s!"{k}({i})" (f i) w
      i := i + 1

/-- group_test.go -/
def welcome (j : Json) : Check Unit := do
  let cs ← suiteAt j
  let w ← get "unmarshalWelcome" (unmarshalWelcome (← bytesAt j "welcome"))
  let k ← get "unmarshalKeyPackage" (unmarshalKeyPackage (← bytesAt j "key_package"))
  let ref ← get "generateRef" (k.generateRef rp)
  let gs ← get "decryptGroupSecrets" (w.decryptGroupSecrets rp ref (← bytesAt j "init_priv"))
  -- nil in the Go test: no pre-shared keys
  let psk ← get "extractPSKSecret" (extractPSKSecret rp cs [] [])
  let info ← get "decryptGroupInfo" (w.decryptGroupInfo rp gs.joinerSecret psk)
  yes "verifySignature" (info.verifySignature rp (← bytesAt j "signer_pub"))
  yes "verifyConfirmationTag" (info.verifyConfirmationTag rp gs.joinerSecret psk)

def encContent : Content → Enc
  | .application d => .ok d
  | .proposal p => p.enc
  | .commit c => c.enc

def protectionPub (j : Json) (cs : UInt16) (ctx : GroupContext) (want raw : Bytes) : Check Unit := do
  match (← get "message" (unmarshal MlsMessage.dec raw)).body with
  | .publicMessage m =>
    let key ← bytesAt j "membership_key"
    let pub ← bytesAt j "signature_pub"
    let check := fun (m : PublicMessage) => do
      yes "verifySignature" (m.authenticatedContent.verifySignature rp pub ctx)
      yes "verifyMembershipTag" (m.verifyMembershipTag rp key ctx)
      same "content" (← get "content" (encContent m.content.content)) want
    check m
    let m ← get "signPublicMessage" (signPublicMessage rp cs (← bytesAt j "signature_priv") m.content ctx [2])
    let m ← get "signMembershipTag" (m.signMembershipTag rp cs key ctx)
    check m
  | _ => throw "wire format"

def protectionPriv (j : Json) (cs : UInt16) (ctx : GroupContext) (want raw : Bytes) : Check Unit := do
  match (← get "message" (unmarshal MlsMessage.dec raw)).body with
  | .privateMessage m =>
    let pub ← bytesAt j "signature_pub"
    let sds ← bytesAt j "sender_data_secret"
    let tree ← get "deriveSecretTree" (deriveSecretTree rp cs 2 (← bytesAt j "encryption_secret"))
    let secret ← get "deriveRatchetRoot" (deriveRatchetRoot rp cs tree (nodeOfLeaf 1) (ratchetLabel m.contentType))
    let check := fun (m : PrivateMessage) => do
      let sd ← get "decryptSenderData" (m.decryptSenderData rp cs sds)
      let s ← get "fastForward" (fastForward rp cs sd.generation 1000 secret)
      let c ← get "decryptContent" (m.decryptContent rp cs s sd.reuseGuard)
      yes "verifySignature" ((m.authenticatedContent sd c).verifySignature rp pub ctx)
      same "content" (← get "content" (encContent c.content)) want
      pure c
    let c ← check m
    let f : FramedContent := { groupID := ctx.groupID, epoch := ctx.epoch, sender := .member 1, authenticatedData := [], content := c.content }
    let pc ← get "signPrivateMessageContent" (signPrivateMessageContent rp cs (← bytesAt j "signature_priv") f ctx [3])
    -- the tag, which the Go code takes from the content too
    let m ← get "encryptPrivateMessage" (encryptPrivateMessage rp cs secret sds f pc ⟨1, 0, ⟨1, 2, 3, 4⟩⟩)
    let _ ← check m
  | _ => throw "wire format"

def messageProtection (j : Json) : Check Unit := do
  let cs ← suiteAt j
  let ctx : GroupContext := { version := 1, cipherSuite := cs, groupID := ← bytesAt j "group_id", epoch := UInt64.ofNat (← natAt j "epoch"),
                              treeHash := ← bytesAt j "tree_hash", confirmedTranscriptHash := ← bytesAt j "confirmed_transcript_hash",
                              extensions := [] }
  for k in ["proposal", "commit"] do
    protectionPub j cs ctx (← bytesAt j k) (← bytesAt j (k ++ "_pub"))
  for k in ["proposal", "commit", "application"] do
    protectionPriv j cs ctx (← bytesAt j k) (← bytesAt j (k ++ "_priv"))

/-- tree_test.go -/
def treeValidation (j : Json) : Check Unit := do
  let cs ← suiteAt j
  let t ← get "tree" (unmarshal decTree (← bytesAt j "tree"))
  let mut i := 0
  for w in ← arrAt j "resolutions" do
    let w ← (← w.getArr?).toList.mapM (·.getNat?)
    same s!"resolve({i})" (← get "resolve" (resolve t i)) w
    i := i + 1
  i := 0
  for w in ← arrAt j "tree_hashes" do
    same s!"computeTreeHash({i})" (← get "computeTreeHash" (computeTreeHash rp cs t i [])) (← bytes? w)
    i := i + 1
  yes "verifyParentHashes" (verifyParentHashes rp cs t)
  i := 0
  for n in t do
    match n with
    | some (.leaf l) => yes s!"verifySignature({i})" (l.verifySignature rp cs (← bytesAt j "group_id") (UInt32.ofNat (i / 2)))
    | _ => pure ()
    i := i + 1

/-- Also what the test of the repository leaves to do: every member whose private keys are given opens the path. -/
def treeKEM (j : Json) : Check Unit := do
  let cs ← suiteAt j
  unless ← get "supported" (supported cs) do throw "skipped: suite"
  let raw ← bytesAt j "ratchet_tree"
  let t ← get "tree" (unmarshal decTree raw)
  let d ← get "suite" (suite cs)
  let mut privs : List (UInt32 × List (Option Bytes)) := []
  for l in ← arrAt j "leaves_private" do
    let index ← natAt l "index"
    let mut priv : List (Option Bytes) := List.replicate t.length none
    priv := priv.set (nodeOfLeaf index) (some (← bytesAt l "encryption_priv"))
    for ps in ← arrAt l "path_secrets" do
      let x ← natAt ps "node"
      match t[x]? with
      | some (some n) => priv := priv.set x (some (← get "nodePrivFromPathSecret" (nodePrivFromPathSecret rp cs (← bytesAt ps "path_secret") n.encryptionKey)))
      | _ => throw "node"
    let mut i := 0
    for p in priv do
      match p, t[i]? with
      | some p, some (some n) => same s!"key pair {i}" (kemPublic d.kem p) n.encryptionKey
      | some _, _ => throw "blank"
      | _, _ => pure ()
      i := i + 1
    privs := (UInt32.ofNat index, priv) :: privs
  for u in ← arrAt j "update_paths" do
    let sender ← natAt u "sender"
    let path ← get "updatePath" (unmarshal UpdatePath.dec (← bytesAt u "update_path"))
    let (h, rt) := allocTree [] t
    let (h, rt) ← get "mergeUpdatePath" (mergeUpdatePath rp cs h rt sender path)
    let hash ← get "computeRootTreeHash" (computeRootTreeHash rp cs (derefTree h rt))
    same "tree hash" hash (← bytesAt u "tree_hash_after")
    let ctx : GroupContext := { version := 1, cipherSuite := cs, groupID := ← bytesAt j "group_id", epoch := UInt64.ofNat (← natAt j "epoch"),
                                treeHash := hash, confirmedTranscriptHash := ← bytesAt j "confirmed_transcript_hash", extensions := [] }
    for (li, priv) in privs do
      if li.toNat ≠ sender then
        let (secret, _) ← get "decryptPathSecrets" (decryptPathSecrets rp cs (derefTree h rt) ctx sender li.toNat path priv)
        same "commit secret" secret (← bytesAt u "commit_secret")

def treeOperations (j : Json) : Check Unit := do
  let cs ← suiteAt j
  let t ← get "tree" (unmarshal decTree (← bytesAt j "tree_before"))
  same "hash before" (← get "hash" (computeRootTreeHash rp cs t)) (← bytesAt j "tree_hash_before")
  let sender := UInt32.ofNat (← natAt j "proposal_sender")
  let p ← get "proposal" (unmarshal Proposal.dec (← bytesAt j "proposal"))
  match p with
  | .add k => get "keyPackage.verify" (k.verify rp { (default : GroupContext) with version := k.version, cipherSuite := k.cipherSuite })
  | .update l =>
    let (sk, ek) ← get "keys" (treeKeys t)
    get "leafNode.verify" (l.verify rp { cipherSuite := cs, groupID := [], leafIndex := sender,
                                         supportedCreds := ← get "creds" (supportedCreds t), signatureKeys := sk, encryptionKeys := ek, now := ⟨0, 0⟩ })
  | _ => pure ()
  let (h, rt) := allocTree [] t
  let (h, rt) ← get "apply" (treeApply h rt [p] [sender])
  let t := derefTree h rt
  same "tree after" (← get "tree after" (encTree t)) (← bytesAt j "tree_after")
  same "hash after" (← get "hash" (computeRootTreeHash rp cs t)) (← bytesAt j "tree_hash_after")

/-- passive_client_test.go; also the epoch authenticators after each commit, which the test of the repository does not check. -/
def passiveClient (authenticators : Bool) (j : Json) : Check Unit := do
  let cs ← suiteAt j
  unless ← get "supported" (supported cs) do throw "skipped: suite"
  let w ← get "unmarshalWelcome" (unmarshalWelcome (← bytesAt j "welcome"))
  same "suite" w.cipherSuite cs
  let k ← get "unmarshalKeyPackage" (unmarshalKeyPackage (← bytesAt j "key_package"))
  let initPriv ← bytesAt j "init_priv"
  let encPriv ← bytesAt j "encryption_priv"
  let sigPriv ← bytesAt j "signature_priv"
  for (pub, priv) in [(k.initKey, initPriv), (k.leafNode.encryptionKey, encPriv)] do
    let c ← get "encryptWithLabel" (encryptWithLabel rp cs pub (str "bar") [] (str "foo") [4])
    same "key pair" (← get "decryptWithLabel" (decryptWithLabel rp cs priv (str "bar") [] c)) (str "foo")
  let sig ← get "signWithLabel" (signWithLabel rp cs sigPriv (str "bar") (str "foo") [5])
  yes "verifyWithLabel" (verifyWithLabel rp cs k.leafNode.signatureKey (str "bar") (str "foo") sig)
  let ref ← get "generateRef" (k.generateRef rp)
  let gs ← get "decryptGroupSecrets" (w.decryptGroupSecrets rp ref initPriv)
  same "psks" gs.verifySingleReinitOrBranchPSK true
  let epsks ← (← arrAt j "external_psks").mapM fun p => do return (← bytesAt p "psk_id", ← bytesAt p "psk")
  let find := fun (id : PreSharedKeyID) => match id.kind with
    | .external i => match epsks.find? (·.1 == i) with
      | some (_, p) => (pure p : Check Bytes)
      | none => throw "psk not found"
    | _ => throw "skipped: resumption"
  let psks ← gs.psks.mapM find
  let tree ← fld j "ratchet_tree"
  let rawTree ← if tree.isNull then pure none else some <$> bytes? tree
  let st0 ← get "groupFromSecrets" (groupFromSecrets rp w ⟨k, ⟨initPriv, encPriv, sigPriv⟩⟩ gs rawTree psks ⟨0, 0⟩)
  same "authenticator" (← get "authenticator" (deriveSecret rp cs st0.group.epochSecret (str "authentication"))) (← bytesAt j "initial_epoch_authenticator")
  let mut st := st0
  let mut i := 0
  for e in ← arrAt j "epochs" do
    for p in ← arrAt e "proposals" do
      let (r, st') := unmarshalAndProcessMessage rp st (← bytes? p) ⟨0, 0⟩
      let _ ← get s!"epoch {i}: proposal" r
      st := st'
    match (← get "commit" (unmarshal MlsMessage.dec (← bytesAt e "commit"))).body with
    | .publicMessage m =>
      let a ← get s!"epoch {i}: verifyPublicMessage" (verifyPublicMessage rp st m)
      match a.content.content with
      | .commit c =>
        let (ps, _) ← get "resolveProposals" (resolveProposals m.content.sender.leafIndex st.group.pendingProposals c.proposals)
        let mut ids : List PreSharedKeyID := []
        for p in ps do
          match p with
          | .add _ | .update _ | .remove _ => pure ()
          | .psk id => ids := ids ++ [id]
          | _ => throw s!"skipped at epoch {i}"
        let psks ← ids.mapM find
        let (r, st') := processCommit rp st a ids psks ⟨0, 0⟩
        get s!"epoch {i}: processCommit" r
        st := st'
        if authenticators then
          same s!"epoch {i}: authenticator" (← get "authenticator" (deriveSecret rp cs st.group.epochSecret (str "authentication")))
            (← bytesAt e "epoch_authenticator")
      | _ => throw "content type"
    | _ => throw "wire format"
    i := i + 1

/-- ExampleGroup in group_test.go, for a suite. -/
def exampleGroup (cs : UInt16) : Check Unit := do
  let now : GoTime := GoTime.unix 1800000000
  let kp := fun (n : UInt8) => generateKeyPairPackage rp cs (.basic [n])
    { init := [n, 1], enc := [n, 2], sig := [n, 3], leafSign := [n, 4], pkgSign := [n, 5], now1 := GoTime.unix 1799999000, now2 := GoTime.unix 1799999000 }
  let a ← get "GenerateKeyPairPackage" (kp 1)
  let b ← get "GenerateKeyPairPackage" (kp 2)
  let alice ← get "CreateGroup" (createGroup rp [7] a (fun _ => 3))
  let (r, alice) := createWelcome rp alice [b.pub] default
  let (w, raw) ← get "CreateWelcome" r
  let (r, alice) := unmarshalAndProcessMessage rp alice raw now
  let _ ← get "UnmarshalAndProcessMessage" r
  let bob ← get "GroupFromWelcome" (groupFromWelcome rp w b now)
  let msg ← get "CreateApplicationMessage" (createApplicationMessage rp alice (str "hello") [9] ⟨1, 2, 3, 4⟩)
  let (r, _) := unmarshalAndProcessMessage rp bob msg now
  same "plaintext" (← get "UnmarshalAndProcessMessage" r) (some (str "hello"))

def suites : List (String × (Json → Check Unit)) :=
  [("deserialization", deserialization), ("crypto-basics", cryptoBasics), ("messages", messages), ("psk_secret", pskSecret),
   ("key-schedule", keySchedule), ("transcript-hashes", transcriptHashes), ("secret-tree", secretTree), ("tree-math", treeMath),
   ("welcome", welcome), ("message-protection", messageProtection), ("tree-validation", treeValidation), ("treekem", treeKEM),
   ("tree-operations", treeOperations), ("passive-client-welcome", passiveClient true),
   ("passive-client-handling-commit", passiveClient true), ("passive-client-random", passiveClient true)]

/-- Runs all vectors in a directory and prints what fails. -/
def runAll (dir : String) : IO UInt32 := do
  let mut bad : UInt32 := 0
  for (name, f) in suites do
    let text ← IO.FS.readFile s!"{dir}/{name}.json"
    match Json.parse text >>= Json.getArr? with
    | .error e => IO.println s!"{name}: {e}"; bad := bad + 1
    | .ok l =>
      let mut i := 0
      let mut good := 0
      let mut skipped := 0
      for j in l do
        match f j with
        | .ok () => good := good + 1
        | .error e =>
          if e.startsWith "skipped" then skipped := skipped + 1
          else
            IO.println s!"{name}[{i}]: {e}"
            bad := bad + 1
        i := i + 1
      IO.println s!"{name}: {good} of {l.size}, {skipped} skipped"
  for cs in [1, 2, 3, 7] do
    match exampleGroup cs with
    | .ok () => IO.println s!"example, suite {cs}: ok"
    | .error e => IO.println s!"example, suite {cs}: {e}"; bad := bad + 1
  return bad

end Mls.Conformance
