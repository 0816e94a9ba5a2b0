import Verif.Spec.ToyGroup
import Verif.Model.Framing
/-
Whole histories over the toy primitives: members with generated key packages, a committer that makes
update paths as RFC 9420 section 7.5 asks (the library itself has none), and groups reached from
CreateGroup and GroupFromWelcome.
-/
namespace Mls

/-- A key package generated with keys made of its name. -/
def toyMember (name : UInt8) : KeyPairPackage :=
  match generateKeyPairPackage toyPrims 1 (.basic [name])
      { init := [12, name], enc := [10, name], sig := [11, name], leafSign := [], pkgSign := [],
        now1 := toyNow, now2 := toyNow } with
  | .ok k => k
  | _ => default

/-- A moment within the lifetime of the members' leaves. -/
def toyLater : GoTime := toyNow.add 1000000000

/-- Successive path secrets (RFC 9420 section 7.4). -/
def toyPathSecrets : Nat → Bytes → Res (List Bytes)
  | 0, _ => .ok []
  | n + 1, s => do
    let s' ← deriveSecret toyPrims 1 s lblPath
    let rest ← toyPathSecrets n s'
    return s :: rest

/-- The public key of a node with this path secret. -/
def toyPathKey (s : Bytes) : Res Bytes := do
  let nodeSecret ← deriveSecret toyPrims 1 s lblNode
  let (pub, _) ← deriveEncryptionKeyPair toyPrims 1 nodeSecret
  return pub

/-- The encryptions of a path secret to the nodes `xs`. -/
def toySealAll (v : VTree) (rawCtx s : Bytes) : List Nat → Res (List HpkeCiphertext)
  | [] => .ok []
  | x :: xs => do
    let k ← nodeKey v x
    let c ← encryptWithLabel toyPrims 1 k lblUpdatePathNode rawCtx s []
    let rest ← toySealAll v rawCtx s xs
    return c :: rest

/-- The nodes of an update path: for each node of the filtered direct path its key and its path secret
encrypted to the resolution of the child not on the path, except for the nodes in `new`. -/
def toyPathNodes (v : VTree) (dp : List Nat) (sender : Nat) (rawCtx : Bytes) (new : List Nat) :
    List Nat → List Bytes → Res (List UpdatePathNode)
  | x :: xs, s :: ss => do
    let pub ← toyPathKey s
    match children x with
    | none => .panic
    | some (l, r) =>
      let res ← resolve v (pathSibling dp sender l r)
      let cts ← toySealAll v rawCtx s (res.filter fun y => !new.contains y)
      let rest ← toyPathNodes v dp sender rawCtx new xs ss
      return ⟨pub, cts⟩ :: rest
  | _, _ => .ok []

/-- The update path of the member `name` at leaf `i` with the proposals `ps` of the senders `by_`, starting from the path
secret `secret`, leaving out the nodes in `new`. -/
def toyUpdatePathBy (st : GroupState) (i : UInt32) (name : UInt8) (ps : List Proposal) (by_ : List UInt32) (secret : Bytes)
    (new : List Nat) : Res UpdatePath := do
  let ctx := st.group.groupContext
  let sender := nodeOfLeaf i.toNat
  let (h, t) ← treeApply st.heap st.group.tree ps by_
  let dp ← directPath (treeNumLeaves t) sender
  let t ← blankAll t dp
  let fdp ← filteredDirectPath (derefTree h t) sender
  let ss ← toyPathSecrets fdp.length secret
  let pubs ← ss.mapM toyPathKey
  let (h, t) ← setPathNodes h t fdp (pubs.map fun p => ⟨p, []⟩)
  let (h, ph) ← parentHashLoop toyPrims 1 dp sender t fdp.reverse h []
  let old ← getLeaf (derefTree h t) i.toNat
  let old ← Res.deref old
  let leaf : LeafNode := { old with encryptionKey := secret.take 2 ++ [101, name], source := .commit ph }
  let leaf ← leaf.sign toyPrims 1 ctx.groupID i [11, name] []
  let t ← Res.setIdx t sender (some (TNode.leaf leaf))
  let v := derefTree h t
  let treeHash ← computeRootTreeHash toyPrims 1 v
  let rawCtx ← (GroupContext.enc { ctx with epoch := ctx.epoch + 1, treeHash } : Res Bytes)
  let nodes ← toyPathNodes v dp sender rawCtx new fdp ss
  return { leafNode := leaf, nodes }

/-- The update path of the member `name` at leaf `i` with the proposals `ps`, all its own. -/
def toyUpdatePath (st : GroupState) (i : UInt32) (name : UInt8) (ps : List Proposal) (secret : Bytes) (new : List Nat) :
    Res UpdatePath :=
  toyUpdatePathBy st i name ps (ps.map fun _ => i) secret new

/-- The group after processing a message. -/
def GroupState.after (st : GroupState) (raw : Bytes) : Res GroupState :=
  match unmarshalAndProcessMessage toyPrims st raw toyLater with
  | (.ok _, st) => .ok st
  | (.err, _) => .err
  | (.panic, _) => .panic
  | (.hang, _) => .hang

/-- The confirmation tag of a commit, computed by another member from the epoch it leads to (which does not depend on the tag). -/
def GroupState.tagFor (st : GroupState) (raw : Bytes) : Bytes :=
  match st.after raw with
  | .ok st' =>
    match st'.group.groupContext.signConfirmationTag toyPrims st'.group.epochSecret with
    | .ok tag => tag
    | _ => []
  | _ => [1]

/-- A commit of the member `name` at leaf `i` with the proposals `ps` and a path, seen by another member. -/
def toyCommit (st : GroupState) (i : UInt32) (name : UInt8) (ps : List Proposal) (secret : Bytes) (new : List Nat) : Bytes :=
  match toyUpdatePath st i name ps secret new with
  | .ok path =>
    let content : Content := .commit ⟨ps.map .proposal, some path⟩
    toyPublic st i name content (st.tagFor (toyPublic st i name content [1]))
  | _ => []

/-- The same with references to the pending proposals. -/
def toyCommitPending (st : GroupState) (i : UInt32) (name : UInt8) (secret : Bytes) : Bytes :=
  let pend := st.group.pendingProposals
  match toyUpdatePathBy st i name (pend.map (·.proposal)) (pend.map (·.sender)) secret [] with
  | .ok path =>
    let content : Content := .commit ⟨pend.map fun p => .reference p.ref, some path⟩
    toyPublic st i name content (st.tagFor (toyPublic st i name content [1]))
  | _ => []

/-- The group that `0` creates. -/
def toyCreated : Res GroupState := createGroup toyPrims [7] (toyMember 0) (fun _ => 3)

/-- `st` invites `names`: the group after processing the commit, and the welcome. -/
def GroupState.invite (st : GroupState) (names : List UInt8) : Res (GroupState × Welcome) :=
  match createWelcome toyPrims st (names.map fun n => (toyMember n).pub) default with
  | (.ok (w, raw), st) => do
    let st ← st.after raw
    return (st, w)
  | (.err, _) => .err
  | (.panic, _) => .panic
  | (.hang, _) => .hang

/-- The group that `0` created and in which it invited `1`, seen by both. -/
def toyTwo : Res (GroupState × GroupState) := do
  let a ← toyCreated
  let (a, w) ← a.invite [1]
  let b ← groupFromWelcome toyPrims w (toyMember 1) toyLater
  return (a, b)

/-- The same after a commit of `1` with a path, seen by `0`. -/
def toyTwoUpdated : Res GroupState := do
  let (a, _) ← toyTwo
  a.after (toyCommit a 1 1 [] (List.replicate 32 9) [])

/-- The group that `0` created and in which it invited `1` and `2`, seen by all three. -/
def toyThree : Res (GroupState × GroupState × GroupState) := do
  let a ← toyCreated
  let (a, w) ← a.invite [1, 2]
  let b ← groupFromWelcome toyPrims w (toyMember 1) toyLater
  let c ← groupFromWelcome toyPrims w (toyMember 2) toyLater
  return (a, b, c)

/-- The welcome of the member `name` at leaf `i` for the new member `joiner`, with a path secret. `st` and `st'`: the group before and after the
commit that adds the new member, seen by another member. -/
def toyWelcome (st st' : GroupState) (i : UInt32) (name : UInt8) (commitSecret pathSecret : Bytes) (joiner : UInt8) : Res Welcome := do
  let ctx := st'.group.groupContext
  let psk ← extractPSKSecret toyPrims 1 [] []
  let joinerSecret ← ctx.extractJoinerSecret toyPrims st.group.initSecret commitSecret
  let confirmationTag ← ctx.signConfirmationTag toyPrims st'.group.epochSecret
  let rawTree ← (encTree st'.vtree : Res Bytes)
  let info : GroupInfo := { groupContext := ctx, extensions := [{ ty := 2, data := rawTree }], confirmationTag, signer := i, signature := [] }
  let info ← info.sign toyPrims [11, name] []
  let encryptedGroupInfo ← info.encrypt toyPrims joinerSecret psk
  let gs : GroupSecrets := { joinerSecret, pathSecret := some pathSecret, psks := [] }
  let secrets ← encryptSecretsLoop toyPrims 1 gs encryptedGroupInfo (fun _ => []) 0 [(toyMember joiner).pub]
  return { cipherSuite := 1, secrets, encryptedGroupInfo }

/-- `0` creates a group and invites `names`; then `0` commits with the proposals `ps`, of which one adds the member `joiner`
at leaf 1, and with a path of `n` nodes from the path secret `secret`. The last of the invited sees the group before and after; and the welcome of
the new member. -/
def toyInvitation (names : List UInt8) (ps : List Proposal) (n : Nat) (secret : Bytes) (joiner : UInt8) :
    Res (GroupState × GroupState × Welcome) := do
  let a ← toyCreated
  let (_, w) ← a.invite names
  let st ← groupFromWelcome toyPrims w (toyMember (names.getLastD 0)) toyLater
  let st' ← st.after (toyCommit st 0 0 ps secret [2])
  let ss ← toyPathSecrets (n + 1) secret
  let w ← toyWelcome st st' 0 0 (ss.getLastD []) secret joiner
  return (st, st', w)

end Mls
