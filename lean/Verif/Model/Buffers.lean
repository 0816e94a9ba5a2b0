import Verif.Model.Group
/-
Byte slices that the application and the library share. The rest of the model passes byte strings by value. In Go a slice points into an array, and who has
the slice can write the array. The decoders copy what they read (readOpaqueVec, mls.go:54-67; senderData, framing.go:856), and all that is encoded, hashed, signed,
encrypted or decrypted is in arrays of its own. But some objects keep slices that the application has, too:

* a credential keeps the slice with the identity (crypto.go:34-39), and GenerateKeyPairPackage copies the credential with it (key_package.go:207);
* a created group keeps the slice with its ID (group.go:61), the slices of the private keys (group.go:43, 91) and a pointer to the leaf node in
  the caller's key pair package (group.go:40, tree.go:1051-1054);
* a joined group keeps the slices of the private keys (group.go:199, 218), unless the signer of the welcome has its leaf and a path secret takes the place of the key
  of the leaf (group.go:200-205); its ID and its tree are decoded;
* NewMembers returns the slices of the welcome (group.go:1148-1154).

So here the arrays are a list, a slice is the number of an array (always all of it), and an object is its value together with the slices that it shares. What a call does
is taken from the rest of the model, applied to the objects as they are read through the arrays at that moment. Left out: credentials other than basic ones, which the
API cannot make.
-/
namespace Mls

/-- KeyPackage (key_package.go:16-23), and the array of the application in which the identity of its credential lies, if it was not decoded. -/
structure HeldPackage where
  value : KeyPackage
  identity : Option Nat
  deriving DecidableEq, Repr, Inhabited

/-- KeyPairPackage (key_package.go:175-178): the private keys are slices in exported fields. -/
structure HeldPair where
  pub : HeldPackage
  init : Nat
  enc : Nat
  sig : Nat
  deriving DecidableEq, Repr, Inhabited

/-- Welcome (group.go:1081-1085), and the arrays with the references in its entries. -/
structure HeldWelcome where
  value : Welcome
  refs : List Nat
  deriving DecidableEq, Repr, Inhabited

/-- Group (group.go:19-33), and what it shares: the arrays with its ID, with the private key of its own leaf and with the signature key, and the key pair package with
its leaf node. -/
structure HeldGroup where
  state : GroupState
  groupID : Option Nat
  leafKey : Option Nat
  sigKey : Nat
  leaf : Option Nat
  deriving DecidableEq, Repr, Inhabited

/-- The arrays, and the objects that the application has. A credential (crypto.go:26-30) is the slice with its identity. -/
structure World where
  arrays : List Bytes
  credentials : List Nat
  pairs : List HeldPair
  packages : List HeldPackage
  welcomes : List HeldWelcome
  groups : List HeldGroup
  deriving Inhabited

/-- What a slice has in it. -/
def World.bytes (w : World) (a : Nat) : Bytes := w.arrays.getD a []

/-- A key package as its methods see it. -/
def World.package (w : World) (p : HeldPackage) : KeyPackage :=
  match p.identity with
  | none => p.value
  | some a => { p.value with leafNode := { p.value.leafNode with credential := .basic (w.bytes a) } }

/-- A key pair package as the functions that take one see it. -/
def World.pair (w : World) (p : HeldPair) : KeyPairPackage := ⟨w.package p.pub, ⟨w.bytes p.init, w.bytes p.enc, w.bytes p.sig⟩⟩

/-- A welcome as its methods see it. -/
def World.welcome (w : World) (x : HeldWelcome) : Welcome :=
  { x.value with secrets := List.zipWith (fun s a => { s with newMember := w.bytes a }) x.value.secrets x.refs }

/-- A group as its methods see it. -/
def World.group (w : World) (g : HeldGroup) : GroupState :=
  { g.state with group := { g.state.group with
      groupContext := { g.state.group.groupContext with groupID := g.groupID.elim g.state.group.groupContext.groupID w.bytes }
      signaturePriv := w.bytes g.sigKey
      privTree := g.leafKey.elim g.state.group.privTree fun a =>
        g.state.group.privTree.set (nodeOfLeaf g.state.group.myLeafIndex.toNat) (some (w.bytes a))
      tree := (g.leaf.bind fun i => w.pairs[i]?).elim g.state.group.tree fun p =>
        g.state.group.tree.set 0 (some (.leaf (w.package p.pub).leafNode)) } }

/-- A group goes on from `st` as `st'`. processCommit copies the group context with the slice of the ID (group.go:450), the slices of the private keys that
are still of use (group.go:455-460) and the pointers to the leaf nodes (group.go:453), and it leaves the signature key alone. So a slice is shared until
something else is in its place; that a key or a leaf node is replaced by an equal one is not told from its being left alone. -/
def HeldGroup.next (g : HeldGroup) (st st' : GroupState) : HeldGroup :=
  { g with
    state := st'
    leafKey := if st'.group.privTree[nodeOfLeaf st.group.myLeafIndex.toNat]? = st.group.privTree[nodeOfLeaf st.group.myLeafIndex.toNat]? then g.leafKey else none
    leaf := if st'.group.tree[0]? = st.group.tree[0]? then g.leaf else none }

/-- What an application can do. Objects and arrays are numbered in the order in which they appear. -/
inductive Use where
  /-- make an array -/
  | make (b : Bytes)
  /-- write an array -/
  | write (a : Nat) (b : Bytes)
  /-- assign to the field Public of a key pair package -/
  | setPublic (i p : Nat)
  /-- assign to the fields of Private -/
  | setPrivate (i init enc sig : Nat)
  /-- copy the field Public -/
  | takePublic (i : Nat)
  | newBasicCredential (a : Nat)
  | generateKeyPairPackage (c : Nat) (cs : UInt16) (r : KeyPackageRand)
  | unmarshalKeyPackage (a : Nat)
  | keyPackageBytes (p : Nat)
  | generateRef (p : Nat)
  | createGroup (a i : Nat) (rand : Nat → UInt8)
  | unmarshalWelcome (a : Nat)
  | welcomeBytes (x : Nat)
  | newMembers (x : Nat)
  | groupFromWelcome (x i : Nat) (now : GoTime)
  | unmarshalAndProcessMessage (g a : Nat) (now : GoTime)
  | createApplicationMessage (g a : Nat) (sigRand : Bytes) (guard : Bytes4)
  | createWelcome (g : Nat) (ps : List Nat) (r : WelcomeRand)

/-- The end of a call: what it returns, as byte strings, and what is there afterwards. -/
def Res.conclude {α W : Type} (r : Res α) (w : W) (f : α → List Bytes × W) : Res (List Bytes) × W :=
  match r with
  | .ok x => (.ok (f x).1, (f x).2)
  | .err => (.err, w)
  | .panic => (.panic, w)
  | .hang => (.hang, w)

/-- A call returns new arrays. -/
def World.returns (w : World) (bs : List Bytes) : List Bytes × World := (bs, { w with arrays := w.arrays ++ bs })

/-- A new welcome, with new arrays. -/
def World.addWelcome (w : World) (x : Welcome) : World :=
  { w with arrays := w.arrays ++ x.newMembers, welcomes := w.welcomes ++ [⟨x, List.range' w.arrays.length x.secrets.length⟩] }

variable (pr : Prims)

/-- What a use does; `none` if there is no such object or array. The calls are those of the rest of the model: NewBasicCredential (crypto.go:34-39),
GenerateKeyPairPackage (key_package.go:181-234), UnmarshalKeyPackage, Bytes, GenerateRef (key_package.go:26-48, 143-157), CreateGroup (group.go:36-98), UnmarshalWelcome,
Bytes, NewMembers (group.go:1088-1110, 1148-1154), GroupFromWelcome (group.go:101-121), UnmarshalAndProcessMessage (group.go:256-271), CreateApplicationMessage
(group.go:761-780), CreateWelcome (group.go:595-757). -/
def World.step? (w : World) : Use → Option (Res (List Bytes) × World)
  | .make b => some (.ok [], { w with arrays := w.arrays ++ [b] })
  | .write a b => do
    let old ← w.arrays[a]?
    if old.length = b.length then some (.ok [], { w with arrays := w.arrays.set a b }) else none
  | .setPublic i p => do
    let pair ← w.pairs[i]?
    let pkg ← w.packages[p]?
    some (.ok [], { w with pairs := w.pairs.set i { pair with pub := pkg } })
  | .setPrivate i init enc sig => do
    let pair ← w.pairs[i]?
    let _ ← w.arrays[init]?
    let _ ← w.arrays[enc]?
    let _ ← w.arrays[sig]?
    some (.ok [], { w with pairs := w.pairs.set i { pair with init, enc, sig } })
  | .takePublic i => do
    let pair ← w.pairs[i]?
    some (.ok [], { w with packages := w.packages ++ [pair.pub] })
  | .newBasicCredential a => do
    let _ ← w.arrays[a]?
    some (.ok [], { w with credentials := w.credentials ++ [a] })
  | .generateKeyPairPackage c cs r => do
    let a ← w.credentials[c]?
    some ((Mls.generateKeyPairPackage pr cs (.basic (w.bytes a)) r).conclude w fun kp =>
      ([], { w with arrays := w.arrays ++ [kp.priv.initKey, kp.priv.encryptionKey, kp.priv.signatureKey],
                    pairs := w.pairs ++ [⟨⟨kp.pub, some a⟩, w.arrays.length, w.arrays.length + 1, w.arrays.length + 2⟩] }))
  | .unmarshalKeyPackage a => do
    let raw ← w.arrays[a]?
    some ((Mls.unmarshalKeyPackage raw).conclude w fun k => ([], { w with packages := w.packages ++ [⟨k, none⟩] }))
  | .keyPackageBytes p => do
    let pkg ← w.packages[p]?
    some ((w.package pkg).bytes.conclude w fun raw => w.returns [raw])
  | .generateRef p => do
    let pkg ← w.packages[p]?
    some (((w.package pkg).generateRef pr).conclude w fun ref => w.returns [ref])
  | .createGroup a i rand => do
    let id ← w.arrays[a]?
    let pair ← w.pairs[i]?
    some ((Mls.createGroup pr id (w.pair pair) rand).conclude w fun st =>
      ([], { w with groups := w.groups ++ [⟨st, some a, some pair.enc, pair.sig, some i⟩] }))
  | .unmarshalWelcome a => do
    let raw ← w.arrays[a]?
    some ((Mls.unmarshalWelcome raw).conclude w fun x => ([], w.addWelcome x))
  | .welcomeBytes x => do
    let x ← w.welcomes[x]?
    some ((w.welcome x).bytes.conclude w fun raw => w.returns [raw])
  | .newMembers x => do
    let x ← w.welcomes[x]?
    some (.ok (w.welcome x).newMembers, w)
  | .groupFromWelcome x i now => do
    let x ← w.welcomes[x]?
    let pair ← w.pairs[i]?
    some ((Mls.groupFromWelcome pr (w.welcome x) (w.pair pair) now).conclude w fun st =>
      ([], { w with groups := w.groups ++ [⟨st, none,
        if st.group.privTree[nodeOfLeaf st.group.myLeafIndex.toNat]? = some (some (w.bytes pair.enc)) then some pair.enc else none, pair.sig, none⟩] }))
  | .unmarshalAndProcessMessage g a now => do
    let held ← w.groups[g]?
    let raw ← w.arrays[a]?
    let (r, st') := Mls.unmarshalAndProcessMessage pr (w.group held) raw now
    let w := { w with groups := w.groups.set g (held.next (w.group held) st') }
    some (r.conclude w fun data => w.returns data.toList)
  | .createApplicationMessage g a sigRand guard => do
    let held ← w.groups[g]?
    let data ← w.arrays[a]?
    some ((Mls.createApplicationMessage pr (w.group held) data sigRand guard).conclude w fun raw => w.returns [raw])
  | .createWelcome g ps r => do
    let held ← w.groups[g]?
    let pkgs ← ps.mapM fun p => w.packages[p]?
    let (res, st') := Mls.createWelcome pr (w.group held) (pkgs.map w.package) r
    let w := { w with groups := w.groups.set g (held.next (w.group held) st') }
    some (res.conclude w fun x => ([x.2], { w.addWelcome x.1 with arrays := (w.addWelcome x.1).arrays ++ [x.2] }))

/-- One use after the other: what each returns, and what is there at the end. Nothing happens where there is no such object or array. -/
def World.run : World → List Use → List (Res (List Bytes)) × World
  | w, [] => ([], w)
  | w, u :: us =>
    match w.step? pr u with
    | none => w.run us
    | some (r, w') => (r :: (w'.run us).1, (w'.run us).2)

end Mls
