# Formal model of emersion/go-mls in Lean 4

## What is modelled and how

The model is a set of total, computable Lean functions, one per Go function, under
`lean/Verif/Model/`. Every definition cites the Go file and lines it models.
Independent specifications are under `lean/Verif/Spec/`, helper lemmas under
`lean/Verif/Proofs/`, and the property theorems (one file per property family)
under `lean/Verif/Props/`.

Conventions

* **Outcome of a Go call**: `Res α = ok a | err | panic | hang`. `err` is a non-nil
  Go `error` (the text is not modelled), `panic` a Go run-time or explicit panic,
  `hang` a loop that never ends. Panics are modelled where the code can panic:
  slice index out of range, nil dereference, `panic(...)`, unknown cipher suite.
* **cryptobyte.String** is a byte list threaded through a parser
  `P α = Bytes → Res α × Bytes`. The remaining input is kept on failure too, because
  two decoders (`KeyPackage.unmarshal`, `groupInfo.unmarshal`) swallow a failed read.
* **cryptobyte.Builder** is `Res Bytes` with a sticky error; a later panic wins.
* **uint8/16/32/64** fields are Lean `UInt8/16/32/64`; node indices inside tree
  arithmetic are `Nat` with every possible 32-bit wrap-around written out.
* **Tagged Go structs** (a tag and one pointer per variant) are Lean inductive types.
  The Go fields are unexported, so incoherent combinations cannot be built through
  the API, except `Credential{}`, which has a constructor of its own.
* **Pointers**: parent nodes live in a heap (`List ParentNode`), ratchet trees hold
  pointers to them, because `ratchetTree.copy` is shallow and `add` mutates
  through the pointer. All other values are immutable after construction. `Model/Copies` has several copies of a group in one
  heap, and the array behind their pending proposals (C104).
* **Memory of the caller**: byte strings are passed by value, as if every slice were copied when it is handed over. `Model/Buffers` has the arrays that the application
  and the library share, on top of the rest of the model, and C122 says for which slices this makes no difference. It does make one for the identity given to
  NewBasicCredential, the group ID and the key pair package given to CreateGroup, the private encryption and signature keys given to CreateGroup and
  GroupFromWelcome, and the references that Welcome.NewMembers returns. In `Model/Buffers` a slice is a whole array, and calls do not overlap in time. That all else is copied
  when it is read (readOpaqueVec) or written is taken from the code, not proved.
* **nil versus empty slices** are distinguished (`Option`) where the code does:
  private keys, the ratchet tree extension, the path secret, the PSK secret.
* **Cryptography** is a parameter `Prims`: hash, HMAC, HKDF, AEAD, HPKE, signatures
  as arbitrary functions. What a theorem needs of them (`open (seal x) = x` and so on)
  is an explicit hypothesis `Prims.Correct`, with a concrete instance (`toyPrims`) shown to satisfy it.
  Verifying a signature may also panic: `ecdsaSignatureScheme.Verify` passes the nil coordinates that
  `elliptic.Unmarshal` returns for a key that is no point of the curve to `ecdsa.VerifyASN1`. So `Prims.verify`
  gives an `Option Bool`; `Prims.Correct` says that a key under which something verifies never panics.
  Collision resistance is never assumed: binding theorems conclude "equal, or here
  is a collision".
* **Randomness and time** are explicit arguments. One reading of the clock stands for a whole call; the code reads it
  once for each leaf with a lifetime (tree.go:419-423). `Model/Clock` has GroupFromWelcome with a reading for each leaf, and
  C103 what follows from the one for the other; no other call depends on the clock (C94), but for GenerateKeyPairPackage, which
  has two readings in the model as in the code.

## Trusted base

* Lean 4.33 kernel; axioms `propext`, `Classical.choice`, `Quot.sound` at most. `AXIOMS.md` lists what
  `#print axioms` reports for each theorem of the manifest. No axiom, `sorry`, `native_decide`
  or `bv_decide`.
* The reading of the Go code: nothing ties the model to the code but the cited lines, and the test vectors below.
* The semantics of `golang.org/x/crypto/cryptobyte` v0.46 (read fails without consuming,
  sticky builder error), Go slices, maps used as sets, and `time.Time` as transcribed
  in the model.
* That `ecdsa.VerifyASN1` panics on nil coordinates (C41, C49, C72, C80).
* For C41, the KEM seed sizes and KDF sizes of cloudflare/circl 1.6.1 (not in /repo).

## The model on the test vectors

The definitions in `Verif/Model` are executable. `Verif/Conformance` holds implementations of the primitives of all
seven suites (`realPrims`: SHA-2, SHAKE256, HKDF, AES-GCM, ChaCha20-Poly1305, X25519, X448, the NIST curves, Ed25519,
Ed448, HPKE) and a runner that does with the model what the tests of the repository do with the Go code, on the vectors
in testdata/. `conformance.sh <scratch directory>` compiles and runs it (about a minute; the Go code is not built or run).
All vectors pass: 14 deserialization, 7 crypto-basics, 300 messages, 77 psk_secret, 7 key-schedule, 7 transcript-hashes,
21 secret-tree, 10 tree-math, 7 welcome, 7 message-protection, 98 tree-validation, 44 treekem, 5 tree-operations,
32 + 28 + 1 passive-client (the last with 200 commits), and the `ExampleGroup` exchange under suites 1, 2, 3 and 7.
Skipped as in the Go tests: the suites the library does not support (33 treekem, 24 and 39 passive-client), and 24
passive-client cases with resumption keys, reinit or group context extensions proposals.
The runner checks more than the Go tests in two places: each member decrypts each path in treekem, and
the epoch authenticator is compared after each commit.

This is a test of the transcription on inputs that an honest implementation produces; it says nothing about rejected
inputs. No theorem about the library depends on these files, and they are not part of the trusted base.
The other way round, `Props/Real` proves that these implementations meet the assumptions: `realPrims_correct` derives
`Prims.Correct realPrims` from two statements alone, that Diffie-Hellman agrees on derived keys, and that
what is signed with a generated key verifies; the lengths, the AEADs, HPKE and the reading of signature keys are proved.
`realPrims_stream` (`Props/Stream`) is the assumption of C81_leak.

## What is not modelled

Memory use other than the buffers that the decoders ask for (`Model/Meter`, C89), timing other than the steps of ratchets (`Model/Steps`, C90) and what the verification of a ratchet tree takes (`Model/Effort`, C123) and what processing a message takes (`Model/CommitEffort`, C124) and what joining, inviting and speaking take (`Model/JoinEffort`, C125), and the calls of the KDF that a message takes (`Model/TalkEffort`, C126),
the internals of cryptographic primitives, error texts, goroutines (the
library has none; a `Group` is not safe for concurrent use and the model is sequential).

## Plan per property

| id | model | proof |
|----|-------|-------|
| C01 C02 C03 | `Model/Wire` | arithmetic on the three prefix cases; big-endian lemma by induction |
| C04 C06 C10 | `Model/Codec*` | compositional round-trip law `dec (enc a ++ rest) = (a, rest)` per type |
| C05 C07 C11 | same | compositional canonicity law; C05/C11 are false of the code (a failed read of the signature is swallowed): witness plus `_partial` for non-empty signatures |
| C08 | same | no-panic/no-hang law per decoder; element decoders consume input |
| C09 | same | from the laws above |
| C12 C13 C14 | TBS encoders | injectivity from a left inverse (the decoder) |
| C15-C19 | `Model/TreeMath` | level/position normal form `(2i+1)2^k-1`; spec = recursive perfect tree |
| C20-C27 | `Model/Tree` | invariants by induction over operations; spec on the abstract leaf list |
| C28 | `computeTreeHash` | induction on the tree; collision extracted explicitly |
| C29 C30 | `verifyIntegrity` | loop invariants; C30 false for duplicate capability entries: witness and `_partial` |
| C31 | `mergeUpdatePath` | loop invariant along the filtered direct path |
| C32-C34 | `verifyProposalList` | iff with a set-style spec; permutation invariance; C34 false because `2*li` wraps at 2^31: witness and `_partial` |
| C35 C36 | `Model/SecretTree` | induction on depth / on generations |
| C37 | nonce derivation | xor cancellation |
| C38 C39 | `Model/KeySchedule` | fold; induction over histories with collision extraction |
| C40 | `lifetime.verify` with wrapped 64-bit seconds | integer arithmetic |
| C41 | suite table, `Model/Misc` (names) | case analysis over the table, lifted to all 16-bit numbers; decimal numerals determine the number |
| C42-C45 C47 C53 C60 | `Model/Group` | case analysis of the processing functions; histories by induction |
| C46 | same | composition of seal/open, sign/verify and codec round-trip |
| C48 | same | false of the code (the tag is never checked): witness and what does hold |
| C49 | same | false (sender index out of range etc.): witnesses; `_partial` under explicit bounds |
| C50 C51 | same | C51 and the inviter's part of C50 are false when a parent above the new leaf is non-blank (shallow copy): witness and `_partial` |
| C52 C57 C58 C59 | same | direct |
| C54 | same | false (PSK, extensions, re-init proposals are accepted and ignored): witness/negation, `_partial` for add/update/remove |
| C55 | same | invariant on held private keys |
| C56 | `processPathSecret` | false from the third node up (shadowed variable): witness and `_partial` |
| C61 C62 | `Model/Framing` | direct; a separate specification of the layers |
| C63 C64 | `Model/Group`, `Model/Codec` | direct; from the codec laws |
| C65 C66 | `verifyIntegrity` | loop invariants against the RFC's definition by descendants |
| C67 | `processCommit` | false for Add and Update: witnesses; `_partial` for the update path |
| C68 C74 C77 | same | invariants over all histories |
| C69 C70 C71 | same | an independent specification of the next epoch; induction over what two members accept |
| C72 C73 | `GroupFromWelcome`, sending | no-panic by the same laws as C49; witnesses for the cases that panic |
| C75 C76 C78 | `CreateWelcome`, `GroupFromWelcome` | equivalences between the call of one member and of another |
| C79 | `Spec/Library` | induction over all histories of members that use the library |
| C80 | `ecdsaSignatureScheme.Verify` | invariant over histories; witnesses for the keys that panic |
| C81 | `CreateApplicationMessage` and `CreateWelcome` | from C62: same ratchet generation for all messages; separation by walking up the key tree; for any two calls of an epoch, exactly when key and nonce coincide (`C81_exact`) |
| C82 | sending functions | comparison of two executions under ideal encryption (`Spec/Hiding`) |
| C83 | accepting and sending functions | signing traced by a signer that refuses one message (`Spec/Authorship`), then the injectivity of C12 to C14 |
| C84 | the API as a whole | `Spec/Hostile`: states over a network that delivers anything; C83 for each step, by strong induction on the epoch (the inviter's is one less than the invited's) |
| C85 | accepting and inviting functions, transcript hashes | C39 for two histories whose first commits differ, with C83 for what is accepted |
| C86 | UnmarshalAndProcessMessage | C46 for two senders: equal results and equal states |
| C87 | processCommit | the state after a commit for two values of the old secrets; private keys through copyPrivTree and decryptPathSecrets at blank nodes |
| C88 | CreateWelcome, CreateApplicationMessage | both runs unfolded side by side |
| C89 | `Model/Meter`: the decoders with the sizes given to `make` counted | forgetting the count gives `Model/Codec` back, per decoder; bounds closed under sequencing; induction over the repeated proposals |
| C90 | `Model/Steps`: the steps of the loop of group.go:364-371 counted | the count is the generation that the sender data name; a message of the same length for every generation; otherwise only what opens under the epoch's key |
| C91 | the calls on a group as one type, groups told apart by the answers to any sequence of calls (`Props/Replay`) | simulation: two groups that differ in their pending proposals only, but find the same proposal for every reference, answer alike and stay so; replays and permutations lead to such groups (for permutations: unless two references collide) |
| C92 | required_capabilities of RFC 9420 §11.1 and who covers it (`Props/Requirements`) | false: nothing reads the extension (`tree.go:412` says TODO); a member joins a group whose requirements it does not meet and invites others that do not either. True among members that use the library only, since their groups have no extensions; requirements never change (C44) |
| C93 | what a call seals: it returns, but not with an AEAD that refuses to seal this; forgery: a ciphertext that opens and was sealed by no call (`Spec/Forward`) | every accepted message is that of a call, byte for byte, or a part of it is a forgery, or it carries a membership tag, or two key derivations of the epoch collide (as in C81); no hypothesis about the AEAD |
| C94 | the clock is a parameter of the model's calls; `Spec.InDate` (C79) | equality of the whole result for any two times; a welcome accepted once is accepted whenever the key packages in the tree are in date, and refused otherwise |
| C95 | lengths only: `Spec.lengthSize`, `Spec.SlimHpke` (proved of the real HPKE) | the result of Bytes is a byte string; for welcomes, every entry is no longer than the proposal that adds the same key package, so the limit hits the commit first |
| C96 | `Spec.entriesFor`: the entries of a welcome with a reference | equality of the whole result for welcomes with the same first entry |
| C97 | `Spec.Since`: accepted messages and invitations; `nodeAt`: the nodes of the array; `supported` (C41) | no path secret leads to a node's key, so no path is accepted; induction over histories |
| C98 | the suites of key package and group context; `Spec.Since` | reduction to C78 (who follows an invitation) and C59; witness for the rest |
| C99 | `Spec.refInput` (RFC 9420 section 5.2), `Spec.PackageCollision` | unfolding and the round trip C04; lengths of hashes tell the algorithms apart |
| C100 | none | exact outcome of GenerateRef on all key packages that were read; witness |
| C101 | `Spec/Rfc`: the presentation language (`Item`, `Item.bytes`) and, transcribed into it, every structure of RFC 9420 that the code uses, with the text of the RFC above each | each encoder and each structure are brought to one normal form; reading by C04 to C11 |
| C102 | `Spec/Rfc`; `Spec.Rfc.Signed`, `sign`, `refHash`, `treeHash`, `expandWithLabel` over it | unfolding, the lemmas of C101, and induction over the tree on top of C28 |
| C103 | `Spec.InDate` (C79) for each leaf at its own time; `GoTime.zero` turns the check off | induction over the leaves; outcome of the running clock against that without a clock |
| C104 | `Copied`: a group, copies of the struct, and calls on any of them; `Spec.Left`: what a call on one leaves of another; `Spec.Uses` | invariant over such worlds (`CopiesInv`: every copy has the invariants of C77, and the trees of all have a parent node in one place only); effect of each call on the heap and on the array of pending proposals |
| C105 | `Spec.PublicOk`, `Spec.PrivateOk`, `Spec.ContentOk`, `Spec.CommitOk`, `Spec.PathOk`, `Spec.PathReadable`: what a message has to satisfy, over the structures of the RFC | equivalences for each step (proposals, tree, path, transcript, key schedule), composed; the invariants of reachable groups rule out panics |
| C106 | `Spec.WelcomeOk`, `Spec.SecretFits`, `Spec.welcomeSecret`: what a welcome has to satisfy | equivalences for each step of GroupFromWelcome, with C29_integrity and C102_references, composed |
| C107 | `Spec.Rfc.applicationMessage`, `Spec.Rfc.invitation`, `Spec.withMembers`: the messages as functions over the structures of the RFC; `Spec.Overhead` | equivalence of each step with the RFC function; sizes of the structures by composition (`Spec.Rfc.Sized`) |
| C108 | `Spec.BadPoint`, `Spec.PublicCrash`, `Spec.PrivateCrash`, `Spec.CommitCrash`, `Spec.CommitEndless`: over the structures of the RFC and `Spec.Ratchet` | `Res.PanicIff` composed along each function: a panic condition per step, everything else `Fine`; the depth of the tree after proposals |
| C109 | `Spec.WelcomeCrash` with `Spec.SignerCrash`, `Spec.TreeCrash`, `Spec.LinkCrash`, `Spec.SecretCrash`: over the structures of the RFC and `Spec.Ratchet`, in the order of the checks | `First`: of a loop that checks places in turn, the first that panics or fails; then as C108 |
| C110 | `Spec.Rfc.publicly`, `Spec.Rfc.expand`, `Spec.Rfc.exporter`: the message in the clear and MLS-Exporter of the RFC, over `Item`s; `Spec.Succeeds` | as C102; delivery from `verifyPublicMessage_iff` (C105) |
| C111 | `Spec.freshLeaf`, `Spec.Rfc.keyPairPackage`, `Spec.InviteCrash` over `Spec.Rfc.prepared` and `Spec.Rfc.secretsFor` (C107) | finishWelcome split after the encrypted group info; the loop over key packages by induction |
| C112 | `Spec.leftBehind`, `Spec.Proposes` over `Spec.Checked` (C108) and `Spec.applyProposals` | no pointer is made or moved by applying proposals, and only nodes the result points to are written (`Handed`); `Owned` makes pointers unique |
| C113 | `Spec.View`, `Spec.Processed`, `Spec.Committed`, `Spec.pathKeys`, `Spec.Run` | C105, C108, C112 say which case it is; `committed_view` (from `commit_tree`, `finishCommit_next`, `commit_secret`) and `Spec.Committed.unique` say what the new epoch is; induction over the list of messages |
| C114 | `Spec.created`, `Spec.JoinKeys`, `Spec.joined` | `joined_of` (from the proof of C106) gives the state explicitly; `joinKeys_of` reads the private keys off the loop of `processPathSecret`; the specification determines the keys, so both directions follow |
| C115 | `Spec.Act`, `Spec.Result`, `Spec.Step`, `Spec.Session`, `Spec.Starts` | a step is C113, C107, C111 and C112 at the same tree (`flat_any`); steps depend on the view only (`Spec.Step.of_view`); induction over the list of calls, as `Reachable` and the suite are kept |
| C116 | `GroupState.withKeys`, `Spec.PathFrom`, `Spec.NoPaths`, `GroupState.read` | without a path `finishCommit` commutes with changing the keys (`finishCommit_withKeys`); with one, the key used is below the copath node (`committed_path`, `resolution_below`), so not on the path of the sender (`off_path`), where all keys of the sender are (`GroupInv.held`) |
| C117 | `Spec.SameKnown`, `Spec.AlikeLeaf`, `Spec.AlikeNode`, `Spec.SealedTree` | the members of alike trees are alike in order (`members_alike`), so the known types are counted alike (`count_alike`); then through `C29_integrity` and `C59_verify` |
| C118 | `Spec.Bounded`, `Spec.weight`, `Spec.exampleGroup`, `Spec.Library` | sizes of every structure that is written (`Sized`, `tree_sized`, `commit_sized`); the tree is dense, at most twice as many leaves as members (`Spec.Library.size`, by induction over the history); then the exact conditions of C107 are met (`invitation_some`) and C79 says what the others make of it |
| C119 | `Spec.Rfc.makePath`, `Spec.Rfc.makeCommit`, `Spec.Rfc.commitMessage`, `Spec.Rfc.Ruled`, `Spec.Rfc.Course` | what the committer makes meets every condition of C105 (`Spec.CommitOk`) and C71 (`Spec.HonestPath`): parent hashes by `merge_leaf_hash`, the path by `updatePath_made` and `honest_secret`, the framing by `commitMessage_carries`; over time by induction on the course |
| C120 | `Spec.Rfc.guestEntry`, `Spec.Rfc.makeWelcome`, `Spec.Rfc.Entered`, `Spec.Rfc.Provided` | what is made meets every condition of C106 (`Spec.WelcomeOk`); new leaves are unmerged wherever they get no key, by induction on the tree for additions (`newAt_adds`) and for the path (`merge_apart`); then `join_keyed` and `C119_course` |
| C121 | `Spec.Rfc.compose`, `Spec.Rfc.enclose`, `Spec.Rfc.Signer`, `Spec.Rfc.Talk` | what is framed opens (C62) or verifies (C105) to what was signed, by the round trips of C10 and C101; then the effect of each content, and induction on the conversation; what the library sends is of this form by C107 |
| C122 | `Model/Buffers`: arrays that objects share with the application; `Spec.Own`: the same API with values | a simulation, by induction on what the application does: what an object reads is lent, what is not lent is read by none, and a read object is the value |
| C123 | `Model/Effort`: verifyIntegrity with a price list | forgetting the cost gives Model/Tree back, by induction; the costs of subtrees as weights, each node lying in at most d+1 of them; the weights from the encoded nodes |
| C124 | `Model/CommitEffort`: UnmarshalAndProcessMessage with a price list | forgetting the cost gives Model/Group back; the nodes of a filtered direct path have different levels, so the subtrees beside them weigh less than the tree; how far the adds of a commit let the tree grow |
| C125 | `Model/JoinEffort`: GroupFromWelcome, CreateWelcome and CreateApplicationMessage with a price list | forgetting the cost gives Model/Group back; the ratchet tree is part of the decrypted group info, which is no longer than the encrypted one; the path to the root from any node of the tree |
| C126 | `Model/TalkEffort`: CreateApplicationMessage and processPrivateMessage with the calls of expandWithLabel counted | forgetting the cost gives Model/Group back; deriving the secret tree takes two calls for each of its n - 1 parents; the number of steps of the ratchet is that of C90 |
| C127 | `Model/Framing`, `Model/Group` | the length of each part of the encoding; the size of a vector is injective in that of its content; the AEADs and Ed25519 of `Conformance` have the lengths assumed; what is received is shorter than what came |
| C128 | same | the length of each part of commit, group info and welcome; the entries for the invited by induction over the key packages |

**Properties that the code does not have.** For each claim of status "partial" the full statement is kept as a definition `Mls.Full.Cxx`
(`Props/Full`, `Props/FullGroup`; that of C122 in `Props/Buffers`), a proposition that the theorem with suffix `_partial` proves in part, and `Mls.Full.Cxx_false` proves
that it does not hold: for the toy primitives, which meet `Prims.Correct`, and for groups that calls of the API lead to (`Reachable`). Three are of
one half of the property and say so: C86 (who sent a message), C87 (private keys), C80 (messages). Stating C75 this way showed that its former
witness was of no use: the invited joined at the first instant of their own lifetime, which the code does not count as part of it
(tree.go:224). `C75_refuted` now joins an hour later, and states that the key package of the invited is in date and that of the founder is not.
