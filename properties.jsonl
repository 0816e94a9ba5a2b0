{"id": "C01", "title": "Length prefix round-trip", "statement": "Encoding a length n as an MLS variable-length integer and decoding it, followed by any further bytes, gives back n and exactly those further bytes; lengths of 2^30 or more are refused by the encoder with an error and never silently truncated.", "quantifier": "every 32-bit length and every suffix", "why_tests_cant": "2^32 lengths times every suffix; tests only sample vectors", "anchors": ["mls.go:readVarint", "mls.go:writeVarint"]}
{"id": "C02", "title": "Length prefix is canonical", "statement": "Whenever the decoder accepts a variable-length integer, the bytes it consumed are exactly the encoder's output for that value (shortest form, no second representation, prefix 0b11 refused).", "quantifier": "every byte string", "why_tests_cant": "quantifies over all byte strings, including adversarial non-minimal ones", "anchors": ["mls.go:readVarint"]}
{"id": "C03", "title": "Opaque vectors round-trip and are canonical", "statement": "An opaque<V> byte vector that can be encoded decodes to itself and leaves the following bytes untouched; conversely any accepted vector is the canonical encoding of the value returned, and one whose length is 2^30 or more is refused.", "quantifier": "every byte vector, suffix and input", "why_tests_cant": "unbounded lengths and inputs", "anchors": ["mls.go:readOpaqueVec", "mls.go:writeOpaqueVec"]}
{"id": "C04", "title": "Key package serialisation round-trip", "statement": "UnmarshalKeyPackage(pkg.Bytes()) returns a key package equal to pkg, for every key package whose version is MLS 1.0 and which Bytes can encode.", "quantifier": "every key package value", "why_tests_cant": "all credentials, capabilities, extensions of any size", "anchors": ["key_package.go:KeyPackage.Bytes", "key_package.go:UnmarshalKeyPackage"]}
{"id": "C05", "title": "Key package decoding is canonical", "statement": "If UnmarshalKeyPackage(raw) succeeds with pkg then pkg.Bytes() equals raw, so that a key package reference identifies one byte string.", "quantifier": "every byte string", "why_tests_cant": "adversarial inputs; needs all byte strings", "anchors": ["key_package.go:KeyPackage.unmarshal", "key_package.go:UnmarshalKeyPackage"]}
{"id": "C06", "title": "Welcome serialisation round-trip", "statement": "UnmarshalWelcome(w.Bytes()) returns a welcome equal to w, for every welcome that Bytes can encode.", "quantifier": "every welcome value", "why_tests_cant": "unbounded numbers of members and sizes", "anchors": ["group.go:Welcome.Bytes", "group.go:UnmarshalWelcome"]}
{"id": "C07", "title": "Welcome decoding is canonical", "statement": "If UnmarshalWelcome(raw) succeeds with w then w.Bytes() equals raw.", "quantifier": "every byte string", "why_tests_cant": "adversarial inputs", "anchors": ["group.go:Welcome.unmarshal"]}
{"id": "C08", "title": "Decoding is total", "statement": "Decoding any byte string as an MLS message, key package, welcome, ratchet tree, group info or group secrets terminates and returns a value or an error: it never panics and never loops.", "quantifier": "every byte string", "why_tests_cant": "a hang or a panic on one crafted input is enough to violate it", "anchors": ["mls.go:readVector", "framing.go:mlsMessage.unmarshal", "tree.go:ratchetTree.unmarshal"]}
{"id": "C09", "title": "Only whole, well-tagged messages are accepted", "statement": "A message followed by at least one excess byte, with a protocol version other than 1, or of another wire format than the one asked for, is refused by UnmarshalKeyPackage and UnmarshalWelcome.", "quantifier": "every message and every non-empty suffix", "why_tests_cant": "unbounded suffixes and all messages", "anchors": ["mls.go:unmarshal", "framing.go:mlsMessage.unmarshal"]}
{"id": "C10", "title": "MLS messages round-trip", "statement": "Every public message, private message, welcome, group info and key package that can be encoded decodes to itself, including every nested proposal, commit, update path, leaf node, extension and PSK id; and so does authenticated content.", "quantifier": "every message value", "why_tests_cant": "unbounded nesting of vectors and all variant combinations", "anchors": ["framing.go:mlsMessage", "proposal.go:proposal", "group.go:commit"]}
{"id": "C11", "title": "MLS message decoding is canonical", "statement": "If a byte string is accepted as an MLS message then re-encoding the decoded message yields the same byte string.", "quantifier": "every byte string", "why_tests_cant": "adversarial inputs", "anchors": ["framing.go:mlsMessage.unmarshal", "group.go:groupInfo.unmarshal", "key_package.go:KeyPackage.unmarshal"]}
{"id": "C12", "title": "A framed-content signature covers exactly one message", "statement": "The byte string signed for a message determines the wire format, group id, epoch, sender, authenticated data and content, and for member senders also the whole group context: two messages with the same to-be-signed bytes agree on all of these.", "quantifier": "every pair of messages and contexts", "why_tests_cant": "ambiguity would be a collision between two crafted messages", "anchors": ["framing.go:framedContentTBS.marshal"]}
{"id": "C13", "title": "Labels separate purposes", "statement": "The byte strings fed to signatures, HPKE, reference hashes and the key-derivation function determine the label, the context (and the output length) they were made from, so a value made for one purpose is never valid for another.", "quantifier": "every pair of labels, contexts and lengths", "why_tests_cant": "all pairs of inputs", "anchors": ["ciphersuite.go:marshalSignContent", "ciphersuite.go:marshalEncryptContext", "ciphersuite.go:refHash", "ciphersuite.go:expandWithLabel"]}
{"id": "C14", "title": "Leaf node, key package and group info signatures are unambiguous", "statement": "The to-be-signed bytes of a leaf node determine every signed field and, for update and commit leaves, the group id and leaf index; likewise for key packages and group infos.", "quantifier": "every pair of values", "why_tests_cant": "all pairs", "anchors": ["tree.go:leafNodeTBS.marshal", "key_package.go:KeyPackage.marshalTBS", "group.go:groupInfoTBS.marshal"]}
{"id": "C15", "title": "Leaf, node and width conversions are inverse", "statement": "Converting a leaf index below 2^31 to a node index and back gives the same leaf; numbers of leaves and array widths convert back and forth; the root of a tree with 2^d leaves is node 2^d - 1.", "quantifier": "every index and tree size representable", "why_tests_cant": "2^32 indices", "anchors": ["tree_math.go:leafIndex.nodeIndex", "tree_math.go:numLeavesFromWidth", "tree_math.go:numLeaves.root"]}
{"id": "C16", "title": "Parent, child and sibling agree with the in-order binary tree", "statement": "For every node of a complete tree: the children of a node have it as parent, siblings are distinct and share their parent, a node is one of its parent's children, leaves have no children and only the root has no parent.", "quantifier": "every tree size and every node", "why_tests_cant": "all sizes up to the 32-bit limit", "anchors": ["tree_math.go:numLeaves.parent", "tree_math.go:numLeaves.sibling", "tree_math.go:nodeIndex.left", "tree_math.go:nodeIndex.right"]}
{"id": "C17", "title": "Direct paths terminate at the root", "statement": "The direct path of every in-range node is the list of its proper ancestors from its parent to the root, one per level; for a node outside the tree the computation never terminates, so the bounds check in front of it is needed.", "quantifier": "every tree size and node", "why_tests_cant": "termination is a statement about all nodes", "anchors": ["tree_math.go:numLeaves.directPath"]}
{"id": "C18", "title": "Copath subtrees partition the other leaves", "statement": "The subtrees rooted at the copath of a leaf contain every other leaf of the tree exactly once and never the leaf itself.", "quantifier": "every tree size, leaf and other leaf", "why_tests_cant": "all sizes", "anchors": ["tree_math.go:numLeaves.copath"]}
{"id": "C19", "title": "Common ancestor is lowest", "statement": "commonAncestor of two leaves is the lowest node whose subtree contains both.", "quantifier": "every pair of leaves below 2^31", "why_tests_cant": "2^62 pairs", "anchors": ["tree_math.go:commonAncestor"]}
{"id": "C20", "title": "The ratchet tree is always complete", "statement": "After any sequence of adds, updates and removes that the code performs, the tree array has length 2^k - 1 (or is empty), leaves sit at even positions and parents at odd ones.", "quantifier": "every sequence of operations", "why_tests_cant": "unbounded histories", "anchors": ["tree.go:ratchetTree.add", "tree.go:ratchetTree.update", "tree.go:ratchetTree.remove"]}
{"id": "C21", "title": "Add uses the leftmost free leaf", "statement": "Adding a member puts the leaf in the leftmost blank position, doubling the tree only when it is full, and leaves every other leaf, and the blankness of every parent, unchanged.", "quantifier": "every tree and leaf", "why_tests_cant": "all trees", "anchors": ["tree.go:ratchetTree.add"]}
{"id": "C22", "title": "Remove blanks the leaf and its path and keeps everyone else", "statement": "Removing a member blanks its leaf and its direct path, leaves every other member at its index, and truncates the tree to the smallest complete tree that still holds all members.", "quantifier": "every tree and every index", "why_tests_cant": "all trees and truncation patterns", "anchors": ["tree.go:ratchetTree.remove"]}
{"id": "C23", "title": "Update replaces one leaf and blanks its path", "statement": "Updating a member replaces its leaf, blanks its direct path and leaves every other node unchanged.", "quantifier": "every tree, index and leaf", "why_tests_cant": "all trees", "anchors": ["tree.go:ratchetTree.update"]}
{"id": "C24", "title": "Unmerged leaves are recorded on exactly the non-blank ancestors", "statement": "After an add, the new leaf is appended to the unmerged leaves of each non-blank ancestor and of no other parent.", "quantifier": "every tree", "why_tests_cant": "all trees", "anchors": ["tree.go:ratchetTree.add"]}
{"id": "C25", "title": "Commit application order and resulting membership", "statement": "Applying the proposals of a commit gives the member list obtained by all updates, then all removes, then all adds in order, whatever the order in the commit; update proposals take the leaf of their own sender.", "quantifier": "every list of proposals and every tree", "why_tests_cant": "unbounded lists", "anchors": ["tree.go:ratchetTree.apply"]}
{"id": "C26", "title": "Ratchet tree extension round-trip", "statement": "Decoding an encoded ratchet tree gives the same tree, for every complete tree whose right half holds a member; decoding always yields a complete tree.", "quantifier": "every tree; every byte string", "why_tests_cant": "all trees, trailing blanks", "anchors": ["tree.go:ratchetTree.marshal", "tree.go:ratchetTree.unmarshal"]}
{"id": "C27", "title": "Resolution covers exactly the members below a node", "statement": "The resolution of a node contains no blank node when unmerged leaves are non-blank, is empty exactly when the subtree holds no node, and for a blank subtree of parents is the left-to-right list of members.", "quantifier": "every tree and node", "why_tests_cant": "all trees", "anchors": ["tree.go:ratchetTree.resolve"]}
{"id": "C28", "title": "The tree hash commits to the whole tree", "statement": "Two complete trees of the same size with the same root tree hash are equal in every leaf and parent field, unless the hash function has an explicit collision among the hashed inputs.", "quantifier": "every pair of trees", "why_tests_cant": "a binding property over all pairs", "anchors": ["tree.go:ratchetTree.computeTreeHash"]}
{"id": "C29", "title": "Joining implies tree integrity", "statement": "If a joiner accepts a ratchet tree then the tree hash equals the group context's, every leaf carries a valid signature for its own index, signature keys are pairwise distinct, encryption keys of leaves and parents are pairwise distinct, every unmerged leaf is below its parent and recorded on the non-blank nodes between.", "quantifier": "every tree and group context", "why_tests_cant": "all trees", "anchors": ["tree.go:ratchetTree.verifyIntegrity", "tree.go:leafNode.verify"]}
{"id": "C30", "title": "A leaf's credential type is supported by every member", "statement": "A leaf is accepted into a tree only if its credential type is listed in the capabilities of every member.", "quantifier": "every tree and leaf", "why_tests_cant": "all trees and capability lists", "anchors": ["tree.go:ratchetTree.supportedCreds", "tree.go:leafNode.verify"]}
{"id": "C31", "title": "Merging an update path yields valid parent hashes", "statement": "After a successful merge of a commit's update path, the nodes of the sender's filtered direct path hold exactly the path's public keys with no unmerged leaves, every other node of the direct path is blank, all nodes off the path are unchanged, and each path node's parent hash is the hash of the next one above, with the leaf's parent hash closing the chain.", "quantifier": "every tree, sender and path", "why_tests_cant": "all trees", "anchors": ["tree.go:ratchetTree.mergeUpdatePath", "tree.go:ratchetTree.filteredDirectPath"]}
{"id": "C32", "title": "Proposal list validation decides exactly the documented rules", "statement": "A commit's proposal list is accepted if and only if no two adds share a signature key, no update is by the committer, no remove names the committer, no leaf is updated or removed twice, no two PSK proposals have the same id, there is at most one group-context-extensions proposal, a re-init stands alone and there is no external init; the verdict does not depend on the order.", "quantifier": "every list of proposals, senders and committer", "why_tests_cant": "unbounded lists and permutations", "anchors": ["proposal.go:verifyProposalList"]}
{"id": "C33", "title": "A path is demanded exactly when required", "statement": "A commit without an update path is accepted only if its proposals are non-empty and are all of types add, PSK or re-init.", "quantifier": "every proposal list", "why_tests_cant": "unbounded lists", "anchors": ["proposal.go:proposalListNeedsPath", "group.go:Group.processCommit"]}
{"id": "C34", "title": "One committed proposal per tree position, never the committer's", "statement": "In an accepted proposal list no two update/remove proposals touch the same position of the tree, and none removes the committer's position.", "quantifier": "every list of 32-bit leaf indices", "why_tests_cant": "an overflow on one of 2^32 values is enough", "anchors": ["proposal.go:verifyProposalList", "tree_math.go:leafIndex.nodeIndex", "tree.go:ratchetTree.remove"]}
{"id": "C35", "title": "Every node of the secret tree has the secret of its path", "statement": "Deriving the secret tree of a group with 2^d leaves never panics and gives every node the secret obtained by expanding left/right from the encryption secret along the path from the root.", "quantifier": "every depth and node", "why_tests_cant": "all sizes", "anchors": ["secret_tree.go:deriveSecretTree"]}
{"id": "C36", "title": "Ratchet generations", "statement": "Fast-forwarding a ratchet to generation g terminates after exactly g derivations, and gives the same key and nonce on both sides.", "quantifier": "every generation in 32 bits", "why_tests_cant": "2^32 generations", "anchors": ["secret_tree.go:ratchetSecret.deriveNext", "group.go:Group.processPrivateMessage"]}
{"id": "C37", "title": "Reuse guards separate nonces", "statement": "For a given ratchet secret, two messages use the same AEAD nonce if and only if their reuse guards are equal.", "quantifier": "every pair of guards and every secret", "why_tests_cant": "2^64 pairs", "anchors": ["framing.go:derivePrivateMessageKeyAndNonce"]}
{"id": "C38", "title": "PSK secret", "statement": "With no PSK the PSK secret is the all-zero string; a mismatch between ids and secrets is an error; otherwise it is the chain over all PSKs in order, each bound to its id, position and count.", "quantifier": "every list of PSKs", "why_tests_cant": "unbounded lists", "anchors": ["key_schedule.go:extractPSKSecret"]}
{"id": "C39", "title": "The transcript hash commits to the whole history", "statement": "Two groups that went through the same number of commits from equal transcript hashes and end with equal confirmed transcript hashes have processed the same sequence of commits, confirmation tags included up to the last, unless the hash has an explicit collision.", "quantifier": "every pair of commit histories", "why_tests_cant": "unbounded histories", "anchors": ["key_schedule.go:confirmedTranscriptHashInput.hash", "key_schedule.go:nextInterimTranscriptHash"]}
{"id": "C40", "title": "Leaf lifetime check", "statement": "At any current time at least 90 days after 1970 a leaf lifetime is accepted if and only if not_before < now < not_after and not_after - not_before is at most 90 days, for every 64-bit pair, including those that overflow Go's signed seconds.", "quantifier": "every pair of 64-bit times and every now", "why_tests_cant": "2^128 pairs with wrap-around", "anchors": ["tree.go:lifetime.verify"]}
{"id": "C41", "title": "Cipher suite table", "statement": "Supported() never panics and is true exactly for suites 1, 2, 3 and 7; every suite for which it is true has a hash, HPKE suite and signature scheme; and, given a public key that can be read as a key of the scheme, the other operations panic exactly on suites outside the table. The name of a suite lists its algorithms, and no two of the 65536 numbers share a name.", "quantifier": "every 16-bit suite number", "why_tests_cant": "65536 suites times operations", "anchors": ["ciphersuite.go:CipherSuite.Supported", "ciphersuite.go:CipherSuite.String", "ciphersuite.go:cipherSuiteDescriptions", "ciphersuite.go:ecdsaSignatureScheme.Verify"]}
{"id": "C42", "title": "Messages for another group or epoch are refused", "statement": "UnmarshalAndProcessMessage refuses every message whose group id or epoch differs from the group's, and leaves the group unchanged.", "quantifier": "every group state and message", "why_tests_cant": "all states and messages, including replays across epochs", "anchors": ["group.go:Group.verifyPublicMessage", "group.go:Group.processPrivateMessage"]}
{"id": "C43", "title": "A failed message has no effect", "statement": "If UnmarshalAndProcessMessage returns an error, the group is exactly as before.", "quantifier": "every group state and byte string", "why_tests_cant": "all failure points of all messages", "anchors": ["group.go:Group.processCommit", "tree.go:ratchetTree.copy", "tree.go:ratchetTree.add"]}
{"id": "C44", "title": "A commit advances the epoch by one and nothing else does", "statement": "Processing a message either keeps the epoch or increments it by exactly one; it increments it exactly for accepted commits; the version, cipher suite, group id, own leaf index and signature key never change.", "quantifier": "every group state, byte string and history", "why_tests_cant": "unbounded histories", "anchors": ["group.go:Group.processCommit"]}
{"id": "C45", "title": "Application messages do not change the group, so they can be replayed", "statement": "Accepting an application message leaves the group unchanged, hence the same message is accepted again with the same data any number of times in its epoch.", "quantifier": "every state and message", "why_tests_cant": "all histories", "anchors": ["group.go:Group.processPrivateMessage"]}
{"id": "C46", "title": "Application messages reach the other members", "statement": "A message made by CreateApplicationMessage(data) is processed by every member in the same epoch state to exactly data, for every payload that can be encoded.", "quantifier": "every payload, member pair and randomness", "why_tests_cant": "all payloads and states", "anchors": ["group.go:Group.CreateApplicationMessage", "group.go:Group.UnmarshalAndProcessMessage"]}
{"id": "C47", "title": "Only authentic content is accepted", "statement": "Whenever UnmarshalAndProcessMessage returns application data, or changes the group, the content carried a signature that verifies under the signature key of the leaf it claims to be from, over the group's current context, and for public messages a valid membership tag.", "quantifier": "every state and byte string", "why_tests_cant": "all inputs", "anchors": ["group.go:Group.verifyPublicMessage", "group.go:Group.processPrivateMessage"]}
{"id": "C48", "title": "Commits are accepted only with a valid confirmation tag", "statement": "A commit is accepted only if its confirmation tag is the MAC of the new transcript hash under the new epoch's confirmation key.", "quantifier": "every state and commit", "why_tests_cant": "all commits", "anchors": ["group.go:Group.processCommit", "framing.go:framedContentAuthData.verifyConfirmationTag"]}
{"id": "C49", "title": "Message processing never panics", "statement": "UnmarshalAndProcessMessage terminates without panic on every byte string.", "quantifier": "every state and byte string", "why_tests_cant": "one crafted message is enough", "anchors": ["group.go:Group.UnmarshalAndProcessMessage", "tree.go:ratchetTree.getLeaf", "tree.go:ratchetTree.remove"]}
{"id": "C50", "title": "Members agree after an invitation", "statement": "After CreateWelcome, the inviter and every other member that process the returned message, and every invitee that joins from the welcome, end with the same tree, group context, transcript hash and epoch secrets.", "quantifier": "every group state, list of key packages and randomness", "why_tests_cant": "all states and numbers of invitees", "anchors": ["group.go:Group.CreateWelcome", "group.go:GroupFromWelcome", "group.go:Group.processCommit"]}
{"id": "C51", "title": "CreateWelcome does not change the group", "statement": "Calling CreateWelcome leaves the group as it was; the change takes effect only when the returned message is processed.", "quantifier": "every group state", "why_tests_cant": "all tree shapes", "anchors": ["group.go:Group.CreateWelcome", "tree.go:ratchetTree.add"]}
{"id": "C52", "title": "A created group has one member", "statement": "CreateGroup yields epoch 0, the creator as only member at leaf 0, no pending proposal, and the encryption key of the creator.", "quantifier": "every key pair package and group id", "why_tests_cant": "all inputs", "anchors": ["group.go:CreateGroup"]}
{"id": "C53", "title": "References resolve to proposals of this epoch", "statement": "A commit that refers to proposals by reference is accepted only if each was received in this epoch, uses the content and sender received with it, and clears all pending proposals.", "quantifier": "every history", "why_tests_cant": "unbounded histories", "anchors": ["group.go:resolveProposals", "group.go:Group.processCommit"]}
{"id": "C54", "title": "Committed proposals take effect", "statement": "Every proposal of an accepted commit has its effect: PSKs enter the epoch secret, group context extensions replace the context's, a re-init closes the group.", "quantifier": "every accepted commit", "why_tests_cant": "all commits", "anchors": ["group.go:Group.processCommit"]}
{"id": "C55", "title": "A removed member cannot follow", "statement": "A member that processes a commit removing it gets an error and stays in its epoch: it derives no secret of the new epoch.", "quantifier": "every tree, commit and member", "why_tests_cant": "all trees and key sets", "anchors": ["group.go:Group.processCommit", "tree.go:ratchetTree.decryptPathSecrets"]}
{"id": "C56", "title": "Path secret of a welcome", "statement": "A joiner given the path secret of its common ancestor with the inviter obtains the private key of every non-blank ancestor from there to the root.", "quantifier": "every tree and depth", "why_tests_cant": "all depths", "anchors": ["group.go:processPathSecret"]}
{"id": "C57", "title": "A welcome lists and serves its invitees", "statement": "NewMembers lists exactly the references of the invited key packages in order, and an invitee finds the first entry carrying its own reference; others get an error.", "quantifier": "every list of key packages", "why_tests_cant": "unbounded lists", "anchors": ["group.go:Welcome.NewMembers", "group.go:Welcome.findSecret", "group.go:Group.CreateWelcome"]}
{"id": "C58", "title": "Generated key packages are valid", "statement": "A key package made by GenerateKeyPairPackage passes verification for a group of the same cipher suite and survives serialisation, provided its two HPKE keys differ.", "quantifier": "every credential, suite and randomness", "why_tests_cant": "all inputs", "anchors": ["key_package.go:GenerateKeyPairPackage", "key_package.go:KeyPackage.verify"]}
{"id": "C59", "title": "A key package is accepted exactly when valid", "statement": "An add proposal's key package is accepted if and only if its version and suite match the group, its leaf source is key_package, its signature verifies under its leaf's key, and its init key differs from its encryption key.", "quantifier": "every key package and group context", "why_tests_cant": "all values", "anchors": ["key_package.go:KeyPackage.verify"]}
{"id": "C60", "title": "Proposals wait for a commit", "statement": "Processing a proposal changes nothing but the list of pending proposals, which grows by exactly that proposal with its sender.", "quantifier": "every state and proposal", "why_tests_cant": "all states", "anchors": ["group.go:Group.processProposal"]}
{"id": "C61", "title": "Padding of private messages", "statement": "A decrypted private message content is accepted with any number of trailing zero bytes and the padding is stripped; any non-zero byte after the content makes the message fail.", "quantifier": "every content and every padding", "why_tests_cant": "unbounded padding lengths and positions of the offending byte", "anchors": ["framing.go:privateMessage.decryptContent"]}
{"id": "C62", "title": "Private messages are protected as RFC 9420 sections 6.3 and 9 say", "statement": "The key and nonce of a private message are those of the RFC: application data use the application ratchet of the sender's leaf, proposals and commits its handshake ratchet, at the announced generation, the nonce masked by the reuse guard; the sender data are protected by the key sampled from the ciphertext; group, epoch, content type and authenticated data are bound. A receiver accepts exactly the messages that open this way and are signed by the named leaf.", "quantifier": "every group, message, generation, leaf and guard", "why_tests_cant": "all trees, leaves and generations; a self-consistent deviation passes every test between two copies of the code", "anchors": ["framing.go:encryptPrivateMessage", "framing.go:privateMessage.decryptSenderData", "framing.go:privateMessage.decryptContent", "secret_tree.go:ratchetLabelFromContentType", "group.go:Group.processPrivateMessage"]}
{"id": "C63", "title": "A created group starts its transcript from the empty string", "statement": "The confirmed transcript hash of a group made by CreateGroup is the zero-length string, as RFC 9420 section 11 asks.", "quantifier": "every key pair package and group id", "why_tests_cant": "no test vector covers group creation; members of the same implementation agree", "anchors": ["group.go:CreateGroup"]}
{"id": "C64", "title": "A ratchet tree has one encoding", "statement": "Two byte strings that decode to the same ratchet tree are equal: a tree extension with blank nodes at its end is refused.", "quantifier": "all pairs of byte strings accepted as a ratchet tree extension", "why_tests_cant": "test vectors only contain the canonical encoding; the claim is about every other byte string", "anchors": ["tree.go:ratchetTree.unmarshal", "tree.go:ratchetTree.marshal"]}
{"id": "C65", "title": "Parent hashes of an accepted tree are valid in the sense of RFC 9420 section 7.9.2", "statement": "In a tree accepted by a joiner, every non-blank parent node P has a child C and a node D in the resolution of C carrying the parent hash of P, and the unmerged leaves of P below C are exactly the nodes of the resolution of C other than D.", "quantifier": "every tree and group context", "why_tests_cant": "all trees; a test vector only has valid trees", "anchors": ["tree.go:ratchetTree.verifyParentHashes", "tree.go:ratchetTree.findParentHash"]}
{"id": "C66", "title": "Unmerged leaves of an accepted tree are members", "statement": "In a tree accepted by a joiner every unmerged leaf of a parent node is a non-blank leaf below it.", "quantifier": "every tree and group context", "why_tests_cant": "all trees; a test vector only has valid trees", "anchors": ["tree.go:ratchetTree.verifyIntegrity"]}
{"id": "C67", "title": "Every leaf node entering a group is verified", "statement": "When a commit is accepted, each leaf node it puts into the tree (by Add, Update or update path) has a valid leaf node signature, a lifetime covering the present, a supported credential type, and keys that no other member has.", "quantifier": "every state, commit and time", "why_tests_cant": "all commits, including forged ones", "anchors": ["group.go:Group.processCommit", "tree.go:leafNode.verify", "key_package.go:KeyPackage.verify", "tree.go:ratchetTree.apply"]}
{"id": "C68", "title": "Private keys held by a member match the tree", "statement": "Each private key a member holds is that of its own leaf or of a node above it, and the key held for a parent node that is not blank decrypts what is encrypted to that node's public key.", "quantifier": "every group reached from CreateGroup or GroupFromWelcome by any messages (accepted or refused) and invitations", "why_tests_cant": "unbounded histories of commits, truncations and blankings; a stale key shows only in particular later trees", "anchors": ["group.go:Group.processCommit", "group.go:GroupFromWelcome", "tree.go:ratchetTree.decryptPathSecrets", "group.go:processPathSecret"]}
{"id": "C69", "title": "The epoch after a commit is the one the protocol prescribes", "statement": "After a member accepts a commit, its tree is the previous one with the proposals applied and the path merged; its context has the next epoch number, the tree hash of that tree and the transcript hash extended with the commit; its epoch and init secrets are derived from the previous init secret, the commit secret and the new context; and the commit secret is zero without a path, otherwise derived from the path secret encrypted to the member.", "quantifier": "every group reached by any history, every accepted commit", "why_tests_cant": "unbounded histories and tree shapes; test vectors fix a few", "anchors": ["group.go:Group.processCommit", "tree.go:ratchetTree.decryptPathSecrets", "key_schedule.go:groupContext.extractEpochSecret", "key_schedule.go:groupContext.extractJoinerSecret"]}
{"id": "C70", "title": "Members that accept the same messages stay in agreement", "statement": "Two members of a group with the same tree, context, transcript hash, secrets and pending proposals that accept the same sequence of messages (including commits with paths made by others) get the same application data and end with the same tree, context, transcript hash, secrets and pending proposals, even if a committer is malicious, unless from one of the messages they decrypt two different path secrets with the same public key.", "quantifier": "every pair of member states, every sequence of messages", "why_tests_cant": "unbounded histories, all pairs of positions in the tree, malicious committers that encrypt different secrets to different members", "anchors": ["group.go:Group.processCommit", "group.go:Group.UnmarshalAndProcessMessage", "tree.go:ratchetTree.decryptPathSecrets", "tree.go:ratchetTree.mergeUpdatePath"]}
{"id": "C71", "title": "An honest commit that one member accepts is accepted by all", "statement": "If a member of a group accepts a message and, in case it is a commit with a path, this was made as RFC 9420 prescribes, then every other member with the same view of the group that holds the private keys it is meant to hold, is not the committer and keeps its leaf, accepts the message too, ends with the same view, and again holds the keys it is meant to hold; so by induction for histories. In particular leaves that the commit adds, which the committer leaves out when encrypting the path, do not keep others from following.", "quantifier": "every pair of reachable members with the same view, every message, every history", "why_tests_cant": "all trees, all positions of committer and receiver, all resolutions with unmerged leaves; unbounded histories", "anchors": ["group.go:Group.processCommit", "group.go:Group.UnmarshalAndProcessMessage", "tree.go:ratchetTree.decryptPathSecrets", "tree.go:ratchetTree.mergeUpdatePath", "tree.go:ratchetTree.resolve"]}
{"id": "C72", "title": "Joining never panics", "statement": "GroupFromWelcome returns a group or an error for every welcome, every key package and every private key: it does not panic and does not loop for ever, whatever the welcome decrypts to.", "quantifier": "every welcome (honest or not), every key package with its private keys, every time", "why_tests_cant": "all decrypted contents, tree shapes, signer and unmerged leaf indices, path secrets", "anchors": ["group.go:GroupFromWelcome", "group.go:groupFromSecrets", "tree.go:ratchetTree.get", "tree.go:ratchetTree.verifyIntegrity", "welcome.go:Welcome.decryptGroupSecrets"]}
{"id": "C73", "title": "Sending never panics", "statement": "In a group in use, CreateApplicationMessage and CreateWelcome return a message or an error for every argument; they do not panic and do not loop for ever.", "quantifier": "every group reached by any history, all data, every list of key packages", "why_tests_cant": "unbounded histories and tree shapes; every list of key packages", "anchors": ["group.go:Group.CreateApplicationMessage", "group.go:Group.CreateWelcome", "group.go:Group.encryptPrivateMessage", "tree.go:ratchetTree.apply"]}
{"id": "C74", "title": "Accepted messages keep parent hashes and unmerged leaves consistent", "statement": "If every non-blank parent of the tree is linked by its parent hash to exactly the child it should be (RFC 9420 section 7.9), with the unmerged leaves accounted for, and every unmerged leaf is a member below its parent recorded on all nodes in between, then the same holds after any message that is accepted, whoever sent it, so through any history of accepted messages; it holds in a created group and, when the unmerged leaves are members, in a group just joined. In particular no accepted commit can leave a parent that new members would refuse. The only exception is an update path whose parent hash was computed from itself (a cycle in the hash function).", "quantifier": "every reachable group, every message, every history of accepted messages", "why_tests_cant": "all tree shapes with blanks and unmerged leaves at any depth; unbounded histories; adversarial update paths", "anchors": ["group.go:Group.processCommit", "tree.go:ratchetTree.add", "tree.go:ratchetTree.remove", "tree.go:ratchetTree.update", "tree.go:ratchetTree.mergeUpdatePath", "tree.go:ratchetTree.verifyParentHashes", "key_package.go:KeyPackage.verify"]}
{"id": "C75", "title": "A group stays open to new members", "statement": "At any time, whoever is invited into a group with a key package that is valid at that time can join, whatever the age of the group and of its members.", "quantifier": "every group reached by any history, every key package, every time", "why_tests_cant": "histories of any length over any span of time", "anchors": ["group.go:GroupFromWelcome", "group.go:Group.CreateWelcome", "tree.go:ratchetTree.verifyIntegrity", "tree.go:leafNode.verify", "tree.go:lifetime.verify", "key_package.go:GenerateKeyPairPackage"]}
{"id": "C76", "title": "An invitation works exactly when the tree it leads to is valid at the time of joining", "statement": "When CreateWelcome returns a welcome for some key packages, the holder of any of them can join with GroupFromWelcome at a given time exactly if the ratchet tree of the group with the leaves of the invited added is valid at that time (parent hashes, signatures, lifetimes, credentials, distinct keys, unmerged leaves); nothing else in the welcome can be refused. For members whose own leaf has the key they sign with and whose tree is no larger than needed, in groups of protocol version 1, if the references of the key packages do not collide.", "quantifier": "every reachable member state, every list of key packages, every invited key package, every time", "why_tests_cant": "an equivalence over all trees, lists of key packages and times, through signing, encryption, serialisation and parsing", "anchors": ["group.go:Group.CreateWelcome", "group.go:GroupFromWelcome", "tree.go:ratchetTree.verifyIntegrity", "tree.go:ratchetTree.findLeaf", "welcome.go:welcome.decryptGroupSecrets"]}
{"id": "C77", "title": "The tree never gets larger than needed, and is read back as it was sent", "statement": "The ratchet tree of a group is never larger than needed: its right half has a member, through any accepted messages and invitations; so the tree in a group info, which leaves out the blanks at the end, is parsed back to the same tree, with the same tree hash.", "quantifier": "every created or joined group, every history of accepted messages and invitations", "why_tests_cant": "unbounded histories of additions and removals; adversarial welcomes", "anchors": ["tree.go:ratchetTree.marshal", "tree.go:ratchetTree.unmarshal", "tree.go:ratchetTree.remove", "tree.go:ratchetTree.add", "group.go:GroupFromWelcome"]}
{"id": "C78", "title": "Every member follows an invitation that CreateWelcome returns", "statement": "When CreateWelcome returns a welcome and a commit message, every member in the same epoch as the inviter accepts the commit, and all who do end up with the same view of the next epoch; so whoever joins with the welcome meets the rest of the group there. (As coded, CreateWelcome checks none of the key packages, so the commit is accepted exactly when all of them are valid for the group and no two have the same signature key.)", "quantifier": "every reachable pair of member states in the same epoch, every list of key packages, all randomness, every time", "why_tests_cant": "arbitrary key packages and unbounded group histories; a refusal shows up only at the other members, after the invited have already joined", "anchors": ["group.go:Group.CreateWelcome", "group.go:Group.processCommit", "key_package.go:KeyPackage.verify", "proposal.go:verifyProposalList"]}
{"id": "C79", "title": "Groups whose members all use this library work", "statement": "In a group in which everyone uses this library (CreateGroup, CreateWelcome for packages made by GenerateKeyPairPackage, GroupFromWelcome, UnmarshalAndProcessMessage, CreateApplicationMessage), whatever else arrives and is refused: an invitation with fresh keys is followed by every member in the epoch including the inviter, everyone invited can join as long as all key packages in the group are in their lifetime (and not after), all of these end up in the same epoch with the same tree and secrets, what one says all others in the epoch read, and refused messages and invitations change nothing.", "quantifier": "every group built by any number of library members in any history of creations, invitations, joins, followed commits, read and refused messages; all randomness; every time", "why_tests_cant": "unbounded interleavings of several members' calls with arbitrary hostile bytes in between", "anchors": ["group.go:CreateGroup", "group.go:GroupFromWelcome", "group.go:Group.CreateWelcome", "group.go:Group.UnmarshalAndProcessMessage", "group.go:Group.CreateApplicationMessage", "key_package.go:GenerateKeyPairPackage"]}
{"id": "C80", "title": "Signature keys that cannot be read are refused", "statement": "No member of a group ever has a signature key that is not a key of the group's signature scheme: whoever joins gets a group without such keys, processing messages and inviting never brings one in, and a message, welcome or key package that carries such a key is refused with an error.", "quantifier": "every group of every suite, every history of messages and invitations, every welcome and key package", "why_tests_cant": "all byte strings as keys, in every place that carries a key, in all histories", "anchors": ["ciphersuite.go:ecdsaSignatureScheme.Verify", "ciphersuite.go:CipherSuite.verifyWithLabel", "tree.go:leafNode.verifySignature", "tree.go:ratchetTree.update", "group.go:groupInfo.verifySignature", "key_package.go:KeyPackage.verifySignature"]}
{"id": "C81", "title": "No two messages are protected under the same key and nonce", "statement": "In an epoch, no two messages with different contents sent by members of a group with CreateApplicationMessage are encrypted under the same AEAD key and nonce.", "quantifier": "every group reached by any history, every two members, every two payloads, all randomness", "why_tests_cant": "A test sends a few messages and checks that they decrypt, which they also do when key and nonce repeat; whether they can repeat is a statement about all pairs of messages and all randomness.", "anchors": ["group.go: Group.CreateApplicationMessage, Group.encryptPrivateMessage", "framing.go: encryptPrivateMessageContent, newSenderData, derivePrivateMessageKeyAndNonce", "secret_tree.go: secretTree.deriveRatchetRoot, ratchetSecret.deriveNext"]}
{"id": "C82", "title": "Messages show only group, epoch, kind and length", "statement": "The messages that CreateApplicationMessage and CreateWelcome make, and the welcome, show to whoever has none of the keys nothing but cipher suite, group identifier, epoch, content type, lengths, and the references and init keys of the invited key packages: neither the data, nor who sends, nor who is in the group, nor any secret.", "quantifier": "every two groups, members, payloads, lists of key packages; all randomness", "why_tests_cant": "It compares the outputs of all pairs of executions; a test sees one execution and cannot tell whether a byte depends on a secret.", "anchors": ["group.go: Group.CreateApplicationMessage, Group.CreateWelcome, Group.encryptPrivateMessage, groupInfo.encrypt, groupSecrets.encrypt", "framing.go: encryptPrivateMessage, encryptPrivateMessageContent, encryptSenderData"]}
{"id": "C83", "title": "What is accepted from a member was sent by that member, who saw the same group", "statement": "If a group accepts a message, or someone joins with a welcome, and the signer uses their signature key with this library only and their signatures cannot be forged, then the signer made a matching call: CreateApplicationMessage with the very data that is read, or CreateWelcome for the very key packages whose leaves become members, in a group with the same group context as the recipient's (for welcomes, one epoch before). Key packages and leaves with such a signature key are ones that its owner generated.", "quantifier": "every recipient state, every byte string and every welcome from whatever source, every set of calls made by the signer", "why_tests_cant": "It speaks of all messages an attacker could compose, including replays, messages spliced from other groups, epochs, trees and protocol steps; tests can only try some of them.", "anchors": ["group.go: Group.UnmarshalAndProcessMessage, GroupFromWelcome, Group.CreateApplicationMessage, Group.CreateWelcome, groupInfo.verifySignature, groupInfo.sign", "framing.go: framedContentTBS, authenticatedContent.verifySignature, signAuthenticatedContent", "key_package.go: GenerateKeyPairPackage, KeyPackage.verifySignature", "tree.go: leafNode.verifySignature", "ciphersuite.go: CipherSuite.verifyWithLabel, CipherSuite.signWithLabel"]}
{"id": "C84", "title": "Over a hostile network, careful members never get strangers into a group and never lose a member", "statement": "Take people who use their signature keys with this library only, join with welcomes signed by someone they know, and invite people they know. Whatever bytes anyone delivers to them in whatever order, the members of each group, as anyone in it sees it, are the creator and those invited one invitation after the other by members who saw the context that the invitations before had led to; all of them are known. Bytes received are refused and change nothing, or are read as data that a member sent in the same context and change nothing, or add exactly those whom a member invited in the same context and keep every leaf in its place. Inviting changes nothing. Two people with the same group context see the same tree, unless the hash function collides.", "quantifier": "every set of calls of any number of people in any number of groups, every sequence of byte strings delivered to each of them, every state they reach", "why_tests_cant": "It speaks of all executions with an attacker who composes, replays, drops and reorders messages and welcomes, for any number of people and groups; tests can only run some.", "anchors": ["group.go: Group.UnmarshalAndProcessMessage, GroupFromWelcome, Group.CreateApplicationMessage, Group.CreateWelcome, CreateGroup", "framing.go: authenticatedContent.verifySignature", "tree.go: ratchetTree.apply, ratchetTree.verifyIntegrity, ratchetTree.computeRootTreeHash"]}
{"id": "C85", "title": "Members that follow different commits in one epoch are apart for ever", "statement": "If two members with the same group context and transcript accept different commits, then whatever each of them accepts afterwards, their group contexts never agree again, and neither accepts anything that is sent on the other side, unless the hash function collides. This is what happens when two members call CreateWelcome in the same epoch and others process the two messages in different orders.", "quantifier": "all groups, all pairs of members, all histories of each of them after the split, all messages", "why_tests_cant": "It speaks of all continuations of both sides; a test can only show that some message is refused after some continuation.", "anchors": ["group.go: Group.UnmarshalAndProcessMessage, Group.CreateWelcome, Group.processCommit", "key_schedule.go: confirmedTranscriptHashInput, nextInterimTranscriptHash"]}
{"id": "C86", "title": "The caller learns who sent a message and whom it adds", "statement": "From the result of UnmarshalAndProcessMessage the caller can tell which member sent the data, and which members a commit adds or removes.", "quantifier": "every group, every pair of members, every payload, every continuation", "why_tests_cant": "That no sequence of calls ever tells two senders apart is a statement about all continuations: the states are equal, so every later call is too.", "anchors": ["group.go: Group.UnmarshalAndProcessMessage, Group.CreateApplicationMessage"]}
{"id": "C87", "title": "Secrets that are no longer needed are forgotten", "statement": "After a commit a member's state no longer depends on the epoch secret and PSK secret of the epoch before, and it has no private keys of nodes that are not in the tree any more.", "quantifier": "all states of a member, all commits, all other values of the old secrets", "why_tests_cant": "That a value has left no trace is a statement about all values it might have had: a test sees one state.", "anchors": ["group.go: Group.UnmarshalAndProcessMessage, Group.processCommit, Group.privTree", "tree.go: ratchetTree.decryptPathSecrets"]}
{"id": "C88", "title": "Invitations carry nothing of the current epoch, messages nothing of later ones", "statement": "The welcome that CreateWelcome returns is the same whatever the inviter's current epoch secret, private keys and pending proposals are, so the invited get nothing that earlier messages were protected with. An application message is the same whatever the init secret and private keys are, from which later epochs are made.", "quantifier": "all pairs of states that agree on the public part, all key packages, all payloads, all randomness", "why_tests_cant": "It compares the outputs for all values of the secrets that must not matter.", "anchors": ["group.go: Group.CreateWelcome, Group.CreateApplicationMessage, GroupFromWelcome"]}
{"id": "C89", "title": "Decoding asks for no more memory than the message has", "statement": "The buffers that UnmarshalAndProcessMessage, UnmarshalWelcome and UnmarshalKeyPackage ask for while they decode a message have together no more bytes than the message.", "quantifier": "all byte strings", "why_tests_cant": "It is a bound for every input, malformed ones included; the inputs that break it are accepted or refused like any other, and only the memory used differs.", "anchors": ["mls.go: readOpaqueVec, readVector, unmarshal", "key_package.go: KeyPackage.unmarshal", "group.go: groupInfo.unmarshal", "framing.go: mlsMessage.unmarshal"]}
{"id": "C90", "title": "A message makes no more work than its size warrants", "statement": "The number of times UnmarshalAndProcessMessage steps a ratchet for a message is bounded by a function of the length of the message (or by a constant that a member can wait for).", "quantifier": "all groups that can arise, all byte strings given to UnmarshalAndProcessMessage", "why_tests_cant": "The bound is over every message that a member of the group could send, and the steps are not seen in the result; a test that tried the worst message would not end in reasonable time.", "anchors": ["group.go: Group.processPrivateMessage, Group.UnmarshalAndProcessMessage, Group.CreateApplicationMessage", "secret_tree.go: ratchetSecret.deriveNext", "framing.go: senderData"]}
{"id": "C91", "title": "Messages delivered twice or in another order make no difference", "statement": "A message that UnmarshalAndProcessMessage has accepted can be delivered again at any later time without any later call on the group returning anything else than it would have: within the epoch it returns the same result again, after a commit it is refused. Messages of an epoch that are no commits return the same results in whatever order they arrive, and afterwards no sequence of calls tells the orders apart. A commit that arrives before a proposal it refers to is refused without a trace, and so can be delivered again.", "quantifier": "all group states, all histories of accepted and refused messages and of invitations, all messages, all permutations, all later sequences of calls with all arguments", "why_tests_cant": "A test compares a few orders and a few later calls; that no sequence of calls whatever shows a difference is a statement about all of them, and it fails for orders that depend on how pending proposals are looked up.", "anchors": ["group.go: Group.UnmarshalAndProcessMessage, Group.processProposal, Group.processCommit, resolveProposals, Group.CreateWelcome, Group.CreateApplicationMessage", "framing.go: authenticatedContent.generateProposalRef"]}
{"id": "C92", "title": "Members have what their group requires", "statement": "In every group that CreateGroup, GroupFromWelcome and UnmarshalAndProcessMessage produce, the leaf node of each member lists the extension, proposal and credential types that the required_capabilities extension of the group context names, and the types of the other extensions in the group context; what a group requires never changes.", "quantifier": "all group states reachable by any history of calls and messages, all required_capabilities extensions, all members", "why_tests_cant": "The requirements arrive with a Welcome that anybody may have made, and members come with messages that anybody may have made; a test tries some of both.", "anchors": ["tree.go: leafNode.verify, capabilities", "group.go: GroupFromWelcome, Group.UnmarshalAndProcessMessage", "key_package.go: KeyPackage.verify", "key_schedule.go: groupContext"]}
{"id": "C93", "title": "The network can only forward messages as they were sent", "statement": "Every message that UnmarshalAndProcessMessage accepts is byte for byte one that CreateApplicationMessage or CreateWelcome returned to a member in the same epoch, unless it contains a forgery: an AEAD ciphertext (of the content or of the sender data) that opens under the key the epoch has for it though no member's call sealed anything to it, or a membership tag, of which the library makes none. In particular parts of different messages cannot be combined into another one.", "quantifier": "all reachable groups, all byte strings, all sets of calls made by members in the epoch", "why_tests_cant": "Tests flip some bits of some messages; that no recombination of the parts of any number of messages is accepted holds or fails for reasons in the key schedule and the additional data, and there are too many to try.", "anchors": ["group.go: Group.UnmarshalAndProcessMessage, Group.CreateApplicationMessage, Group.CreateWelcome, Group.encryptPrivateMessage", "framing.go: privateMessage.decryptSenderData, privateMessage.decryptContent, encryptPrivateMessage, publicMessage.verifyMembershipTag"]}
{"id": "C94", "title": "The clock decides only whether one can join, and no message", "statement": "UnmarshalAndProcessMessage returns the same and leaves the same group whenever it is called. If GroupFromWelcome accepts a welcome at one time, then at any other time it returns the same group if all key packages in the tree are in date then, and an error otherwise; so the times at which someone can join with a welcome make up one interval.", "quantifier": "all states, all messages, all welcomes and key packages, all pairs and triples of times", "why_tests_cant": "Tests run now, or with no clock at all; a result that depended on the time of day, or on expired leaves deep in the tree, would show years later or never.", "anchors": ["group.go: GroupFromWelcome, groupFromSecrets, Group.UnmarshalAndProcessMessage, Group.processCommit", "tree.go: leafNode.verify, lifetime.verify, ratchetTree.verifyIntegrity"]}
{"id": "C95", "title": "Bytes never panics", "statement": "KeyPackage.Bytes and Welcome.Bytes, which panic on what cannot be encoded (with the comment 'should never happen'), return for every key package that UnmarshalKeyPackage or GenerateKeyPairPackage returned and every welcome that UnmarshalWelcome returned, and for every welcome that CreateWelcome returned for key packages whose keys and signatures have the lengths of their suites, whatever the number of invited and the size of the group.", "quantifier": "all byte strings; all suites, credentials and random bytes; all states, lists of key packages and random bytes", "why_tests_cant": "The panic needs a field or vector of 2^30 bytes or more; no test makes one, and it depends on how the lengths of the welcome, the commit and the group info relate.", "anchors": ["group.go: Welcome.Bytes, Group.CreateWelcome, UnmarshalWelcome", "key_package.go: KeyPackage.Bytes, UnmarshalKeyPackage, GenerateKeyPairPackage", "mls.go: writeVarint, writeOpaqueVec, writeVector"]}
{"id": "C96", "title": "The entries of a welcome for others make no difference", "statement": "GroupFromWelcome depends only on the cipher suite and the encrypted group info of the welcome and on the first entry with the joiner's own reference: entries of others can be left out, added and reordered without any difference to the outcome. If the first entry with the joiner's reference cannot be opened, joining fails whatever follows.", "quantifier": "all welcomes, key packages, times, and all lists of entries", "why_tests_cant": "Tests use the welcomes the library makes; a delivery service splits and joins welcomes in any way.", "anchors": ["group.go: GroupFromWelcome, groupFromSecrets, Welcome.findSecret, Welcome.decryptGroupSecrets, Welcome.decryptGroupInfo"]}
{"id": "C97", "title": "In groups of suites that Supported refuses, nobody ever leaves and no key is ever replaced", "statement": "CreateGroup, CreateWelcome and GroupFromWelcome work with suites 4 to 6, for which CipherSuite.Supported is false. In a group of such a suite no commit with an update path is ever accepted, so through any accepted messages and invitations every leaf stays where and as it is, no welcome with a path secret can be joined, and the only private key a member ever holds is that of its own leaf. A commit with a path makes the member that receives it panic.", "quantifier": "all suites that Supported refuses, all reachable groups, all messages, all sequences of accepted messages and invitations", "why_tests_cant": "The tests skip the suites that are not supported; that a group of one can be made but never lose a member shows only over all possible messages.", "anchors": ["ciphersuite.go: CipherSuite.Supported", "tree.go: ratchetTree.decryptPathSecrets, nodePrivFromPathSecret", "group.go: Group.processCommit, Group.UnmarshalAndProcessMessage, GroupFromWelcome, groupFromSecrets, processPathSecret"]}
{"id": "C98", "title": "A member's group has the cipher suite of its key package", "statement": "Whoever creates a group with a key package, or joins one with it, is in a group of the key package's cipher suite, for which the key package was generated and which its leaf lists, and stays in one.", "quantifier": "all key packages, all welcomes, all reachable inviters and sequences of accepted messages and invitations", "why_tests_cant": "The tests use one suite at a time; a welcome may name any suite, and the error message of GroupFromWelcome suggests a comparison with the key package that is not made.", "anchors": ["group.go: CreateGroup, GroupFromWelcome, groupFromSecrets, Group.CreateWelcome", "key_package.go: KeyPackage.verify"]}
{"id": "C99", "title": "A reference names one key package", "statement": "GenerateRef returns the RefHash of RFC 9420 of the encoded key package. Two key packages with one reference are equal in every field, whatever their suites, unless the hash function has a collision on their encodings; the reference is the same for whoever reads the bytes of the key package; and Welcome.NewMembers contains it exactly if the welcome was made for that key package, up to such collisions.", "quantifier": "all key packages of version 1, all welcomes that CreateWelcome returns in any state", "why_tests_cant": "Injectivity ranges over all pairs of key packages, and the hash function can only be treated as a reduction.", "anchors": ["key_package.go: KeyPackage.GenerateRef, KeyPackageRef.Equal", "ciphersuite.go: refHash", "group.go: Group.CreateWelcome, Welcome.NewMembers"]}
{"id": "C100", "title": "GenerateRef returns for every key package that was read", "statement": "For every key package that UnmarshalKeyPackage returns, GenerateRef returns a reference or an error; it does not panic.", "quantifier": "all byte strings", "why_tests_cant": "The tests only read key packages of known suites; the suite is 16 bits of the input.", "anchors": ["key_package.go: KeyPackage.GenerateRef, UnmarshalKeyPackage", "ciphersuite.go: refHash, CipherSuite.hash"]}
{"id": "C101", "title": "The wire format is that of RFC 9420", "statement": "What KeyPackage.Bytes and Welcome.Bytes return, and every message, group info, group secrets, sender data, private content and ratchet tree that the library writes, is byte for byte the encoding that the presentation language of RFC 9420 gives to the structure of that name with the same field values: order of the fields, widths, length prefixes, optional markers and all numbers of enumerations. Conversely everything encoded in that way is read as the value it stands for; Welcomes are read from nothing else, key packages and messages from nothing else if the signatures in them are not empty.", "quantifier": "all values of all structures and all byte strings", "why_tests_cant": "A round trip holds just as well when two fields are exchanged in both directions; the test vectors fix the format for the values they contain only.", "anchors": ["framing.go: mlsMessage.marshal, mlsMessage.unmarshal", "key_package.go: KeyPackage.Bytes, UnmarshalKeyPackage", "group.go: Welcome.Bytes, UnmarshalWelcome, groupSecrets.marshal, groupInfo.marshal", "tree.go: ratchetTree.marshal, leafNode.marshal", "mls.go: writeVector, writeOptional"]}
{"id": "C102", "title": "What is signed, authenticated and hashed are the structures of RFC 9420", "statement": "The signatures of messages, leaf nodes, key packages and group infos are made and checked over FramedContentTBS, LeafNodeTBS, KeyPackageTBS and GroupInfoTBS as RFC 9420 encodes them, in SignContent with the label of the RFC; membership tags over AuthenticatedContentTBM; references of key packages and proposals, transcript hashes, tree hashes and parent hashes are those of the structures of the RFC; GroupContext and KDFLabel go into the key schedule as the RFC encodes them.", "quantifier": "all cipher suites of the RFC, all values, keys and contexts, and all trees of at most 2^31 leaves", "why_tests_cant": "Two members that run the same code agree on any format; the test vectors fix it for the values they contain only.", "anchors": ["framing.go: authenticatedContent.verifySignature, signAuthenticatedContent, publicMessage.signMembershipTag, authenticatedContent.generateProposalRef", "tree.go: leafNode.verifySignature, ratchetTree.computeRootTreeHash, parentNode.computeParentHash", "key_package.go: KeyPackage.verifySignature, KeyPackage.GenerateRef", "group.go: groupInfo.verifySignature", "key_schedule.go: confirmedTranscriptHashInput.hash, nextInterimTranscriptHash, groupContext.extractJoinerSecret, groupContext.extractEpochSecret"]}
{"id": "C103", "title": "Joining while the clock runs", "statement": "GroupFromWelcome reads the clock anew for every member that is in the group by a key package. Whatever the clock shows during the call, the result is an error or the same as without a clock; the welcome is accepted exactly if it is without a clock and each of these key packages is in date when it is its turn. So whoever could join at two times joins in a call during which the clock shows times in between.", "quantifier": "all welcomes, key packages, and all readings of the clock, one for each leaf", "why_tests_cant": "The outcome depends on a sequence of readings of any length; the tests turn the check off or use the current time.", "anchors": ["group.go: GroupFromWelcome, groupFromSecrets", "tree.go: ratchetTree.verifyIntegrity, leafNode.verify, lifetime.verify"]}
{"id": "C104", "title": "A copy of a group is independent of it", "statement": "Group is a struct with unexported fields and no method to copy it, but Go allows backup := *group. What one of the two does (UnmarshalAndProcessMessage, CreateWelcome) leaves the other as it was: its tree, pending proposals and keys; so the copy serves as a backup of the state.", "quantifier": "all worlds of copies of groups that calls on any of them lead to, all messages and invitations, all ways append grows arrays", "why_tests_cant": "The tests copy no group; whether memory is shared depends on the history of each copy and on the capacity of the arrays.", "anchors": ["group.go: Group, processProposal, processCommit, CreateWelcome", "tree.go: ratchetTree.add, ratchetTree.copy, parentNode"]}
{"id": "C105", "title": "Which messages are accepted, exactly", "statement": "UnmarshalAndProcessMessage succeeds on exactly these messages: those that parse as a PublicMessage signed by a member over the group context with the right membership tag, or as a PrivateMessage that opens with the keys of the epoch to signed content and zeros; with a proposal, with application data that came encrypted, or with a commit whose proposals are known, follow the rules of RFC 9420 section 12.2, carry valid key packages and can be applied to the tree, and whose path, where one is needed or present, has a valid leaf node with new keys, the public keys and parent hashes of RFC 9420 sections 7.5 to 7.9, and a path secret that this member can decrypt with the key it holds. Nothing else is refused, and nothing else is asked.", "quantifier": "all reachable groups, all byte strings, all times; both directions", "why_tests_cant": "The converse direction says that no further condition is imposed on any of infinitely many messages; the tests process the messages of the test vectors.", "anchors": ["group.go: UnmarshalAndProcessMessage, processPublicMessage, processPrivateMessage, processProposal, processCommit", "tree.go: ratchetTree.mergeUpdatePath, ratchetTree.decryptPathSecrets", "proposal.go: verifyProposalList, proposalListNeedsPath"]}
{"id": "C106", "title": "Which welcomes can be joined with, exactly", "statement": "GroupFromWelcome succeeds on exactly these welcomes: the first entry for the reference of the key package opens under its init key to group secrets without pre-shared keys; the group info opens under the welcome key and nonce of the joiner secret, is of the cipher suite of the welcome, carries a ratchet_tree extension that parses, is signed by the member at its signer leaf and carries the confirmation tag of the epoch that the joiner secret leads to; the tree is valid in the sense of C29 for its group context and holds the leaf node of the key package, byte for byte; and the path secret, if there is one, gives the keys of the nodes above where the two leaves meet. Nothing else is asked.", "quantifier": "all welcomes, key pair packages and times; both directions", "why_tests_cant": "An equivalence over all byte strings and keys; the tests join with the welcomes of the test vectors.", "anchors": ["group.go: GroupFromWelcome, groupFromSecrets, processPathSecret, Welcome.decryptGroupSecrets, Welcome.decryptGroupInfo, groupInfo.verifySignature, groupInfo.verifyConfirmationTag", "tree.go: ratchetTree.verifyIntegrity, ratchetTree.findLeaf"]}
{"id": "C107", "title": "What a member can send, exactly", "statement": "CreateApplicationMessage returns exactly the PrivateMessage that RFC 9420 prescribes for the data, the group context, the epoch secret, the leaf and generation 0, whenever that message exists within the 2^30-byte limit of vectors, and an error otherwise; in particular all data that leaves room for twice the group context, the signature and the tag can be sent. CreateWelcome with at least one key package returns exactly the Welcome and the commit that RFC 9420 prescribes for adding them, whenever these exist and the tree with the new members has at most 2^31 leaves. CreateGroup succeeds exactly if the suite of the key package is known and its leaf node can be encoded.", "quantifier": "all reachable groups, data, key packages and random inputs; both directions", "why_tests_cant": "An equivalence between two functions over all states and all sizes of the arguments; the tests send short messages in small groups.", "anchors": ["group.go: CreateGroup, Group.CreateApplicationMessage, Group.CreateWelcome", "framing.go: signAuthenticatedContent, encryptPrivateMessage"]}
{"id": "C108", "title": "Which messages make a member panic, exactly", "statement": "In a group in use with a supported suite, UnmarshalAndProcessMessage panics exactly on these byte strings: a public message for the group and its epoch whose claimed sender is a leaf outside the tree or a member whose ECDSA key is no point of the curve; a private message whose sender data open and name a leaf outside the tree, or whose content opens and names a member with such a key; an authentic commit which keeps the rules on proposals and adds a key package with such a key before any invalid one, or whose proposals are about a leaf outside the tree, or whose path is from a committer who has no leaf once the proposals are applied or gives itself such a key. It never returns exactly on the authentic commits that make the tree deeper than 31 levels, for which the tree has to have more than 2^30 leaves already. On all other byte strings it returns. With the suites that do not sign with ECDSA, only the names of leaves panic.", "quantifier": "all reachable groups, byte strings and times; both directions", "why_tests_cant": "The claim that nothing else panics is about all byte strings and all histories of a group; a fuzzer finds cases, not their absence.", "anchors": ["group.go: Group.UnmarshalAndProcessMessage, Group.verifyPublicMessage, Group.processPrivateMessage, Group.processCommit", "tree.go: ratchetTree.getLeaf, ratchetTree.remove, ratchetTree.add", "ciphersuite.go: ecdsaSignatureScheme.Verify"]}
{"id": "C109", "title": "Which welcomes make a joiner panic, exactly", "statement": "GroupFromWelcome always returns or panics, and for an own key package of a suite in the table with a credential of a known type it panics exactly in these cases. (1) The welcome has secrets for the key package and a cipher suite that does not exist. (2) It opens, and the group info names as signer a leaf outside the tree, or the place of a parent node, or a member whose ECDSA key is no point, or has itself a suite that does not exist: all this before anything is authenticated. (3) The group info is authentic, and its tree has a node at a place for the other kind; or, its tree hash being right, the search for the child a parent node is linked to leaves the tree, or a leaf has a key that is no point, or an unmerged leaf is outside the tree, and no check that comes earlier fails. (4) The tree is valid and has the leaf of the joiner, and a path secret is sent for a suite whose KEM takes seeds of another size than the KDF makes, or for nodes of which one is blank, all those below it having the keys expected. Consequently, with the suites that do not sign with ECDSA, a welcome without path secret whose suites exist, whose signer and unmerged leaves are inside the tree and whose nodes are at places for their kind never makes a joiner panic.", "quantifier": "all welcomes, key packages and times; both directions", "why_tests_cant": "That nothing else panics is about all byte strings a welcome can carry, most of which have to be encrypted and signed properly to get that far.", "anchors": ["group.go: GroupFromWelcome, groupFromSecrets, processPathSecret, groupInfo.verifySignature, Welcome.decryptGroupSecrets", "tree.go: ratchetTree.verifyIntegrity, ratchetTree.verifyParentHashes, ratchetTree.findParentHash, ratchetTree.getLeaf", "ciphersuite.go: ecdsaSignatureScheme.Verify, CipherSuite.hash"]}
{"id": "C110", "title": "What the library has in reserve does what RFC 9420 says", "statement": "Of the code that no call of the API reaches yet: a handshake message sent in the clear with signPublicMessage and signPublicMessageMembershipTag, as CreateWelcome would if its constant public were true, is exactly the message of RFC 9420, and fails only if there is none; every other member in the same epoch takes it for authentic, and puts a proposal in it on its list of pending proposals. deriveExporter gives exactly the value of MLS-Exporter, an error exactly if the label has 2^30 - 8 bytes or more, and otherwise panics exactly if more is asked for than 255 times the size of the hash. verifyConfirmationTag passes exactly if the tag is the MAC of the confirmed transcript hash. verifySingleReinitOrBranchPSK, whose result makes no difference as welcomes with pre-shared keys are refused anyway, passes exactly if at most one place of the list has a resumption key with usage reinit or branch.", "quantifier": "all groups, contents, labels, contexts, lengths, keys and tags", "why_tests_cant": "The test vectors fix a few labels, contexts and messages; the claim is about all of them, and about messages that the API does not make at all.", "anchors": ["group.go: Group.CreateWelcome, Group.signPublicMessageMembershipTag", "framing.go: signPublicMessage, framedContentAuthData.verifyConfirmationTag", "key_schedule.go: deriveExporter", "group.go: groupSecrets.verifySingleReinitOrBranchPSK"]}
{"id": "C111", "title": "When the calls that make something panic, exactly", "statement": "For credentials of known types: GenerateKeyPairPackage panics exactly for a cipher suite that does not exist, and otherwise returns exactly the key package of RFC 9420 with a fresh leaf (its capabilities, and a lifetime from now to 30 days from now) or, if that cannot be encoded or signed, an error. CreateGroup panics exactly for a key package that claims a suite that does not exist and whose leaf node can be encoded. In a group in use, CreateWelcome panics exactly if there is no key package, or if everything up to the encrypted group info can be made and so can the encrypted group secrets for the key packages before one that claims a suite that does not exist; it never returns exactly if the tree with the new members would have more than 2^31 leaves.", "quantifier": "all suites, credentials, random inputs, key packages, reachable groups and lists of key packages; both directions", "why_tests_cant": "That nothing else panics is about all arguments and all histories of a group.", "anchors": ["key_package.go: GenerateKeyPairPackage, KeyPackage.GenerateRef", "group.go: CreateGroup, Group.CreateWelcome", "ciphersuite.go: CipherSuite.hash, CipherSuite.hpke"]}
{"id": "C112", "title": "What a refused commit or an invitation leaves behind, exactly", "statement": "A call of UnmarshalAndProcessMessage on a group in use that returns an error leaves the Group value as it was, but not always the parent nodes that its tree points to: if the message is an authentic commit whose proposals pass the checks and are applied, then every parent node of the member's tree that the proposed tree still has is left as the proposed tree has it, that is with the leaves that the commit would have added under it among its unmerged leaves, and nothing else is different; for any other message that is refused nothing is different at all. CreateWelcome does the same with the tree that has the invited members, whether it succeeds or not.", "quantifier": "all reachable groups, all messages answered with an error, all lists of key packages", "why_tests_cant": "A test sees that some node changed; that nothing else ever does, and exactly when, is about all messages and all trees.", "anchors": ["group.go: Group.UnmarshalAndProcessMessage, Group.processCommit, Group.CreateWelcome", "tree.go: ratchetTree.apply, ratchetTree.copy, ratchetTree.add"]}
{"id": "C113", "title": "What UnmarshalAndProcessMessage does, completely", "statement": "Of a message given to UnmarshalAndProcessMessage on a group in use comes exactly one of these. Encrypted authentic application data: they are returned and nothing changes. An authentic proposal: it is appended to the pending proposals under its reference. An authentic good commit (C105): nothing is returned, and the member has the new tree, context, transcript hashes and key schedule of RFC 9420 sections 7, 8 and 12.4, the private keys of the nodes of the path that it could read and its old ones elsewhere, and no pending proposals. One of the messages of C108: a panic, or no return. Anything else: an error, with the tree of C112 and nothing else changed. What comes of a message depends only on what the member knows, never on how the tree is laid out in memory; and so for any list of messages processed one after the other.", "quantifier": "all reachable groups of a supported suite, all messages, all times, all lists of messages", "why_tests_cant": "It says of every byte string, in every state, what the answer and every field of the state afterwards are; tests show single messages and compare single fields.", "anchors": ["group.go: Group.UnmarshalAndProcessMessage, Group.processPublicMessage, Group.processPrivateMessage, Group.processProposal, Group.processCommit", "tree.go: ratchetTree.apply, ratchetTree.mergeUpdatePath, ratchetTree.decryptPathSecrets", "key_schedule.go: groupContext.extractJoinerSecret"]}
{"id": "C114", "title": "What a member knows at the start", "statement": "CreateGroup succeeds exactly if the suite of the key package is known and its leaf has an encoding. The creator then knows: a tree of the one leaf, epoch 0, the tree hash of RFC 9420 section 7.8, a confirmed transcript hash of zeros and the interim one that follows from it, an epoch secret that is the random bytes, the init secret derived from it, the private key of the leaf, and no pending proposals. GroupFromWelcome succeeds exactly for the welcomes of C106. The joiner then knows: the tree and the context of the group info, the epoch secret that follows from the joiner secret, the init secret derived from it, the interim transcript hash, the leaf of the key package as the own one, the private key of that leaf and, if there is a path secret, exactly the private keys of the nodes from the common ancestor with the inviter up to the root, and no pending proposals.", "quantifier": "all group ids, key packages, randomness, welcomes and times", "why_tests_cant": "It says of every welcome what every field of the new state is, among them the private key of every node of the tree; tests join a few groups.", "anchors": ["group.go: CreateGroup, GroupFromWelcome", "tree.go: ratchetTree.computeRootTreeHash", "key_schedule.go: groupContext.extractEpochSecret"]}
{"id": "C115", "title": "The library is this machine", "statement": "The whole life of a member, who creates a group or joins one by a welcome and then makes any calls of UnmarshalAndProcessMessage, CreateWelcome and CreateApplicationMessage in any order, is a run of one machine: every call has exactly the answer, and leaves exactly the knowledge, that C113, C107, C111 and C112 say, as a function of what the member knew before the call, the arguments, the clock and the randomness; a call that panics or does not return is the last one. Nothing else about the past and nothing of how the state lies in memory has an influence.", "quantifier": "all starts with a supported suite, all lists of calls with any arguments (invited key packages with credentials of known types), all clocks and randomness", "why_tests_cant": "The runs are unboundedly long and the arguments arbitrary byte strings; tests replay a few recorded sessions.", "anchors": ["group.go: CreateGroup, GroupFromWelcome, Group.UnmarshalAndProcessMessage, Group.CreateWelcome, Group.CreateApplicationMessage"]}
{"id": "C116", "title": "Stolen secrets: read on until a commit with a path, and no further", "statement": "Private keys matter for commits with a path only. Whoever has the rest of what a member has (tree, context, secrets of the epoch), and any or no private keys, gets from every other message the same answer as the member and has the rest of what the member has afterwards; and so for any list of messages without a commit with a path, over any number of epochs. In groups whose members all use this library there are no other commits than invitations, so nobody who once had the secrets is ever shut out. A commit with a path shuts out everybody who has no other keys than those of nodes on the path of its sender, wherever in the tree they pretend to be; in particular, a member who commits with a path shuts out whoever has stolen all that they had.", "quantifier": "all reachable groups, all messages and lists of messages, all sets of private keys, all positions in the tree", "why_tests_cant": "It compares, for every message, the member with everybody who could have any other keys; tests run members with their own keys.", "anchors": ["group.go: Group.UnmarshalAndProcessMessage, Group.processCommit, Group.CreateWelcome", "tree.go: ratchetTree.decryptPathSecrets, ratchetTree.resolve"]}
{"id": "C117", "title": "Unknown capabilities are ignored", "statement": "Values in the capabilities of a leaf node that the library does not know make no difference to whether it is accepted. Two leaf nodes that differ in nothing but the versions, cipher suites, proposals, extensions they do not use, credential types other than basic and x509, and the order of all these, and that both have their signatures, are verified with the same result; the members of two trees that so differ support the same known credential types; a joiner accepts both trees or neither, if in both the hashes and signatures are in order; and so for the key package of an Add proposal.", "quantifier": "all leaf nodes, key packages and ratchet trees, all capabilities, all times", "why_tests_cant": "It is about every value that is not yet assigned, in every member's list; tests use the few values that exist.", "anchors": ["tree.go: capabilities.unmarshal, leafNode.verify, ratchetTree.supportedCreds, ratchetTree.verifyIntegrity", "key_package.go: KeyPackage.verify"]}
{"id": "C118", "title": "Nothing fails while there is room", "statement": "In groups whose members all use this library, no call fails as long as what has to be written fits into the vectors of RFC 9420. GenerateKeyPairPackage succeeds for every basic credential that fits; CreateGroup succeeds for every key package so generated and every group ID; CreateWelcome succeeds for every non-empty list of generated key packages while the group ID and the names of all members, with a fixed allowance for each, stay under 2^30 bytes, and its welcome can be marshaled; every member accepts the commit, and every invited member joins while all lifetimes run, if no two keys are alike; then every member can send every text that fits, and every other member reads it. In particular the whole exchange of the library's own example (create, invite, join, send, read) ends with the text that was sent, for all names, group IDs, texts, keys and randomness.", "quantifier": "all groups reached by the API with generated key packages, of any size and age, all names, group IDs and texts that fit, all randomness, all cryptographic primitives with bounded output", "why_tests_cant": "That a call never fails is about all sizes and all histories; a test shows that it did not fail for one group of two.", "anchors": ["key_package.go: GenerateKeyPairPackage", "group.go: CreateGroup, Group.CreateWelcome, GroupFromWelcome, Group.UnmarshalAndProcessMessage, Group.CreateApplicationMessage"]}
{"id": "C119", "title": "Commits made as RFC 9420 says are followed", "statement": "In a cipher suite that the library calls Supported, a member accepts every commit that another member makes as RFC 9420 says, whatever software this other member uses, and ends in the very epoch that the committer computed: the same tree, group context, interim transcript hash, epoch secret and init secret, no proposals left over, and all the private keys that the next commit will need. The committer draws a path secret, derives a key pair for every node of its filtered direct path, sets the parent hashes, signs its new leaf, seals the path secrets for the resolutions of the copath, signs the content, adds the confirmation tag and sends the commit as a PublicMessage or as a PrivateMessage. The commit may have any Add, Update and Remove proposals that the RFC allows. One case is left out: a path secret meant for the member is sealed to a resolution that has a leaf which the same commit adds (the code does not leave new leaves out of the resolution, see C71); that member refuses the commit. So it goes on for any number of such commits, whenever they are processed.", "quantifier": "all groups reached by the API, of any size and shape, all committers and path secrets, all lists of proposals that the rules allow, all sequences of such commits, all randomness and times, all correct primitives", "why_tests_cant": "The test vectors show a few commits of a few groups; that none is refused or misread is about all trees, all blank nodes and unmerged leaves, and all histories.", "anchors": ["group.go: Group.UnmarshalAndProcessMessage, Group.processCommit", "tree.go: ratchetTree.mergeUpdatePath, ratchetTree.decryptPathSecrets, ratchetTree.apply", "proposal.go: verifyProposalList, proposalListNeedsPath", "key_schedule.go: groupContext.extractEpochSecret"]}
{"id": "C120", "title": "Welcomes made as RFC 9420 says can be joined with", "statement": "Whoever is added by a commit and welcomed by the committer as RFC 9420 says, whatever software the committer uses, can join with GroupFromWelcome. The committer signs a group info with the context, the confirmation tag and the tree (and any other extensions), encrypts it under the welcome secret, and seals the joiner secret, with a path secret if the commit has a path, to the init key of every new member. The new member can join at every time at which the new tree is valid, if the path secret is one that the code can use (where it and the committer meet decides this, see C56). It ends in the very epoch that the committer computed: the same tree, group context, interim transcript hash, epoch secret and init secret, no proposals, and a place in the tree that has its own leaf node. It lacks no key that it will need: it follows every course of further commits made as RFC 9420 says (C119).", "quantifier": "all trees and contexts, all commits with additions, all lists of guests, all extensions of the group info, all randomness, all times at which the tree is valid, all later courses of commits of any length, all correct primitives", "why_tests_cant": "The test vectors have a few welcomes for a few trees, and they end with the join; that every such welcome opens, and that no key is missing at any later commit, is about all trees, with all their blank nodes and unmerged leaves, and all futures.", "anchors": ["group.go: GroupFromWelcome, groupFromSecrets", "group.go: Welcome.decryptGroupSecrets, Welcome.decryptGroupInfo", "tree.go: ratchetTree.add, ratchetTree.verifyIntegrity, ratchetTree.findLeaf", "key_schedule.go: extractWelcomeSecret, groupContext.extractEpochSecret"]}
{"id": "C121", "title": "Conversations as RFC 9420 has them are understood", "statement": "A member takes part in every conversation with members that do what RFC 9420 says, whatever software they use. They send application data, encrypted with any generation of their ratchets, any reuse guard, any padding and any authenticated data; they send proposals, in the clear or encrypted; and they commit, with proposals in the commit or by reference to those sent before. UnmarshalAndProcessMessage accepts every message of the conversation, at any time: it returns the application data, and nothing for proposals and commits. In the end the member is in the epoch, with the tree and with the pending proposals, that the others have, and it has its keys. This holds from the moment of joining on, and what CreateApplicationMessage and CreateWelcome return may be part of the conversation. The commits are those of C119.", "quantifier": "all groups reached by the API, all conversations of any length, all data, authenticated data, generations, reuse guards and paddings, all proposals and commits that the rules allow, all randomness and times, all correct primitives", "why_tests_cant": "A test plays one conversation; which messages follow each other, at which generation and with which padding, has no bound.", "anchors": ["group.go: Group.UnmarshalAndProcessMessage, Group.processProposal, Group.processCommit", "framing.go: privateMessage.decryptSenderData, privateMessage.decryptContent, publicMessage.verifyMembershipTag, framedContent", "group.go: Group.CreateApplicationMessage, Group.CreateWelcome", "secret_tree.go: ratchetSecret, deriveSecretTree"]}
{"id": "C122", "title": "Byte slices passed to the library and returned by it belong to the application", "statement": "An application can do what it likes with its byte slices once a call has returned. If it writes into a buffer that it has passed to UnmarshalKeyPackage, UnmarshalWelcome, UnmarshalAndProcessMessage or CreateApplicationMessage, into what KeyPackage.Bytes, GenerateRef, Welcome.Bytes, UnmarshalAndProcessMessage, CreateApplicationMessage or CreateWelcome have returned, or into the private init key of a key pair package that it has used, all later calls give the same results as if the library had made copies. (The property as such, for all slices, is false: a credential keeps the identity, a group keeps the ID, the private encryption and signature keys and a pointer into the key pair package that it was created with, and NewMembers returns slices that belong to the welcome. If these are written, members no longer understand each other, cannot follow commits, or cannot be joined.)", "quantifier": "all sequences of calls, assignments to the fields of key pair packages and writes into byte slices, of any length and in any order, on any number of groups, key packages and welcomes, with all inputs and all randomness, for all primitives", "why_tests_cant": "A test writes into one buffer at one moment; that no later call on any object ever reads a buffer again is a statement about all continuations.", "anchors": ["crypto.go: NewBasicCredential", "key_package.go: GenerateKeyPairPackage, KeyPairPackage, PrivateKeyPackage", "group.go: CreateGroup, GroupFromWelcome, groupFromSecrets, Group.processCommit, Welcome.NewMembers, Group.UnmarshalAndProcessMessage, Group.CreateApplicationMessage, Group.CreateWelcome", "mls.go: readOpaqueVec"]}
{"id": "C123", "title": "Verifying the tree of a welcome takes work in proportion to its size", "statement": "Whoever has a key package can make its owner verify a ratchet tree. For a tree of n bytes, whatever these bytes are and whatever comes of it, verifyIntegrity calls the hash function at most 2(d+4)n times, over at most 286(d+4)n bytes in all, where 2^d is at most n and d at most 30, and verifies at most n signatures. That is at most 68 calls of the hash function for each byte, although the tree hashes of every subtree are computed again for each parent node and the tree may be filled up with blank nodes. The number of steps of the loops and recursive functions has a bound too; it grows with the square of n, as the unmerged leaves of parent nodes are searched once for each unmerged leaf.", "quantifier": "all byte strings that decode as a ratchet tree, all group contexts, all times and all primitives with hashes of the right length, whether or not the tree is accepted", "why_tests_cant": "A test measures some trees; the worst tree for a given number of bytes is not known in advance, and a blow-up may show only in trees that are deep, sparse or rejected late.", "anchors": ["tree.go: ratchetTree.verifyIntegrity, ratchetTree.verifyParentHashes, ratchetTree.computeTreeHash, ratchetTree.resolve, ratchetTree.findParentHash, ratchetTree.supportedCreds, hasUnmergedLeaf, parentNode.computeParentHash, ratchetTree.unmarshal"]}
{"id": "C124", "title": "What processing a message can cost", "statement": "A message that does not come from a member of the group, whatever its bytes, costs at most one verification of a signature; so does an application message. A proposal costs one hash more. A commit with k proposals in a group whose tree has n leaves costs at most k + 2 verifications of signatures, 8(n + k) + 2 calls of the hash function, one HPKE decryption and 31 derivations of key pairs, whether or not it is accepted. The tree hash is computed once for the root and once for each sibling on the path, so an update path costs two passes over the tree and not one for each of its nodes.", "quantifier": "all reachable groups, all byte strings, all times, all correct primitives", "why_tests_cant": "A test measures some messages in some groups; the worst message for a given group is not known in advance, and a commit may be refused at any of many places, each of which has a cost.", "anchors": ["group.go: Group.UnmarshalAndProcessMessage, Group.processPublicMessage, Group.processPrivateMessage, Group.processCommit, Group.processProposal, Group.verifyPublicMessage", "tree.go: ratchetTree.mergeUpdatePath, ratchetTree.decryptPathSecrets, ratchetTree.filteredDirectPath, ratchetTree.computeTreeHash, ratchetTree.apply", "key_package.go: KeyPackage.verify"]}
{"id": "C125", "title": "What joining, inviting and speaking can cost", "statement": "A welcome whose encrypted group info has r bytes, whatever it consists of and whatever comes of it, costs whoever calls GroupFromWelcome at most one HPKE decryption, r + 1 verifications of signatures, 68 r + 2 calls of the hash function and 31 derivations of key pairs; one that is not for the key package costs one call of the hash function. Inviting k key packages in a group whose tree has n leaves costs two signatures, at most k HPKE encryptions and at most 4(n + k) + k calls of the hash function. CreateApplicationMessage makes one signature and calls no hash function, however large the group and the data are.", "quantifier": "all welcomes, key packages, times, reachable groups, lists of key packages, data and random choices; all correct primitives, for joining with an AEAD that opens nothing longer than what it was given", "why_tests_cant": "A test measures some welcomes and some groups. A welcome is made by whoever has a key package, and which of them costs its owner the most is not known in advance; nor is the tree shape for which inviting is dearest.", "anchors": ["group.go: GroupFromWelcome, groupFromSecrets, processPathSecret, Group.CreateWelcome, Group.CreateApplicationMessage, groupInfo.sign, groupSecrets.encrypt, Welcome.decryptGroupSecrets, Welcome.decryptGroupInfo", "tree.go: ratchetTree.verifyIntegrity, ratchetTree.computeRootTreeHash, ratchetTree.apply, nodePrivFromPathSecret", "key_package.go: KeyPackage.GenerateRef"]}
{"id": "C126", "title": "How often the KDF is called for a message, exactly", "statement": "In a group whose tree has n leaves, CreateApplicationMessage calls the KDF exactly 2n + 5 times and makes one signature. A private message of generation g that is accepted costs whoever processes it exactly 2n + 5 + g calls of the KDF and one verification, and one that is refused no more than that; if its sender data do not open, at most three calls and no verification. What a member says costs every member who sees the same group as many calls of the KDF as it cost its sender: the secret tree is derived anew for each message.", "quantifier": "all reachable groups, all data and random choices, all private messages; all prices; all correct primitives", "why_tests_cant": "A test can count the calls for some groups and some messages. That nothing in any message changes the count other than its generation, and that the count is linear in the tree for every tree, is a statement about all of them.", "anchors": ["group.go: Group.CreateApplicationMessage, Group.processPrivateMessage", "secret_tree.go: deriveSecretTree, secretTree.deriveChildren, secretTree.deriveRatchetRoot, ratchetSecret.deriveNext, ratchetSecret.deriveKey, ratchetSecret.deriveNonce", "framing.go: encryptPrivateMessage, privateMessage.decryptSenderData, privateMessage.decryptContent, derivePrivateMessageKeyAndNonce, expandSenderDataKey, expandSenderDataNonce", "ciphersuite.go: cipherSuite.expandWithLabel, cipherSuite.deriveSecret"]}
{"id": "C127", "title": "How long application messages are, exactly", "statement": "An application message that CreateApplicationMessage returns has 43 bytes, and those of the group ID as a vector, and those of the data and the signature as vectors with a tag of 16 bytes as a vector; that is at most 75 bytes more than group ID, data and signature together. It is as long in a large group as in a small one, in every epoch and from every member. For signatures of one length, as those of Ed25519 are, two messages of groups with IDs of one length are equally long exactly if their data are: as the library pads nothing, everyone who sees a message knows the length of the data to the byte. Whatever message is processed, of whoever and however padded: the data that UnmarshalAndProcessMessage returns have at least 18 bytes less than the message.", "quantifier": "all groups, data, random choices, and all AEADs that append 16 bytes; for what is received, all states and byte strings", "why_tests_cant": "A test compares the lengths of some messages. That no group, epoch, sender or data gives another length, and that no two lengths of data give the same, is about all of them.", "anchors": ["group.go: Group.CreateApplicationMessage, Group.encryptPrivateMessage", "framing.go: encryptPrivateMessage, encryptPrivateMessageContent, encryptSenderData, privateMessage.marshal, privateMessageContent.marshal, senderData.marshal, mlsMessage.marshal", "mls.go: writeVarint, writeOpaqueVec"]}
{"id": "C128", "title": "How long invitations are", "statement": "The commit that CreateWelcome returns has a length that is determined by those of the group ID, of the signature and of the invited key packages; with signatures of one length, inviting the same people takes a commit of the same length in a large group as in a small one. The welcome is longer than the encoded ratchet tree of the group with the invited in it, and longer by at most 262 bytes, the group ID, the extensions of the group, a signature, and 156 bytes and an init key for each who is invited.", "quantifier": "all groups, lists of key packages and random choices; all correct primitives whose AEADs append 16 bytes, for the welcome with an HPKE that adds no more than a public key and 16 bytes", "why_tests_cant": "A test compares invitations into some groups. That nothing else in the group, such as the number of its members, its parent nodes or its history, adds to the commit, is about all groups.", "anchors": ["group.go: Group.CreateWelcome, Group.encryptPrivateMessage, groupInfo.encrypt, groupInfo.marshal, groupSecrets.encrypt, groupSecrets.marshal, Welcome.Bytes, Welcome.marshal, commit.marshal", "proposal.go: proposal.marshal, proposalOrRef.marshal", "tree.go: ratchetTree.marshal"]}
