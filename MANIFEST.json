{
 "claims": [
  {
   "property": "C01",
   "status": "proved",
   "theorems": [
    "Mls.C01_roundtrip",
    "Mls.C01_refused",
    "Mls.C01_rfc"
   ],
   "note": "All 32-bit lengths."
  },
  {
   "property": "C02",
   "status": "proved",
   "theorems": [
    "Mls.C02_canonical",
    "Mls.C02_unique",
    "Mls.C02_prefix3"
   ],
   "note": "Against the RFC form Spec.varint."
  },
  {
   "property": "C03",
   "status": "proved",
   "theorems": [
    "Mls.C03_roundtrip",
    "Mls.C03_refused",
    "Mls.C03_canonical"
   ],
   "note": ""
  },
  {
   "property": "C04",
   "status": "proved",
   "theorems": [
    "Mls.C04_roundtrip",
    "Mls.C04_injective"
   ],
   "note": ""
  },
  {
   "property": "C05",
   "status": "partial",
   "theorems": [
    "Mls.C05_partial",
    "Mls.C05_partial_signed",
    "Mls.C05_refuted",
    "Mls.C05_refuted_unique",
    "Mls.Full.C05_false"
   ],
   "note": "The full statement is false in the code (key_package.go:74-76 returns a nil error when the signature cannot be read); C05_refuted gives the witness, C05_partial characterises every accepted input. The full statement is the definition Mls.Full.C05; Mls.Full.C05_false proves that it does not hold."
  },
  {
   "property": "C06",
   "status": "proved",
   "theorems": [
    "Mls.C06_roundtrip"
   ],
   "note": ""
  },
  {
   "property": "C07",
   "status": "proved",
   "theorems": [
    "Mls.C07_canonical"
   ],
   "note": ""
  },
  {
   "property": "C08",
   "status": "proved",
   "theorems": [
    "Mls.C08_total"
   ],
   "note": ""
  },
  {
   "property": "C09",
   "status": "proved",
   "theorems": [
    "Mls.C09_excess",
    "Mls.C09_keyPackage_header",
    "Mls.C09_welcome_header",
    "Mls.C09_refused"
   ],
   "note": ""
  },
  {
   "property": "C10",
   "status": "proved",
   "theorems": [
    "Mls.C10_roundtrip",
    "Mls.C10_wf",
    "Mls.C10_inner",
    "Mls.C10_authenticated"
   ],
   "note": ""
  },
  {
   "property": "C11",
   "status": "partial",
   "theorems": [
    "Mls.C11_partial",
    "Mls.C11_partial_opaque",
    "Mls.C11_refuted",
    "Mls.Full.C11_false"
   ],
   "note": "False for unsigned key packages and group infos (same bug as C05 and group.go:915-917). The full statement is the definition Mls.Full.C11; Mls.Full.C11_false proves that it does not hold."
  },
  {
   "property": "C12",
   "status": "proved",
   "theorems": [
    "Mls.C12_tbs",
    "Mls.C12_accepted_once",
    "Mls.C12_membership"
   ],
   "note": "Injectivity of the signed encoding is unconditional; acceptance-level statement under the ideal-signature hypothesis Prims.SigBinding, which toyPrims meets."
  },
  {
   "property": "C13",
   "status": "proved",
   "theorems": [
    "Mls.C13_sign",
    "Mls.C13_encrypt",
    "Mls.C13_refHash",
    "Mls.C13_kdf",
    "Mls.C13_labels_distinct",
    "Mls.C13_purpose"
   ],
   "note": ""
  },
  {
   "property": "C14",
   "status": "proved",
   "theorems": [
    "Mls.C14_leaf",
    "Mls.C14_keyPackage",
    "Mls.C14_groupInfo",
    "Mls.C14_leaf_accepted_once"
   ],
   "note": ""
  },
  {
   "property": "C15",
   "status": "proved",
   "theorems": [
    "Mls.C15_leaf_node",
    "Mls.C15_node_leaf",
    "Mls.C15_leaf_alias",
    "Mls.C15_width",
    "Mls.C15_width_inv",
    "Mls.C15_root"
   ],
   "note": "All indices and sizes up to 2^31 leaves; indices of 2^31 or more alias smaller ones (C15_leaf_alias)."
  },
  {
   "property": "C16",
   "status": "proved",
   "theorems": [
    "Mls.C16_edge",
    "Mls.C16_has_parent",
    "Mls.C16_root",
    "Mls.C16_leaf"
   ],
   "note": "Complete trees of every depth up to 31 against an inductively defined in-order tree."
  },
  {
   "property": "C17",
   "status": "proved",
   "theorems": [
    "Mls.C17_direct_path",
    "Mls.C17_outside_never_ends"
   ],
   "note": "Both halves: in-tree nodes give the proper ancestors; outside nodes exhaust any number of iterations."
  },
  {
   "property": "C18",
   "status": "proved",
   "theorems": [
    "Mls.C18_copath_partition"
   ],
   "note": "The leaf followed by the leaves of the copath subtrees is a duplicate-free permutation of the leaves."
  },
  {
   "property": "C19",
   "status": "proved",
   "theorems": [
    "Mls.C19_common_ancestor"
   ],
   "note": "For all nodes, not only leaves."
  },
  {
   "property": "C20",
   "status": "proved",
   "theorems": [
    "Mls.C20_shape",
    "Mls.C20_trees",
    "Mls.C20_groups"
   ],
   "note": "For every sequence of operations that returns, on any heap and any tree of the right shape; no bound on indices or number of operations. The trees of the right shape are exactly the arrays of the recursive specification. C20_groups: the tree of every group reached from CreateGroup or GroupFromWelcome."
  },
  {
   "property": "C21",
   "status": "proved",
   "theorems": [
    "Mls.C21_add",
    "Mls.C21_add_refines",
    "Mls.C21_members",
    "Mls.C21_full_hang"
   ],
   "note": "Every tree with room; when 2^31 leaves are all taken the Go loop never ends (C21_full_hang)."
  },
  {
   "property": "C22",
   "status": "proved",
   "theorems": [
    "Mls.C22_remove",
    "Mls.C22_outside"
   ],
   "note": "Every tree and every index in the tree; an index outside panics (C22_outside)."
  },
  {
   "property": "C23",
   "status": "proved",
   "theorems": [
    "Mls.C23_update",
    "Mls.C23_outside"
   ],
   "note": "Every tree, index and leaf; an index outside panics (C23_outside)."
  },
  {
   "property": "C24",
   "status": "proved",
   "theorems": [
    "Mls.C21_add",
    "Mls.C21_add_refines"
   ],
   "note": "Part of the description of add: ancestors that are not blank, and no other node, get the index appended."
  },
  {
   "property": "C25",
   "status": "proved",
   "theorems": [
    "Mls.C25_apply",
    "Mls.C25_order"
   ],
   "note": "Every list of proposals and every tree: exactly the specification's updates, removes, adds; panic and endless loop characterised."
  },
  {
   "property": "C26",
   "status": "partial",
   "theorems": [
    "Mls.C26_nodes",
    "Mls.C26_roundtrip",
    "Mls.C26_roundtrip_only",
    "Mls.C26_decoded_length",
    "Mls.C26_safe",
    "Mls.C26_kinds_refuted",
    "Mls.Full.C26_partial",
    "Mls.Full.C26_false"
   ],
   "note": "The round trip is proved for every complete tree with a node at the root or in the right half, and the condition is shown necessary. False part: decoding checks the length only, a parent node at a leaf position is accepted (C26_kinds_refuted). The full statement is the definition Mls.Full.C26; Mls.Full.C26_false proves that it does not hold."
  },
  {
   "property": "C27",
   "status": "proved",
   "theorems": [
    "Mls.C27_resolution",
    "Mls.C27_empty",
    "Mls.C27_members",
    "Mls.C27_nonblank",
    "Mls.C27_cover"
   ],
   "note": "Every complete tree of at most 2^31 leaves and every node of it."
  },
  {
   "property": "C28",
   "status": "proved",
   "theorems": [
    "Mls.C28_tree_hash",
    "Mls.C28_binding",
    "Mls.C28_arrays"
   ],
   "note": "Every pair of complete trees, of any two sizes. The collision is among the inputs hashed in the two computations. Assumes Prims.Correct for the length of hashes."
  },
  {
   "property": "C29",
   "status": "proved",
   "theorems": [
    "Mls.C29_integrity",
    "Mls.C29_join"
   ],
   "note": "Full equivalence between verifyIntegrity and the independent specification Spec.TreeValid, and its consequence for joined groups."
  },
  {
   "property": "C30",
   "status": "partial",
   "theorems": [
    "Mls.C30_supported_partial",
    "Mls.C30_join_partial",
    "Mls.C30_refuted",
    "Mls.Full.C30_false"
   ],
   "note": "False when a member lists a credential type twice (C30_refuted): types are counted with repetitions. Proved when no member does. The full statement is the definition Mls.Full.C30; Mls.Full.C30_false proves that it does not hold."
  },
  {
   "property": "C31",
   "status": "proved",
   "theorems": [
    "Mls.C31_merge",
    "Mls.C31_refines"
   ],
   "note": "Every well-formed tree, every leaf in it and every path. C31_refines: accepted exactly when the independent recursive merge accepts, with the same result, and no node allocated before changes."
  },
  {
   "property": "C32",
   "status": "proved",
   "theorems": [
    "Mls.C32_rules",
    "Mls.C32_total",
    "Mls.C32_order"
   ],
   "note": ""
  },
  {
   "property": "C33",
   "status": "proved",
   "theorems": [
    "Mls.C33_needs_path",
    "Mls.C33_commit"
   ],
   "note": ""
  },
  {
   "property": "C34",
   "status": "partial",
   "theorems": [
    "Mls.C34_partial",
    "Mls.C34_refuted",
    "Mls.Full.C34_false"
   ],
   "note": "False in general: leaf indices 2^31 apart name the same position (the node index wraps). C34_refuted is a witness; C34_partial is the property for indices below 2^31. The full statement is the definition Mls.Full.C34; Mls.Full.C34_false proves that it does not hold."
  },
  {
   "property": "C35",
   "status": "proved",
   "theorems": [
    "Mls.C35_secret_tree",
    "Mls.C35_leaf_secret"
   ],
   "note": "Every depth up to 31, i.e. every complete tree whose indices fit 32 bits."
  },
  {
   "property": "C36",
   "status": "proved",
   "theorems": [
    "Mls.C36_fast_forward",
    "Mls.C36_steps",
    "Mls.C36_key_nonce"
   ],
   "note": "Against the RFC's generation-indexed secrets Spec.ratchet."
  },
  {
   "property": "C37",
   "status": "proved",
   "theorems": [
    "Mls.C37_nonces",
    "Mls.C37_defined"
   ],
   "note": ""
  },
  {
   "property": "C38",
   "status": "proved",
   "theorems": [
    "Mls.C38_chain",
    "Mls.C38_none",
    "Mls.C38_mismatch",
    "Mls.C38_bound"
   ],
   "note": "Up to 65535 PSKs; beyond that the code truncates index and count to 16 bits."
  },
  {
   "property": "C39",
   "status": "proved",
   "theorems": [
    "Mls.C39_history"
   ],
   "note": "Every pair of histories of messages (accepted, refused) and invitations. The collision is among what is hashed for the two transcripts. Assumes Prims.Correct for the length of hashes."
  },
  {
   "property": "C40",
   "status": "proved",
   "theorems": [
    "Mls.C40_lifetime",
    "Mls.C40_clock_needed"
   ],
   "note": "C40_clock_needed shows the lower bound on the clock cannot be dropped."
  },
  {
   "property": "C41",
   "status": "proved",
   "theorems": [
    "Mls.C41_table",
    "Mls.C41_known",
    "Mls.C41_supported",
    "Mls.C41_supported_known",
    "Mls.C41_panic_mac",
    "Mls.C41_panic_keygen",
    "Mls.C41_panic_derive",
    "Mls.C41_sign_fine",
    "Mls.C41_verify_fine",
    "Mls.C41_edwards",
    "Mls.C41_unreadable",
    "Mls.C41_derive_key_pair",
    "Mls.C41_named",
    "Mls.C41_names"
   ],
   "note": "Suites 4, 5, 6 are in the table but unsupported; C41_derive_key_pair shows deriving a key pair panics exactly on those. C41_verify_fine is for public keys that can be read; with Ed25519 and Ed448 all can (C41_edwards), with ECDSA one that is no point of the curve panics (C41_unreadable, see C80). C41_named and C41_names: names list the algorithms of the table, and differ."
  },
  {
   "property": "C42",
   "status": "proved",
   "theorems": [
    "Mls.C42_refused"
   ],
   "note": ""
  },
  {
   "property": "C43",
   "status": "partial",
   "theorems": [
    "Mls.C43_partial",
    "Mls.C43_refuted",
    "Mls.C43_tree_hash",
    "Mls.C43_own_groups",
    "Mls.Full.C43_false"
   ],
   "note": "False in general: a refused commit that adds a member can leave its mark in unmerged-leaf lists shared with the live tree. C43_refuted is a witness, C43_partial says this is the only possible change, C43_own_groups that it never happens in groups without parent nodes. The full statement is the definition Mls.Full.C43; Mls.Full.C43_false proves that it does not hold."
  },
  {
   "property": "C44",
   "status": "proved",
   "theorems": [
    "Mls.C44_message",
    "Mls.C44_history"
   ],
   "note": ""
  },
  {
   "property": "C45",
   "status": "proved",
   "theorems": [
    "Mls.C45_replay",
    "Mls.C45_history"
   ],
   "note": ""
  },
  {
   "property": "C46",
   "status": "proved",
   "theorems": [
    "Mls.C46_delivery"
   ],
   "note": "For every payload for which CreateApplicationMessage returns a message, every pair of members in the same epoch state, all randomness. Assumes Prims.Correct (decryption undoes encryption, generated signature keys verify)."
  },
  {
   "property": "C47",
   "status": "partial",
   "theorems": [
    "Mls.C47_partial",
    "Mls.C47_own_leaf",
    "Mls.C47_history",
    "Mls.C47_refuted",
    "Mls.Full.C47_false"
   ],
   "note": "False for sender indices from 2^31 on, which alias smaller ones (C47_refuted); C47_partial is the property with the aliasing made explicit. The full statement is the definition Mls.Full.C47; Mls.Full.C47_false proves that it does not hold."
  },
  {
   "property": "C48",
   "status": "partial",
   "theorems": [
    "Mls.C48_partial",
    "Mls.C48_tag_ignored",
    "Mls.C48_refuted",
    "Mls.Full.C48_false"
   ],
   "note": "False for processing a commit: the confirmation tag is never checked there (C48_tag_ignored, for every commit; C48_refuted, a witness). C48_partial: joining from a welcome does check it. The full statement is the definition Mls.Full.C48; Mls.Full.C48_false proves that it does not hold."
  },
  {
   "property": "C49",
   "status": "partial",
   "theorems": [
    "Mls.C49_partial",
    "Mls.C49_outsider",
    "Mls.C49_refuted",
    "Mls.C49_remove",
    "Mls.C49_alias",
    "Mls.Full.C49_false"
   ],
   "note": "False: a public message naming a leaf outside the tree panics before any check (C49_outsider, for every state; C49_refuted, a witness), an authentic commit removing a leaf outside the tree panics (C49_remove), and so do a committer that removes itself under an index that wraps (C49_alias) and, with ECDSA, keys that cannot be read (C80). C49_partial: for every reachable group with a supported suite and fewer than 2^31 nodes, every byte string that names no such leaf (sender inside the tree, authenticated commits remove members only) makes the call return, with neither panic nor endless loop, when the keys of members and of added key packages can be read (always with Ed25519). Assumes Prims.Correct. The full statement is the definition Mls.Full.C49; Mls.Full.C49_false proves that it does not hold."
  },
  {
   "property": "C50",
   "status": "partial",
   "theorems": [
    "Mls.C50_partial",
    "Mls.C50_snug",
    "Mls.C50_members",
    "Mls.C50_refuted",
    "Mls.Full.C50_false"
   ],
   "note": "Any two of: another member that agreed with the inviter and accepts the message, the inviter if its tree had no parent nodes, and whoever joins from the welcome with the right private key, end with the same tree, group context, transcript hash, epoch and init secret, unless the tree an invitee reads or the reference of its key package is a hash collision (pinned to the inputs); when the inviter's tree is no larger than needed (C77), collisions of tree hashes do not matter (C50_snug). Assumes key packages of version 1, the only one the library parses. False for an inviter with a parent node above the new leaf (C50_refuted): CreateWelcome changes the shared node and the commit appends the leaf once more. The full statement is the definition Mls.Full.C50; Mls.Full.C50_false proves that it does not hold."
  },
  {
   "property": "C51",
   "status": "partial",
   "theorems": [
    "Mls.C51_partial",
    "Mls.C51_refuted",
    "Mls.C43_own_groups",
    "Mls.Full.C51_false"
   ],
   "note": "False in general for the same reason as C43. The full statement is the definition Mls.Full.C51; Mls.Full.C51_false proves that it does not hold."
  },
  {
   "property": "C52",
   "status": "proved",
   "theorems": [
    "Mls.C52_created",
    "Mls.C52_secrets",
    "Mls.C52_total",
    "Mls.C52_transcript"
   ],
   "note": ""
  },
  {
   "property": "C53",
   "status": "proved",
   "theorems": [
    "Mls.C53_pending",
    "Mls.C53_commit"
   ],
   "note": ""
  },
  {
   "property": "C54",
   "status": "partial",
   "theorems": [
    "Mls.C54_partial",
    "Mls.C54_extensions",
    "Mls.C54_psk",
    "Mls.C54_refuted",
    "Mls.Full.C54_false"
   ],
   "note": "False: PreSharedKey, GroupContextExtensions and ReInit proposals are accepted without effect (C54_refuted, a reachable group; C54_extensions and C54_psk for every group). Proved: Adds, Updates, Removes and the path take effect as prescribed. The full statement is the definition Mls.Full.C54; Mls.Full.C54_false proves that it does not hold."
  },
  {
   "property": "C55",
   "status": "partial",
   "theorems": [
    "Mls.C55_partial",
    "Mls.C55_noAdd",
    "Mls.C55_refuted",
    "Mls.Full.C55_false"
   ],
   "note": "False as stated: if an Add of the same commit reuses the removed member's slot with a leaf of the same encryption key, the removed member follows into the new epoch (C55_refuted, a reachable group). Proved for every reachable group and every commit: it can only follow if an Add of the same commit takes its slot; without Adds it always refuses and its group is unchanged. The full statement is the definition Mls.Full.C55; Mls.Full.C55_false proves that it does not hold."
  },
  {
   "property": "C56",
   "status": "partial",
   "theorems": [
    "Mls.C56_partial",
    "Mls.C56_exact",
    "Mls.C56_quarter",
    "Mls.C56_refuted",
    "Mls.C56_panic",
    "Mls.Full.C56_false"
   ],
   "note": "False: above the common ancestor the code compares every key with the first derived path secret. C56_quarter: no welcome with a path secret is accepted when joiner and inviter are in the same quarter of the tree; C56_refuted and C56_panic: reachable groups with honest welcomes refused or panicking. C56_exact says exactly when the path secret is accepted; C56_partial proves the claim when joiner and inviter meet at the root or at a child of it. The full statement is the definition Mls.Full.C56; Mls.Full.C56_false proves that it does not hold."
  },
  {
   "property": "C57",
   "status": "proved",
   "theorems": [
    "Mls.C57_find",
    "Mls.C57_find_none",
    "Mls.C57_listed",
    "Mls.C57_others",
    "Mls.C57_joined"
   ],
   "note": ""
  },
  {
   "property": "C58",
   "status": "proved",
   "theorems": [
    "Mls.C58_valid",
    "Mls.C58_leaf",
    "Mls.C58_serial",
    "Mls.C58_lifetime"
   ],
   "note": ""
  },
  {
   "property": "C59",
   "status": "proved",
   "theorems": [
    "Mls.C59_verify",
    "Mls.C59_commit"
   ],
   "note": ""
  },
  {
   "property": "C60",
   "status": "proved",
   "theorems": [
    "Mls.C60_proposal",
    "Mls.C60_refused"
   ],
   "note": ""
  },
  {
   "property": "C61",
   "status": "proved",
   "theorems": [
    "Mls.C61_zero_padding",
    "Mls.C61_other_padding",
    "Mls.C61_accepted"
   ],
   "note": ""
  },
  {
   "property": "C62",
   "status": "proved",
   "theorems": [
    "Mls.C62_received",
    "Mls.C62_sent_application",
    "Mls.C62_sent_commit"
   ],
   "note": "Receiving is an equivalence; sender leaf indices are taken modulo 2^31 as the code does (see C47). Sending: the two ways the API sends."
  },
  {
   "property": "C63",
   "status": "partial",
   "theorems": [
    "Mls.C63_refuted",
    "Mls.C52_transcript",
    "Mls.Full.C63_partial",
    "Mls.Full.C63_false"
   ],
   "note": "False for every created group (C63_refuted); C52_transcript says what the code does instead. The full statement is the definition Mls.Full.C63; Mls.Full.C63_false proves that it does not hold."
  },
  {
   "property": "C64",
   "status": "partial",
   "theorems": [
    "Mls.C64_refuted",
    "Mls.C26_roundtrip",
    "Mls.Full.C64_false",
    "Mls.Full.C64_partial"
   ],
   "note": "False: blanks at the end of the vector are accepted (C64_refuted). The full statement is the definition Mls.Full.C64; Mls.Full.C64_false proves that it does not hold."
  },
  {
   "property": "C65",
   "status": "partial",
   "theorems": [
    "Mls.C65_refuted",
    "Mls.C65_partial",
    "Mls.Full.C65_false"
   ],
   "note": "False: the condition on the unmerged leaves is not checked (C65_refuted). Proved: each parent node is linked by parent hash to exactly one child. The full statement is the definition Mls.Full.C65; Mls.Full.C65_false proves that it does not hold."
  },
  {
   "property": "C66",
   "status": "partial",
   "theorems": [
    "Mls.C66_refuted",
    "Mls.C66_partial",
    "Mls.Full.C66_false"
   ],
   "note": "False: an unmerged leaf may be blank (C66_refuted). Proved: it is a leaf position below its parent and recorded on the nodes between. The full statement is the definition Mls.Full.C66; Mls.Full.C66_false proves that it does not hold."
  },
  {
   "property": "C67",
   "status": "partial",
   "theorems": [
    "Mls.C67_refuted",
    "Mls.C67_keys_refuted",
    "Mls.C67_partial",
    "Mls.Full.C67_false"
   ],
   "note": "False for Add proposals: the leaf node of a key package is not verified and its keys may be those of a member. Proved for the leaf node of an update path. The full statement is the definition Mls.Full.C67; Mls.Full.C67_false proves that it does not hold."
  },
  {
   "property": "C68",
   "status": "proved",
   "theorems": [
    "Mls.C68_keys",
    "Mls.C68_opens"
   ],
   "note": "By induction over every history of accepted and refused messages and invitations, from CreateGroup or any accepted welcome. Hypothesis: the primitives are correct."
  },
  {
   "property": "C69",
   "status": "proved",
   "theorems": [
    "Mls.C69_epoch"
   ],
   "note": "Every reachable group and accepted commit, against the independent specification in Spec/Commit.lean. The confirmation tag is not checked by the code (C48)."
  },
  {
   "property": "C70",
   "status": "proved",
   "theorems": [
    "Mls.C70_agree",
    "Mls.C70_history"
   ],
   "note": "Every two reachable groups with the same view and every sequence of messages both accept, whoever sent them. The exception is a pair of different path secrets with the same public key that the two members decrypt from one of the messages."
  },
  {
   "property": "C71",
   "status": "partial",
   "theorems": [
    "Mls.C71_partial",
    "Mls.C71_history_partial",
    "Mls.C71_apart",
    "Mls.C71_refuted",
    "Mls.Full.C71_false"
   ],
   "note": "False: the leaves that a commit adds are not left out when a receiver looks for its ciphertext, so whoever has an added leaf in the resolution on its side refuses every honest commit with a path (C71_apart: no one ever accepts one; C71_refuted: three members, one accepts, one refuses). C71_partial and C71_history_partial prove the claim for members that have no added leaf on their side (Apart). Assumes Prims.Correct. The full statement is the definition Mls.Full.C71; Mls.Full.C71_false proves that it does not hold."
  },
  {
   "property": "C72",
   "status": "partial",
   "theorems": [
    "Mls.C72_partial",
    "Mls.C72_invited",
    "Mls.C72_signer",
    "Mls.C72_refuted",
    "Mls.C72_honest",
    "Mls.Full.C72_false"
   ],
   "note": "False: a welcome whose signer is outside its tree panics before anything is authenticated (C72_signer for every such welcome, C72_refuted a witness), so does one whose tree has an ECDSA key that cannot be read (C80), and so does an honest one with a path secret when a node between joiner and inviter is blank (C72_honest). C72_partial: GroupFromWelcome returns for every welcome whose decrypted tree has leaves and parents in their places, unmerged leaves and signer inside, keys that can be read, and with a path secret no blank above both joiner and signer. C72_invited: it returns for every welcome made by CreateWelcome in any reachable group in which the inviter still has its leaf and the keys of members and invited can be read. The exact condition is C109. Assumes Prims.Correct. The full statement is the definition Mls.Full.C72; Mls.Full.C72_false proves that it does not hold."
  },
  {
   "property": "C73",
   "status": "partial",
   "theorems": [
    "Mls.C73_partial",
    "Mls.C73_application",
    "Mls.C73_empty",
    "Mls.C73_suite",
    "Mls.Full.C73_false"
   ],
   "note": "C73_application: CreateApplicationMessage returns in every reachable group. C73_partial: so does CreateWelcome, for non-empty lists of at most 2^30 key packages of known suites, in a tree with room. False otherwise: it panics for the empty list (C73_empty, every state) and for a key package of an unknown suite (C73_suite). Assumes Prims.Correct. The full statement is the definition Mls.Full.C73; Mls.Full.C73_false proves that it does not hold."
  },
  {
   "property": "C74",
   "status": "proved",
   "theorems": [
    "Mls.C74_history",
    "Mls.C74_commit",
    "Mls.C74_fresh",
    "Mls.C74_other",
    "Mls.C74_create",
    "Mls.C74_join",
    "Mls.C74_checked"
   ],
   "note": "By induction over every history of accepted messages, from a created group or an accepted welcome whose unmerged leaves are members (the code does not check this, C66_refuted). The exception is Foreseen: an update path with a parent hash that was computed from itself. Accepted messages only: refused commits and CreateWelcome change shared nodes on the side of the one who calls (C43, C51)."
  },
  {
   "property": "C75",
   "status": "partial",
   "theorems": [
    "Mls.C75_join",
    "Mls.C75_made",
    "Mls.C75_keeps",
    "Mls.C75_stays",
    "Mls.C75_closed",
    "Mls.C75_refuted",
    "Mls.Full.C75_false",
    "Mls.Full.C75_partial"
   ],
   "note": "False: the lifetimes of all key packages in the tree are checked when joining, and the library makes no commits that renew or remove a leaf, so once the key package of one member has expired nobody can join any more (C75_closed, for every group with commits such as CreateWelcome makes; C75_refuted, a reachable group whose members all accept the invitation that the invited must refuse). The full statement is the definition Mls.Full.C75; Mls.Full.C75_false proves that it does not hold."
  },
  {
   "property": "C76",
   "status": "proved",
   "theorems": [
    "Mls.C76_admission",
    "Mls.C77_refuted"
   ],
   "note": "An equivalence with Spec.TreeValid (RFC 9420 section 12.4.3.1, the specification C29 is stated with) of the tree with the leaves added (section 12.1.1). The hypothesis that the tree is no larger than needed is C77 and cannot be dropped (C77_refuted: someone let in with a padded tree invites nobody). Assumes Prims.Correct."
  },
  {
   "property": "C77",
   "status": "partial",
   "theorems": [
    "Mls.C77_create",
    "Mls.C77_message",
    "Mls.C77_history",
    "Mls.C77_created",
    "Mls.C77_sent",
    "Mls.C77_refuted",
    "Mls.Full.C77_partial",
    "Mls.Full.C77_false"
   ],
   "note": "Proved for created groups, through every history of accepted messages and invitations, and for joined ones from any tree that is no larger than needed. False for joined groups in general: a tree with blanks at the end is accepted, and then all invitations by that member fail (C77_refuted). The full statement is the definition Mls.Full.C77; Mls.Full.C77_false proves that it does not hold."
  },
  {
   "property": "C78",
   "status": "partial",
   "theorems": [
    "Mls.C78_follows",
    "Mls.C78_together",
    "Mls.C78_refuted",
    "Mls.Full.C78_false",
    "Mls.Full.C78_partial"
   ],
   "note": "False: CreateWelcome does not check key packages, and with an invalid one the invited joins a group whose other members, the inviter included, refuse the commit (C78_refuted). C78_follows: an equivalence; for valid key packages with distinct signature keys every member in the same epoch follows, to the same view (C78_together). For members whose own leaf has the key they sign with. Assumes Prims.Correct. The full statement is the definition Mls.Full.C78; Mls.Full.C78_false proves that it does not hold."
  },
  {
   "property": "C79",
   "status": "proved",
   "theorems": [
    "Mls.C79_invite",
    "Mls.C79_together",
    "Mls.C79_speak",
    "Mls.C79_unchanged"
   ],
   "note": "By induction over Spec.Library, all histories of members that only call this library. 'Fresh' is that all encryption keys and all signature keys of members and invited are different, that init and encryption key of a package differ, and that no two references collide. That joining needs the lifetimes of all members is an equivalence (see C75). That the calls of the inviter return is C73; these theorems are about the invitations that were returned. Assumes Prims.Correct."
  },
  {
   "property": "C80",
   "status": "partial",
   "theorems": [
    "Mls.C80_join",
    "Mls.C80_create",
    "Mls.C80_message",
    "Mls.C80_invite",
    "Mls.C80_outsider",
    "Mls.C80_welcome",
    "Mls.C80_refuted",
    "Mls.C80_add",
    "Mls.C80_receiver",
    "Mls.Full.C80_false",
    "Mls.Full.C80_partial"
   ],
   "note": "False: with ECDSA a key that is no point of the curve makes Verify panic instead of return false. Adding such a key package panics (C80_add), a welcome with such a signer panics before anything is authenticated, even for receivers whose own suite is Ed25519 (C80_welcome for every such welcome, C80_receiver a witness), and an Update proposal, whose leaf node is never verified, brings one in, after which an outsider who knows group id and epoch makes the others panic (C80_outsider, C80_refuted). What holds: whoever joins gets readable keys only (C80_join), and no message but an Update proposal that is committed brings in others (C80_message). Assumes Prims.Correct; that the Go call panics on nil coordinates is read from crypto/ecdsa, which is not in /repo. The full statement is the definition Mls.Full.C80; Mls.Full.C80_false proves that it does not hold."
  },
  {
   "property": "C81",
   "status": "partial",
   "theorems": [
    "Mls.C81_exact",
    "Mls.C81_apart",
    "Mls.C81_same",
    "Mls.C81_leak",
    "Mls.Full.C81_false",
    "Mls.Full.C81_partial"
   ],
   "note": "False: CreateApplicationMessage always uses generation 0 of the ratchet, so all application messages of a member in an epoch have the same key, and the same nonce whenever two random 32-bit reuse guards agree (C81_same, for every reachable group and whatever happens in between); then an observer learns the difference of the payloads (C81_leak, for AEADs that are stream ciphers; Mls.Conformance.realPrims_stream shows it of AES-GCM and ChaCha20-Poly1305 as implemented for the test vectors). What holds: messages of different members, ratchets or generations have different keys unless two key derivations of the epoch collide (C81_apart, the collision pinned to the derivations made). C81_exact: for any two messages of an epoch, application messages or commits made by CreateWelcome, key and nonce coincide exactly when member, kind and reuse guard do, up to such a collision; so two invitations made in one epoch share the key too. Assumes Prims.Correct. The full statement is the definition Mls.Full.C81; Mls.Full.C81_false proves that it does not hold."
  },
  {
   "property": "C82",
   "status": "proved",
   "theorems": [
    "Mls.C82_application",
    "Mls.C82_invite"
   ],
   "note": "Stated for ideal encryption (Spec.Hiding: what is sealed depends on the length of the plaintext and the additional data only): the outputs of any two calls, in any states, are equal byte for byte when the public data and the lengths agree. That ideal encryption needs nonces that do not repeat is the subject of C81."
  },
  {
   "property": "C83",
   "status": "proved",
   "theorems": [
    "Mls.C83_message",
    "Mls.C83_welcome",
    "Mls.C83_package",
    "Mls.C83_added",
    "Mls.C83_member"
   ],
   "note": "Unforgeability is the hypothesis Spec.Unforgeable: whatever verifies under the public key was signed with the private key in one of the given calls, where a call signs a message if it returns and would not if that signature could not be made. The sender's leaf is found modulo 2^31 as in C47. For welcomes the nodes and members are exactly those sent; the size of the array may differ if the inviter's is larger than needed and the tree hash collides (pinned). Confirmation tags are not signed and not checked in commits (C48), and messages can be read again (C45): the claim is about content, not about how often it arrives. Assumes Prims.Correct."
  },
  {
   "property": "C84",
   "status": "proved",
   "theorems": [
    "Mls.C84_members",
    "Mls.C84_receive",
    "Mls.C84_invite",
    "Mls.C84_agree",
    "Mls.C84_returns"
   ],
   "note": "The world is Spec.Held (states) and Spec.Careful (what people do); unforgeability as in C83. Careful also asks that no group lasts 2^64 epochs: the counter wraps around (C44). Receptions and invitations that panic end a history; C84_returns says that none does, but for messages that name a sender outside the tree (C49_outsider), in supported suites, while there is room in the tree. toyCareful shows three people with two invitations and a message meeting all hypotheses. What C84 does not claim: that messages arrive only once (C45), or that members stay together when two invite in the same epoch. Assumes Prims.Correct."
  },
  {
   "property": "C85",
   "status": "proved",
   "theorems": [
    "Mls.C85_apart",
    "Mls.C85_deaf",
    "Mls.C85_concurrent"
   ],
   "note": "C85_apart: for any two histories whose first commits differ. C85_deaf: nothing is accepted from someone who uses their key with this library only and only in contexts of the other side (unforgeability as in C83). C85_concurrent: two invitations in one epoch lead there. The collision is pinned to what was hashed for the two transcripts. Histories have fewer than 2^64 messages, because epochs wrap around. toyFork is a concrete case. Assumes Prims.Correct."
  },
  {
   "property": "C86",
   "status": "partial",
   "theorems": [
    "Mls.C86_partial",
    "Mls.C86_sender",
    "Mls.C86_change",
    "Mls.C86_refuted",
    "Mls.Full.C86_false"
   ],
   "note": "False: the same data from any two members leads to the same result and the same state (C86_sender, for every group; C86_refuted, a witness with two different members), and commits and proposals all return nothing (C86_change). C86_partial: the caller learns whether a message was application data, and the data. The sender is authenticated (C47, C83), but not reported. The full statement is the definition Mls.Full.C86; Mls.Full.C86_false proves that it does not hold."
  },
  {
   "property": "C87",
   "status": "partial",
   "theorems": [
    "Mls.C87_partial",
    "Mls.C87_forgotten",
    "Mls.C87_kept",
    "Mls.C87_refuted",
    "Mls.Full.C87_false"
   ],
   "note": "C87_forgotten: the epoch secret and PSK secret leave no trace. False for private keys: processCommit copies all of them, so those of nodes that a commit blanks are kept (C87_kept, for every reachable group and every message; C87_refuted, a member that holds a key of a node the tree no longer has). C87_partial: with created groups, welcomes without path secret and commits without path, which is all this library makes, the only key held is that of the member's leaf. Within an epoch nothing is forgotten (C45). C87_kept assumes Prims.Correct. The full statement is the definition Mls.Full.C87; Mls.Full.C87_false proves that it does not hold."
  },
  {
   "property": "C88",
   "status": "proved",
   "theorems": [
    "Mls.C88_welcome",
    "Mls.C88_joined",
    "Mls.C88_application"
   ],
   "note": "Non-interference: equality of the outputs for any two states that agree on what may matter. No assumption about the primitives; that init and epoch secrets are derived with one-way functions is not expressed."
  },
  {
   "property": "C89",
   "status": "partial",
   "theorems": [
    "Mls.C89_partial",
    "Mls.C89_decodes",
    "Mls.C89_joining",
    "Mls.C89_decrypted",
    "Mls.C89_refuted",
    "Mls.C89_eight_bytes",
    "Mls.C89_many",
    "Mls.Full.C89_false"
   ],
   "note": "False: readOpaqueVec calls make with the length it has read before it knows whether the input is that long, so any size below 2^30 is asked for by a message of eight bytes (C89_eight_bytes), and because KeyPackage.unmarshal returns a nil error when the signature cannot be read, a commit of 28 + 26 m bytes asks for m times 2^30 - 1 bytes and decodes without an error (C89_many). C89_partial: the bound that holds for every input, and the claim itself for private messages and Welcomes that decode. Only the make of readOpaqueVec is counted: the slices that hold decoded elements grow by a constant for each element read. C89_decodes: the counting decoder is the decoder. C89_decrypted: the same bound for what is decoded out of a private message. The full statement is the definition Mls.Full.C89; Mls.Full.C89_false proves that it does not hold."
  },
  {
   "property": "C90",
   "status": "partial",
   "theorems": [
    "Mls.C90_partial",
    "Mls.C90_refuted",
    "Mls.C90_count",
    "Mls.C90_prefix",
    "Mls.C90_invite",
    "Mls.Full.C90_false"
   ],
   "note": "False: the loop of group.go:364-371 (\"TODO: limit number of iterations\") steps the ratchet as often as the sender data say (C90_count), and they are 32 bits that any member may choose: for each application message of a member and each g there is a message of the same length, differing only in its encrypted sender data, for which every member in the same view makes g steps before the content is opened or its signature verified (C90_refuted). Proved instead: fewer than 2^32 steps; none unless the message is a private one for the member's own group and epoch whose sender data open under that epoch's key (C90_partial); none for the application messages and commits that the library itself makes (C90_refuted, C90_invite). C90_prefix says that what is counted is the beginning of processPrivateMessage. The full statement is the definition Mls.Full.C90; Mls.Full.C90_false proves that it does not hold."
  },
  {
   "property": "C91",
   "status": "proved",
   "theorems": [
    "Mls.C91_replay",
    "Mls.C91_order",
    "Mls.C91_early",
    "Mls.C91_grows"
   ],
   "note": "Observational: Spec.Indistinguishable says that every sequence of calls gives the same answers. C91_replay: for every history between the first delivery and the second (fewer than 2^64 commits, so that the epoch has not come round). C91_order: for every permutation; the hypothesis excludes two proposals among the messages whose encodings differ and whose references are equal, a collision of the hash function. C91_grows says what replays do cost: the list of pending proposals grows by one entry for each, and nothing bounds it within an epoch."
  },
  {
   "property": "C92",
   "status": "partial",
   "theorems": [
    "Mls.C92_partial",
    "Mls.C92_fixed",
    "Mls.C92_refuted",
    "Mls.Full.C92_false"
   ],
   "note": "False: required_capabilities is never read (tree.go:412, TODO), so GroupFromWelcome accepts a group that requires and uses extensions its own key package does not list, and members that do not list them can be added (C92_refuted). C92_partial: in groups whose members use this library only the context has no extensions. C92_fixed: what is required never changes, for every history. The full statement is the definition Mls.Full.C92; Mls.Full.C92_false proves that it does not hold."
  },
  {
   "property": "C93",
   "status": "proved",
   "theorems": [
    "Mls.C93_forward"
   ],
   "note": "A reduction: no hypothesis about the AEAD or the MAC; the alternatives name the forged part of the message itself (sender data or content, under the key and nonce of the epoch for it), or the membership tag it carries, or a collision of the epoch's key derivations (Spec.MessageCollision of C81). The calls are any set of calls by members that are in the epoch."
  },
  {
   "property": "C94",
   "status": "proved",
   "theorems": [
    "Mls.C94_message",
    "Mls.C94_join",
    "Mls.C94_window"
   ],
   "note": "C94_message: an equation for every state (reachable or not), message and pair of times; update paths carry a leaf of source commit, which has no lifetime, and the lifetimes of added key packages are not looked at. C94_join and C94_window: the clock time.Now() is the parameter now of the model; a zero time, which only the tests of the repository pass, skips the check. Which times these are: C40. Assumes Prims.Correct for the joins."
  },
  {
   "property": "C95",
   "status": "proved",
   "theorems": [
    "Mls.C95_keyPackage",
    "Mls.C95_generated",
    "Mls.C95_welcome",
    "Mls.C95_created"
   ],
   "note": "The bound on the lengths of keys and signatures in C95_created (130 bytes together) is met by those of every suite; CreateWelcome does not check them, and for shorter ones nothing is claimed. Lengths of real HPKE ciphertexts: Conformance.realHpke_length; C95_created assumes them and Prims.Correct. C95_generated says exactly when Bytes returns: the signature must be shorter than 2^30 bytes."
  },
  {
   "property": "C96",
   "status": "proved",
   "theorems": [
    "Mls.C96_entries",
    "Mls.C96_alone",
    "Mls.C96_others",
    "Mls.C96_order",
    "Mls.C96_first"
   ],
   "note": "No assumption on the primitives. Equations between whole results, errors and panics included."
  },
  {
   "property": "C97",
   "status": "proved",
   "theorems": [
    "Mls.C97_no_path",
    "Mls.C97_stays",
    "Mls.C97_join",
    "Mls.C97_keys",
    "Mls.C97_crash"
   ],
   "note": "C97_crash: the concrete case, a group of suite 4 that is created, joined and used, and a commit with a path that ends the receiver's program (DeriveKeyPair of circl panics on a seed of the wrong size, ciphersuite.go:279, C41_derive_key_pair). Assumes Prims.Correct."
  },
  {
   "property": "C98",
   "status": "partial",
   "theorems": [
    "Mls.C98_partial",
    "Mls.C98_welcome",
    "Mls.C98_refuted",
    "Mls.Full.C98_false"
   ],
   "note": "False: CreateWelcome takes key packages of any suite, and groupFromSecrets compares the suite of the group with that of the welcome (the error says 'key package'), so the owner of a valid key package of suite 1 comes into a group of suite 3 (C98_refuted). C98_partial: it holds for creators, and for joiners whenever one member, the inviter included, has accepted the commit of the invitation, and it stays so. Assumes Prims.Correct. The full statement is the definition Mls.Full.C98; Mls.Full.C98_false proves that it does not hold."
  },
  {
   "property": "C99",
   "status": "proved",
   "theorems": [
    "Mls.C99_what",
    "Mls.C99_one",
    "Mls.C99_travels",
    "Mls.C99_welcome"
   ],
   "note": "Collisions are explicit: two different inputs with one hash. Assumes Prims.Correct (only that a hash has the length of its algorithm)."
  },
  {
   "property": "C100",
   "status": "partial",
   "theorems": [
    "Mls.C100_partial",
    "Mls.C100_refuted",
    "Mls.Full.C100_false"
   ],
   "note": "False: UnmarshalKeyPackage accepts any cipher suite, and CipherSuite.hash panics on an unknown one (ciphersuite.go:74-80); the field is not exported, so a caller cannot check it first. C100_partial gives the exact outcome for every key package that was read: it panics exactly for unknown suites with an encoding shorter than 2^30 bytes. The full statement is the definition Mls.Full.C100; Mls.Full.C100_false proves that it does not hold."
  },
  {
   "property": "C101",
   "status": "proved",
   "theorems": [
    "Mls.C101_writes",
    "Mls.C101_bytes",
    "Mls.C101_reads",
    "Mls.C101_unmarshal",
    "Mls.C101_inside",
    "Mls.C101_tree",
    "Mls.C101_tree_reads"
   ],
   "note": "The structures are transcribed from the RFC in Spec/Rfc.lean, which uses the data types of the model but none of its encoders. That a credential of another type than basic and x509 has no encoding is a restriction of the code that the specification shares. Reading: what is accepted with missing signatures is the subject of C05 and C11."
  },
  {
   "property": "C102",
   "status": "proved",
   "theorems": [
    "Mls.C102_verified",
    "Mls.C102_signed",
    "Mls.C102_references",
    "Mls.C102_membership",
    "Mls.C102_transcript",
    "Mls.C102_tree_hash",
    "Mls.C102_parent_hash",
    "Mls.C102_schedule",
    "Mls.C102_contexts"
   ],
   "note": "No assumption on the primitives, except Prims.Correct for C102_tree_hash (only that hashes have the length of their algorithm)."
  },
  {
   "property": "C103",
   "status": "proved",
   "theorems": [
    "Mls.C103_still",
    "Mls.C103_outcome",
    "Mls.C103_accepts",
    "Mls.C103_between"
   ],
   "note": "The readings are arbitrary, also such that go back. No assumption on the primitives."
  },
  {
   "property": "C104",
   "status": "partial",
   "theorems": [
    "Mls.C104_partial",
    "Mls.C104_invite",
    "Mls.C104_backup",
    "Mls.C104_tree",
    "Mls.C104_diverges",
    "Mls.C104_pending",
    "Mls.Full.C104_false"
   ],
   "note": "False as stated: ratchetTree.copy and the copy of the struct share the parent nodes, and an Add appends to their unmerged leaves, so a commit with an Add that one of the two follows changes the tree of the other (C104_tree), which then comes to another epoch with the same commit (C104_diverges); the array of pending proposals is shared as well (C104_pending). Proved for all such worlds: the group that is called answers as if it were alone, and the others keep everything but what Spec.Left allows: leaves appended to unmerged leaves, and one pending proposal overwritten; without an Add the tree is the same (C104_partial); an invitation leaves the pending proposals as well (C104_invite); a copy that is kept and not used keeps keys, context and pending proposals whatever becomes of the original (C104_backup). Assumes Prims.Correct. The full statement is the definition Mls.Full.C104; Mls.Full.C104_false proves that it does not hold."
  },
  {
   "property": "C105",
   "status": "proved",
   "theorems": [
    "Mls.C105_accepted",
    "Mls.C105_commit",
    "Mls.toyThree_commitOk"
   ],
   "note": "As an equivalence with a specification over the structures of RFC 9420 (Spec.PublicOk, Spec.PrivateOk, Spec.ContentOk, Spec.CommitOk, Spec.PathOk, Spec.PathReadable). What the code asks differs from what the RFC asks where other claims say so: sender indices modulo 2^31 (C47), no check of the confirmation tag, and the path is read with the first key held on the resolution (C71)."
  },
  {
   "property": "C106",
   "status": "proved",
   "theorems": [
    "Mls.C106_joins",
    "Mls.toyWelcome_ok"
   ],
   "note": "As an equivalence with Spec.WelcomeOk, over the structures and the key schedule of RFC 9420. Where the code asks for something else than the RFC, the specification says so: signer indices are taken modulo 2^31, and all nodes above the lowest common one must have the key of one and the same path secret (Spec.SecretFits; C56)."
  },
  {
   "property": "C107",
   "status": "proved",
   "theorems": [
    "Mls.C107_application",
    "Mls.C107_invitation",
    "Mls.C107_creation",
    "Mls.C107_room",
    "Mls.shortPrims_correct",
    "Mls.shortPrims_overhead"
   ],
   "note": "Equivalences with functions over the structures of RFC 9420. C107_application gives the error too; of CreateWelcome only success is characterised here (failures and the panic on unknown credentials are C73)."
  },
  {
   "property": "C108",
   "status": "proved",
   "theorems": [
    "Mls.C108_crash",
    "Mls.C108_endless",
    "Mls.C108_edwards",
    "Mls.commitCrash_edwards",
    "Mls.badPoint_edwards"
   ],
   "note": "Sharpens C49: the exact conditions for panic and for not returning, over the ratchet trees and structures of RFC 9420. The suites 4, 5 and 6, for which Supported is false (C41), are excluded by the hypothesis."
  },
  {
   "property": "C109",
   "status": "proved",
   "theorems": [
    "Mls.C109_panics",
    "Mls.C109_returns"
   ],
   "note": "An equivalence with Spec.WelcomeCrash; sharpens C72. The hypotheses are on the own key package only: its suite is in the table and its credential of a known type, as of every one that GenerateKeyPairPackage makes or that is read from bytes. Assumes Prims.Correct; that the Go call panics on nil coordinates is read from crypto/ecdsa, which is not in /repo."
  },
  {
   "property": "C110",
   "status": "proved",
   "theorems": [
    "Mls.C110_public",
    "Mls.C110_delivered",
    "Mls.C110_exporter",
    "Mls.C110_exported",
    "Mls.C110_confirmation",
    "Mls.C110_single"
   ],
   "note": "sendPublicly composes the modelled functions as group.go:658-665, 699 and 740-741 would; the constant public is false in the code, so this is about code that is not reached. Uses Spec.Rfc.publicly and Spec.Rfc.exporter. C110_delivered, C110_exported and C110_confirmation assume Prims.Correct; a reference of the proposal has to exist for it to be put on the list, which fails only for contents that cannot be encoded."
  },
  {
   "property": "C111",
   "status": "proved",
   "theorems": [
    "Mls.C111_generation",
    "Mls.C111_creation",
    "Mls.C111_invitation"
   ],
   "note": "Equivalences with Spec.Rfc.keyPairPackage and Spec.InviteCrash; sharpens C73 and, with C107, says of every outcome of these calls when it occurs. The hypothesis on credentials holds for NewBasicCredential and for everything read from bytes. C111_creation and C111_invitation assume Prims.Correct."
  },
  {
   "property": "C112",
   "status": "proved",
   "theorems": [
    "Mls.C112_message",
    "Mls.C112_invitation"
   ],
   "note": "Spec.leftBehind on the tree of Spec.applyProposals, for exactly the commits of Spec.Checked (C108); sharpens C43 and C51 from `only unmerged leaves` to the exact tree. C112_changed is a reachable state and a refused commit with which the tree does change. Of a call that panics or never returns nothing is said."
  },
  {
   "property": "C113",
   "status": "proved",
   "theorems": [
    "Mls.C113_process",
    "Mls.C113_determined",
    "Mls.C113_view",
    "Mls.C113_run"
   ],
   "note": "Spec.Processed gives, for every message, time and history, the one answer and the one state of knowledge (tree, context, secrets, private keys, pending proposals) that follow: C105, C108 and C112 put together, with the new epoch of a commit written out after RFC 9420 sections 7, 8 and 12.4. C113_view: how the tree is laid out in memory never shows; C113_run lifts it to lists of messages by induction. Said of groups with a supported suite; C97 is about the others."
  },
  {
   "property": "C114",
   "status": "proved",
   "theorems": [
    "Mls.C114_created",
    "Mls.C114_joined"
   ],
   "note": "Both are equivalences that give the whole state of knowledge (Spec.View) after CreateGroup and GroupFromWelcome; Spec.JoinKeys says of every node whether the joiner has its private key and which, and determines them (Spec.JoinKeys.unique). Which welcomes are accepted is C106."
  },
  {
   "property": "C115",
   "status": "proved",
   "theorems": [
    "Mls.C115_step",
    "Mls.C115_session",
    "Mls.C115_life"
   ],
   "note": "C107, C111, C112, C113 and C114 put together: Spec.Starts, Spec.Step and Spec.Session are a machine over Spec.View, and C115_life says that it allows a start, a list of calls and a list of results exactly if they are what the model does; by induction over the list. Said of supported suites (C97 is about the others), and of invited key packages with credentials of known types, the only ones that can be read."
  },
  {
   "property": "C116",
   "status": "proved",
   "theorems": [
    "Mls.C116_reads",
    "Mls.C116_run",
    "Mls.C116_library",
    "Mls.C116_shut_out",
    "Mls.C116_heals"
   ],
   "note": "Non-interference of the private keys (C116_reads, C116_run by induction over the messages) and, with C79, its consequence for groups of this library. C116_shut_out and C116_heals: by the invariant on the keys held and the form of resolutions, the key that a follower uses is never on the path of the sender. About what the functions of the library do with such a state; that there is no other way to the secrets is the security of the primitives, which is not expressed."
  },
  {
   "property": "C117",
   "status": "proved",
   "theorems": [
    "Mls.C117_leaf",
    "Mls.C117_supported",
    "Mls.C117_join",
    "Mls.C117_keyPackage"
   ],
   "note": "The comment at tree.go:94 (all unknown values here must be ignored), as non-interference: two leaf nodes, trees or key packages that differ in unknown values only are both accepted or both refused. The signatures, tree hashes and parent hashes are of the bytes and differ; that they are in order is a hypothesis for both sides. Known credential types are counted with repetitions (C30), hence the equal counts in Spec.SameKnown. That unknown values can be read at all is C04 and C101. C117_join assumes Prims.Correct."
  },
  {
   "property": "C118",
   "status": "proved",
   "theorems": [
    "Mls.C118_generate",
    "Mls.C118_create",
    "Mls.C118_invite",
    "Mls.C118_speak",
    "Mls.C118_grow",
    "Mls.C118_example"
   ],
   "note": "Spec.Bounded is the assumption on the primitives: generated keys work, and keys, signatures, KEM outputs and what sealing adds have at most z bytes (256 do for the suites of RFC 9420); Prims.Correct as elsewhere. The allowance for a member is Spec.weight: the name, 8z and 1024 bytes. The room asked for is sufficient, not exact; C107 says exactly when a call succeeds. That keys and key package references are not alike is a hypothesis (Spec.OwnKeys, Spec.OwnRefs), as for C79. C118_example follows group_test.go:288-336."
  },
  {
   "property": "C119",
   "status": "proved",
   "theorems": [
    "Mls.C119_content",
    "Mls.C119_followed",
    "Mls.C119_refused",
    "Mls.C119_course"
   ],
   "note": "Spec.Rfc.makeCommit and Spec.Rfc.commitMessage say how RFC 9420 has a committer make a commit (sections 7.4 to 7.6, 8, 12.4.1): path secrets, a key pair for every node of the filtered direct path, the parent hashes, the signed leaf, the path secrets sealed for the copath under the provisional context, signature, confirmation tag, framing; they do not use the code's own commit functions (which make no paths). Spec.Rfc.Ruled is what the RFC and the code ask of the proposals. C119_content is about the content, C119_followed about the bytes of the message (a PublicMessage, or a PrivateMessage of any generation with any reuse guard and padding, with any authenticated data), C119_refused about the case left out, C119_course about any number of commits in a row with the proposals inside them. Only Add, Update and Remove proposals. Prims.Correct and Keyed as for C71; where there is a path the KEM's seed has the length of the KDF's output, which is what CipherSuite.Supported asks (C97 is about the other suites), and no leaf that the commit adds is in the resolution on the receiver's side."
  },
  {
   "property": "C120",
   "status": "proved",
   "theorems": [
    "Mls.C120_joins",
    "Mls.C120_entered",
    "Mls.C120_provided",
    "Mls.C120_keyed",
    "Mls.C120_life",
    "Mls.C120_added"
   ],
   "note": "Spec.Rfc.makeWelcome says how RFC 9420 has a committer make a welcome (section 12.4.3.1); it does not use the code's CreateWelcome, and Spec.Rfc.makeCommit (C119) gives the epoch. C120_joins: such a welcome is joined with. C120_entered: the joiner secret of a commit leads to the epoch that the commit starts. C120_provided: who is added is an unmerged leaf of every node above that it gets no key for. C120_life: with this, what the joiner holds is enough for every course of commits as in C119. C120_added puts these together. The path secret has to be one that the code can use (Spec.SecretFits, C56: it is not when committer and joiner meet further down), the tree has to be valid, no PSKs are used, and no two guests may have the same reference. Concrete cases: two guests with path secrets who join and follow two commits; one guest of a commit without a path."
  },
  {
   "property": "C121",
   "status": "proved",
   "theorems": [
    "Mls.C121_read",
    "Mls.C121_application",
    "Mls.C121_proposal",
    "Mls.C121_talk",
    "Mls.C121_guest",
    "Mls.C121_sends_data",
    "Mls.C121_sends_invitation"
   ],
   "note": "Spec.Rfc.compose and Spec.Rfc.enclose say how RFC 9420 has a member sign and frame a message (section 6), with the choices that the code never makes when it sends: any generation, any padding, any authenticated data, proposals on their own. C121_read: the message is read as what was signed. C121_application, C121_proposal: its effect; C119_followed is the same for commits. C121_talk: any conversation, by induction on it; commits may refer to proposals sent before. C121_guest: the same for who joins as in C120. C121_sends_data, C121_sends_invitation: what CreateApplicationMessage and CreateWelcome return are such messages, so members that use the library may speak as well. The rest is as for C119: Prims.Correct, Keyed, and no new leaf in the resolution on the receiver's side."
  },
  {
   "property": "C122",
   "status": "partial",
   "theorems": [
    "Mls.C122_partial",
    "Mls.C122_objects",
    "Mls.C122_case",
    "Mls.C122_id_kept",
    "Mls.C122_signature_key_kept",
    "Mls.C122_encryption_key_kept",
    "Mls.C122_identity_kept",
    "Mls.C122_pair_kept",
    "Mls.C122_references_kept",
    "Mls.Full.C122_false"
   ],
   "note": "Model/Buffers adds the arrays behind byte slices to the model: objects keep slices where the code does, calls are those of the rest of the model. Spec.Own is the API with values, and with a record of what is lent, from the calls alone. C122_partial: for any sequence of calls, field assignments and writes that leave alone what is lent, all results are those of Spec.Own; C122_objects: so are the objects in the end. C122_case: init keys wiped and message buffers used again. The other theorems show for each kind of lent slice that it has to be lent: writing it makes a later call fail that otherwise succeeds. The full statement is the definition Mls.Full.C122; Mls.Full.C122_false proves that it does not hold."
  },
  {
   "property": "C123",
   "status": "proved",
   "theorems": [
    "Mls.C123_same",
    "Mls.C123_work",
    "Mls.C123_hashes",
    "Mls.C123_bytes",
    "Mls.C123_signatures"
   ],
   "note": "Model/Effort repeats the text of verifyIntegrity and its callees in a monad that adds up costs, under any price list; C123_same: forgetting the cost is Model/Tree. C123_work: the cost for any prices, for any bytes that decode as a tree, accepted or not; the others are for one price at a time. That verifyIntegrity does not loop forever on such trees is part of integrity_panic (Props/JoinCrash)."
  },
  {
   "property": "C124",
   "status": "proved",
   "theorems": [
    "Mls.C124_same",
    "Mls.C124_work",
    "Mls.C124_stranger",
    "Mls.C124_decryptions",
    "Mls.C124_keyPairs",
    "Mls.C124_signatures",
    "Mls.C124_hashes"
   ],
   "note": "Model/CommitEffort repeats the text of UnmarshalAndProcessMessage and its callees with costs; C124_same: forgetting the cost is Model/Group. C124_work: the cost at any prices for hashes, signatures, decryptions and key pairs, for any bytes, accepted or not; the others are for one price at a time. Bytes hashed and steps of loops are not counted here, nor are KDF, MAC and AEAD calls (C90 counts the ratchet steps)."
  },
  {
   "property": "C125",
   "status": "proved",
   "theorems": [
    "Mls.C125_same",
    "Mls.C125_join",
    "Mls.C125_unaddressed",
    "Mls.C125_invite",
    "Mls.C125_speak",
    "Mls.C125_real"
   ],
   "note": "Model/JoinEffort repeats the text of GroupFromWelcome, CreateWelcome and CreateApplicationMessage with costs; C125_same: forgetting the cost is Model/Group. C125_join and C125_unaddressed: at any prices, for any welcome; the assumption that an AEAD opens nothing longer than its input holds of the AEADs of the cipher suites (C125_real). C125_invite, C125_speak: the senders. Bytes hashed and steps of loops are not counted here, nor are KDF, MAC and AEAD calls."
  },
  {
   "property": "C126",
   "status": "proved",
   "theorems": [
    "Mls.C126_same",
    "Mls.C126_say",
    "Mls.C126_hear",
    "Mls.C126_stranger",
    "Mls.C126_listen",
    "Mls.C126_conversation"
   ],
   "note": "Model/TalkEffort repeats the text of CreateApplicationMessage and of processPrivateMessage with the calls of expandWithLabel counted; C126_same: forgetting the count is Model/Group. C126_say, C126_hear: exact if the call succeeds, an upper bound if it does not. C126_listen: the same through UnmarshalAndProcessMessage. C126_conversation: what a reachable member says has generation 0, so that it costs the listener as much as the speaker. A KDF call is a call of expandWithLabel; the HKDF steps inside it are not counted, nor are AEAD calls."
  },
  {
   "property": "C127",
   "status": "proved",
   "theorems": [
    "Mls.C127_length",
    "Mls.C127_fixed",
    "Mls.C127_shows",
    "Mls.C127_overhead",
    "Mls.C127_receive",
    "Mls.C127_real"
   ],
   "note": "C127_receive: for AEADs that give back no more than they are given, which C125_real shows of those in Conformance. C127_length: for any signature; C127_fixed and C127_shows: for a scheme whose signatures have one length. C127_real: the assumptions hold of the AEADs and of Ed25519 as implemented in Conformance. ECDSA signatures vary in length, so for suites 2 and 7 only C127_length applies."
  },
  {
   "property": "C128",
   "status": "proved",
   "theorems": [
    "Mls.C128_commit",
    "Mls.C128_flat",
    "Mls.C128_welcome",
    "Mls.C128_real"
   ],
   "note": "C128_commit is exact, C128_flat follows from it for signatures of one length. C128_welcome bounds the welcome from both sides by the encoded tree; the key packages need not be of the suite of the group. C128_real with C127_real and realPrims_correct: the assumptions hold of the primitives in Conformance."
  }
 ]
}