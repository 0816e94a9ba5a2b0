# Axioms

What `#print axioms` reports for every theorem named in MANIFEST.json (512 theorems).

## No axioms

`C13_labels_distinct`, `C40_clock_needed`

## propext

`C41_table`, `C41_edwards`, `C41_named`

## propext, Classical.choice, Quot.sound

`C01_roundtrip`, `C02_canonical`, `C02_unique`, `C02_prefix3`, `C03_roundtrip`, `C03_canonical`, `C04_roundtrip`, `C04_injective`, `C05_partial`, `C05_partial_signed`, `C06_roundtrip`, `C07_canonical`, `C08_total`, `C09_excess`, `C09_refused`, `C10_roundtrip`, `C10_wf`, `C10_inner`, `C10_authenticated`, `C11_partial`, `C11_partial_opaque`, `C12_tbs`, `C12_accepted_once`, `C12_membership`, `C13_sign`, `C13_encrypt`, `C13_refHash`, `C13_kdf`, `C13_purpose`, `C14_leaf`, `C14_keyPackage`, `C14_groupInfo`, `C14_leaf_accepted_once`, `C15_leaf_node`, `C15_node_leaf`, `C15_root`, `C16_edge`, `C16_has_parent`, `C16_root`, `C16_leaf`, `C17_direct_path`, `C17_outside_never_ends`, `C18_copath_partition`, `C19_common_ancestor`, `C20_shape`, `C20_trees`, `C20_groups`, `C21_add`, `C21_add_refines`, `C21_members`, `C21_full_hang`, `C22_remove`, `C23_update`, `C25_apply`, `C25_order`, `C26_nodes`, `C26_roundtrip`, `C26_roundtrip_only`, `C26_decoded_length`, `C26_safe`, `Full.C26_partial`, `C27_resolution`, `C27_empty`, `C27_members`, `C27_nonblank`, `C27_cover`, `C28_tree_hash`, `C28_binding`, `C28_arrays`, `C29_integrity`, `C29_join`, `C30_supported_partial`, `C30_join_partial`, `C31_merge`, `C31_refines`, `C32_rules`, `C32_order`, `C34_partial`, `C35_secret_tree`, `C35_leaf_secret`, `C36_fast_forward`, `C36_steps`, `C36_key_nonce`, `C37_defined`, `C38_chain`, `C38_bound`, `C39_history`, `C40_lifetime`, `C41_known`, `C41_supported`, `C41_supported_known`, `C41_panic_mac`, `C41_panic_keygen`, `C41_panic_derive`, `C41_sign_fine`, `C41_verify_fine`, `C41_derive_key_pair`, `C41_names`, `C43_partial`, `C43_own_groups`, `C44_message`, `C44_history`, `C45_replay`, `C45_history`, `C46_delivery`, `C47_partial`, `C47_own_leaf`, `C47_history`, `Full.C47_false`, `C48_partial`, `C48_refuted`, `Full.C48_false`, `C49_partial`, `C50_partial`, `C50_snug`, `C50_members`, `C51_partial`, `C52_secrets`, `C52_total`, `C52_transcript`, `C53_pending`, `C53_commit`, `C54_partial`, `C54_extensions`, `C54_psk`, `C55_partial`, `C55_noAdd`, `C56_partial`, `C56_exact`, `C56_quarter`, `C56_refuted`, `C56_panic`, `Full.C56_false`, `C57_find`, `C58_valid`, `C58_leaf`, `C58_serial`, `C58_lifetime`, `C59_verify`, `C60_proposal`, `C60_refused`, `C61_zero_padding`, `C61_other_padding`, `C61_accepted`, `C62_received`, `C62_sent_application`, `C62_sent_commit`, `C63_refuted`, `Full.C63_partial`, `Full.C63_false`, `C64_refuted`, `Full.C64_false`, `Full.C64_partial`, `C65_refuted`, `C65_partial`, `Full.C65_false`, `C66_partial`, `C67_refuted`, `C67_partial`, `Full.C67_false`, `C68_keys`, `C68_opens`, `C69_epoch`, `C70_agree`, `C70_history`, `C71_partial`, `C71_history_partial`, `C71_apart`, `C71_refuted`, `Full.C71_false`, `C72_partial`, `C72_invited`, `C72_signer`, `C72_honest`, `C73_partial`, `C73_application`, `C74_history`, `C74_commit`, `C74_fresh`, `C74_create`, `C74_join`, `C74_checked`, `C75_join`, `C75_made`, `C75_keeps`, `C75_stays`, `C75_closed`, `Full.C75_partial`, `C76_admission`, `C77_refuted`, `C77_message`, `C77_history`, `C77_created`, `C77_sent`, `Full.C77_partial`, `Full.C77_false`, `C78_follows`, `C78_together`, `Full.C78_partial`, `C79_invite`, `C79_together`, `C79_speak`, `C79_unchanged`, `C80_join`, `C80_create`, `C80_message`, `C80_welcome`, `C80_add`, `Full.C80_partial`, `C81_exact`, `C81_apart`, `C81_same`, `C81_leak`, `Full.C81_false`, `Full.C81_partial`, `C82_application`, `C82_invite`, `C83_message`, `C83_welcome`, `C83_package`, `C83_added`, `C83_member`, `C84_members`, `C84_receive`, `C84_invite`, `C84_agree`, `C84_returns`, `C85_apart`, `C85_deaf`, `C85_concurrent`, `C86_partial`, `C86_sender`, `C86_change`, `C87_partial`, `C87_kept`, `C89_partial`, `C89_joining`, `C89_decrypted`, `C89_refuted`, `C89_eight_bytes`, `C89_many`, `Full.C89_false`, `C90_partial`, `C90_refuted`, `C90_count`, `C90_invite`, `Full.C90_false`, `C91_replay`, `C91_order`, `C91_grows`, `C92_partial`, `C92_fixed`, `C93_forward`, `C94_join`, `C94_window`, `C95_keyPackage`, `C95_generated`, `C95_welcome`, `C95_created`, `C96_entries`, `C96_alone`, `C96_others`, `C96_order`, `C96_first`, `C97_no_path`, `C97_stays`, `C97_join`, `C97_keys`, `C98_partial`, `C99_what`, `C99_one`, `C99_travels`, `C99_welcome`, `C100_partial`, `C100_refuted`, `Full.C100_false`, `C101_writes`, `C101_bytes`, `C101_reads`, `C101_unmarshal`, `C101_inside`, `C101_tree`, `C101_tree_reads`, `C102_verified`, `C102_signed`, `C102_references`, `C102_membership`, `C102_transcript`, `C102_tree_hash`, `C102_schedule`, `C102_contexts`, `C103_accepts`, `C103_between`, `C104_partial`, `C104_invite`, `C104_backup`, `C105_accepted`, `C105_commit`, `toyThree_commitOk`, `C106_joins`, `toyWelcome_ok`, `C107_application`, `C107_invitation`, `C107_creation`, `C107_room`, `shortPrims_correct`, `C108_crash`, `C108_endless`, `C108_edwards`, `commitCrash_edwards`, `badPoint_edwards`, `C109_panics`, `C109_returns`, `C110_public`, `C110_delivered`, `C110_exporter`, `C110_exported`, `C110_single`, `C111_generation`, `C111_creation`, `C111_invitation`, `C112_message`, `C112_invitation`, `C113_process`, `C113_determined`, `C113_view`, `C113_run`, `C114_created`, `C114_joined`, `C115_step`, `C115_session`, `C115_life`, `C116_reads`, `C116_run`, `C116_library`, `C116_shut_out`, `C116_heals`, `C117_leaf`, `C117_supported`, `C117_join`, `C117_keyPackage`, `C118_generate`, `C118_create`, `C118_invite`, `C118_speak`, `C118_grow`, `C118_example`, `C119_content`, `C119_followed`, `C119_refused`, `C119_course`, `C120_joins`, `C120_entered`, `C120_provided`, `C120_keyed`, `C120_life`, `C120_added`, `C121_read`, `C121_application`, `C121_proposal`, `C121_talk`, `C121_guest`, `C121_sends_data`, `C121_sends_invitation`, `C122_partial`, `C122_objects`, `C122_case`, `C123_work`, `C123_hashes`, `C123_bytes`, `C123_signatures`, `C124_work`, `C124_stranger`, `C124_decryptions`, `C124_keyPairs`, `C124_signatures`, `C124_hashes`, `C125_join`, `C125_invite`, `C126_say`, `C126_hear`, `C126_listen`, `C126_conversation`, `C127_length`, `C127_fixed`, `C127_shows`, `C127_overhead`, `C127_receive`, `C128_commit`, `C128_flat`, `C128_welcome`, `C128_real`

## propext, Quot.sound

`C01_refused`, `C01_rfc`, `C03_refused`, `C05_refuted`, `C05_refuted_unique`, `Full.C05_false`, `C09_keyPackage_header`, `C09_welcome_header`, `C11_refuted`, `Full.C11_false`, `C15_leaf_alias`, `C15_width`, `C15_width_inv`, `C22_outside`, `C23_outside`, `C26_kinds_refuted`, `Full.C26_false`, `C30_refuted`, `Full.C30_false`, `C32_total`, `C33_needs_path`, `C33_commit`, `C34_refuted`, `Full.C34_false`, `C37_nonces`, `C38_none`, `C38_mismatch`, `C41_unreadable`, `C42_refused`, `C43_refuted`, `C43_tree_hash`, `Full.C43_false`, `C47_refuted`, `C48_tag_ignored`, `C49_outsider`, `C49_refuted`, `C49_remove`, `C49_alias`, `Full.C49_false`, `C50_refuted`, `Full.C50_false`, `C51_refuted`, `Full.C51_false`, `C52_created`, `C54_refuted`, `Full.C54_false`, `C55_refuted`, `Full.C55_false`, `C57_find_none`, `C57_listed`, `C57_others`, `C57_joined`, `C59_commit`, `C66_refuted`, `Full.C66_false`, `C67_keys_refuted`, `C72_refuted`, `Full.C72_false`, `C73_empty`, `C73_suite`, `Full.C73_false`, `C74_other`, `C75_refuted`, `Full.C75_false`, `C77_create`, `C78_refuted`, `Full.C78_false`, `C80_invite`, `C80_outsider`, `C80_refuted`, `C80_receiver`, `Full.C80_false`, `C86_refuted`, `Full.C86_false`, `C87_forgotten`, `C87_refuted`, `Full.C87_false`, `C88_welcome`, `C88_joined`, `C88_application`, `C89_decodes`, `C90_prefix`, `C91_early`, `C92_refuted`, `Full.C92_false`, `C94_message`, `C97_crash`, `C98_welcome`, `C98_refuted`, `Full.C98_false`, `C102_parent_hash`, `C103_still`, `C103_outcome`, `C104_tree`, `C104_diverges`, `C104_pending`, `Full.C104_false`, `shortPrims_overhead`, `C110_confirmation`, `C122_id_kept`, `C122_signature_key_kept`, `C122_encryption_key_kept`, `C122_identity_kept`, `C122_pair_kept`, `C122_references_kept`, `Full.C122_false`, `C123_same`, `C124_same`, `C125_same`, `C125_unaddressed`, `C125_speak`, `C125_real`, `C126_same`, `C126_stranger`, `C127_real`
