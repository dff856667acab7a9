{
 "claims": [
  {
   "property": "C01",
   "status": "proved",
   "theorems": [
    "Ccnpy.C01_tlv_roundtrip"
   ],
   "note": ""
  },
  {
   "property": "C02",
   "status": "proved",
   "theorems": [
    "Ccnpy.C02_truncated_rejected"
   ],
   "note": ""
  },
  {
   "property": "C03",
   "status": "proved",
   "theorems": [
    "Ccnpy.C03_oversize_never_truncated"
   ],
   "note": ""
  },
  {
   "property": "C04",
   "status": "proved",
   "theorems": [
    "Ccnpy.C04_parse_lossless",
    "Ccnpy.C04_same_tlv_same_bytes"
   ],
   "note": ""
  },
  {
   "property": "C05",
   "status": "proved",
   "theorems": [
    "Ccnpy.C05_concat_decodes",
    "Ccnpy.C05_concat_injective"
   ],
   "note": ""
  },
  {
   "property": "C06",
   "status": "proved",
   "theorems": [
    "Ccnpy.C06_varint_roundtrip",
    "Ccnpy.C06_varint_injective",
    "Ccnpy.C06_varint_shortest",
    "Ccnpy.C06_varint_wraps",
    "Ccnpy.C06_varint_negative"
   ],
   "note": ""
  },
  {
   "property": "C07",
   "status": "proved",
   "theorems": [
    "Ccnpy.C07_uint16",
    "Ccnpy.C07_uint24",
    "Ccnpy.C07_uint32",
    "Ccnpy.C07_uint64"
   ],
   "note": ""
  },
  {
   "property": "C08",
   "status": "proved",
   "theorems": [
    "Ccnpy.C08_hash_eq_imp_eq",
    "Ccnpy.C08_eq_not_imp_hash_eq",
    "Ccnpy.C08_same_type_eq_iff"
   ],
   "note": ""
  },
  {
   "property": "C09",
   "status": "proved",
   "theorems": [
    "Ccnpy.C09_name_roundtrip",
    "Ccnpy.C09_name_injective",
    "Ccnpy.C09_name_constructible"
   ],
   "note": ""
  },
  {
   "property": "C10",
   "status": "proved",
   "theorems": [
    "Ccnpy.C10_append",
    "Ccnpy.C10_append_succeeds",
    "Ccnpy.C10_append_id",
    "Ccnpy.C10_append_distinct",
    "Ccnpy.C10_append_kinds_distinct"
   ],
   "note": ""
  },
  {
   "property": "C11",
   "status": "proved",
   "theorems": [
    "Ccnpy.C11_name_eq_after_roundtrip",
    "Ccnpy.C11_chunk_name_never_equal"
   ],
   "note": ""
  },
  {
   "property": "C12",
   "status": "proved",
   "theorems": [
    "Ccnpy.C12_header_roundtrip",
    "Ccnpy.C12_header_serializes",
    "Ccnpy.C12_header_accepts_only",
    "Ccnpy.C12_header_rejects"
   ],
   "note": ""
  },
  {
   "property": "C13",
   "status": "proved",
   "theorems": [
    "Ccnpy.C13_hashvalue_roundtrip",
    "Ccnpy.C13_hashtlv_roundtrip",
    "Ccnpy.C13_link_roundtrip",
    "Ccnpy.C13_keylink_roundtrip"
   ],
   "note": ""
  },
  {
   "property": "C14",
   "status": "proved",
   "theorems": [
    "Ccnpy.C14_contentobject_roundtrip",
    "Ccnpy.C14_contentobject_injective"
   ],
   "note": ""
  },
  {
   "property": "C15",
   "status": "proved",
   "theorems": [
    "Ccnpy.C15_no_duplicates_no_unknown",
    "Ccnpy.C15_rejects"
   ],
   "note": ""
  },
  {
   "property": "C16",
   "status": "proved",
   "theorems": [
    "Ccnpy.C16_whole_seconds_exact",
    "Ccnpy.C16_loses_at_most_one",
    "Ccnpy.C16_not_always_exact"
   ],
   "note": ""
  },
  {
   "property": "C17",
   "status": "proved",
   "theorems": [
    "Ccnpy.C17_packet_roundtrip",
    "Ccnpy.C17_keylink_packet_unreadable"
   ],
   "note": ""
  },
  {
   "property": "C18",
   "status": "proved",
   "theorems": [
    "Ccnpy.C18_packet_length",
    "Ccnpy.C18_too_long_raises"
   ],
   "note": ""
  },
  {
   "property": "C19",
   "status": "proved",
   "theorems": [
    "Ccnpy.C19_hash_covers_exactly",
    "Ccnpy.C19_header_not_hashed"
   ],
   "note": ""
  },
  {
   "property": "C20",
   "status": "proved",
   "theorems": [
    "Ccnpy.C20_packet_structure",
    "Ccnpy.C20_packet_length_unchecked",
    "Ccnpy.C20_interest_tlv_ignored",
    "Ccnpy.C20_interests_ignored"
   ],
   "note": ""
  },
  {
   "property": "C21",
   "status": "proved",
   "theorems": [
    "Ccnpy.C21_contentobject_normal_form",
    "Ccnpy.C21_packet_normal_form",
    "Ccnpy.C21_long_header_not_stable"
   ],
   "note": ""
  },
  {
   "property": "C22",
   "status": "proved",
   "theorems": [
    "Ccnpy.C22_sign_verify",
    "Ccnpy.C22_concatenation",
    "Ccnpy.C22_verify_exact",
    "Ccnpy.C22_verify_total"
   ],
   "note": ""
  },
  {
   "property": "C23",
   "status": "proved",
   "theorems": [
    "Ccnpy.C23_burst_detected",
    "Ccnpy.C23_corrupted_never_verifies",
    "Ccnpy.C23_bound_tight"
   ],
   "note": ""
  },
  {
   "property": "C24",
   "status": "proved",
   "theorems": [
    "Ccnpy.C24_unsigned",
    "Ccnpy.C24_crc",
    "Ccnpy.C24_rsa_no_keystore",
    "Ccnpy.C24_rsa_unknown_key",
    "Ccnpy.C24_rsa",
    "Ccnpy.C24_needs_payload",
    "Ccnpy.C24_crc_signed_accepted",
    "Ccnpy.C24_rsa_signed_accepted",
    "Ccnpy.C24_signed_packet_rejected_after_sending"
   ],
   "note": ""
  },
  {
   "property": "C25",
   "status": "proved",
   "theorems": [
    "Ccnpy.C25_get_aes_key",
    "Ccnpy.C25_get_rsa_keyid",
    "Ccnpy.C25_get_rsa_name",
    "Ccnpy.C25_get_rsa_pub_key"
   ],
   "note": ""
  },
  {
   "property": "C26",
   "status": "proved",
   "theorems": [
    "Ccnpy.C26_groupData_roundtrip",
    "Ccnpy.C26_pointers_roundtrip",
    "Ccnpy.C26_hashGroup_roundtrip"
   ],
   "note": ""
  },
  {
   "property": "C27",
   "status": "proved",
   "theorems": [
    "Ccnpy.C27_groupData_ignores_unknown",
    "Ccnpy.C27_hashGroup_ignores_unknown",
    "Ccnpy.C27_groupData_rejects_duplicates",
    "Ccnpy.C27_hashGroup_rejects_duplicates",
    "Ccnpy.C27_aeadData_rejects_duplicates"
   ],
   "note": ""
  },
  {
   "property": "C28",
   "status": "proved",
   "theorems": [
    "Ccnpy.C28_node_roundtrip",
    "Ccnpy.C28_iteration",
    "Ccnpy.C28_iteration_raises",
    "Ccnpy.C28_iteration_hashes",
    "Ccnpy.C28_iteration_unique",
    "Ccnpy.C28_hash_values"
   ],
   "note": ""
  },
  {
   "property": "C29",
   "status": "proved",
   "theorems": [
    "Ccnpy.C29_padded_size",
    "Ccnpy.C29_padding_transparent",
    "Ccnpy.C29_padding_not_preserved"
   ],
   "note": ""
  },
  {
   "property": "C30",
   "status": "proved",
   "theorems": [
    "Ccnpy.C30_locators_roundtrip",
    "Ccnpy.C30_vendor_roundtrip",
    "Ccnpy.C30_ncDef_roundtrip",
    "Ccnpy.C30_nodeData_roundtrip",
    "Ccnpy.C30_flags_unbuildable"
   ],
   "note": ""
  },
  {
   "property": "C31",
   "status": "proved",
   "theorems": [
    "Ccnpy.C31_manifest_roundtrip",
    "Ccnpy.C31_padded_manifest_differs"
   ],
   "note": ""
  },
  {
   "property": "C32",
   "status": "proved",
   "theorems": [
    "Ccnpy.C32_aeadCtx_roundtrip",
    "Ccnpy.C32_rsaOaepCtx_roundtrip_no_wrapper",
    "Ccnpy.C32_rsaOaepCtx_roundtrip"
   ],
   "note": ""
  },
  {
   "property": "C33",
   "status": "proved",
   "theorems": [
    "Ccnpy.C33_aead_roundtrip",
    "Ccnpy.C33_oaep_roundtrip",
    "Ccnpy.C33_aes192_unusable"
   ],
   "note": ""
  },
  {
   "property": "C34",
   "status": "proved",
   "theorems": [
    "Ccnpy.C34_only_issued",
    "Ccnpy.C34_gives_the_sealed_node",
    "Ccnpy.C34_altered_rejected",
    "Ccnpy.C34_altered_rejected_oaep",
    "Ccnpy.C34_form_protected",
    "Ccnpy.C34_wrong_key_number",
    "Ccnpy.C34_wrong_family",
    "Ccnpy.C34_boundary_unprotected"
   ],
   "note": ""
  },
  {
   "property": "C35",
   "status": "proved",
   "theorems": [
    "Ccnpy.C35_unwrap",
    "Ccnpy.C35_label_binding",
    "Ccnpy.C35_requirements",
    "Ccnpy.C35_key_fits",
    "Ccnpy.C35_consumer_with_private_key",
    "Ccnpy.C35_manifest_wire"
   ],
   "note": ""
  },
  {
   "property": "C36",
   "status": "proved",
   "theorems": [
    "Ccnpy.C36_lookups_right",
    "Ccnpy.C36_stale_after_failed_lookup",
    "Ccnpy.C36_stale_decryptor_raises",
    "Ccnpy.C36_mixed_kinds_wrong"
   ],
   "note": ""
  },
  {
   "property": "C37",
   "status": "proved",
   "theorems": [
    "Ccnpy.C37_configured_key_used",
    "Ccnpy.C37_kdf_irrelevant",
    "Ccnpy.C37_derived_key_fails",
    "Ccnpy.C37_derivation_always_raises",
    "Ccnpy.C37_derivation_returns"
   ],
   "note": ""
  },
  {
   "property": "C38",
   "status": "proved",
   "theorems": [
    "Ccnpy.C38_chunks",
    "Ccnpy.C38_summary",
    "Ccnpy.C38_written_is_a_prefix",
    "Ccnpy.C38_full_reads",
    "Ccnpy.C38_succeeds"
   ],
   "note": ""
  },
  {
   "property": "C39",
   "status": "proved",
   "theorems": [
    "Ccnpy.C39_packets_fit",
    "Ccnpy.C39_check_never_fires",
    "Ccnpy.C39_size_is_exact",
    "Ccnpy.C39_too_small",
    "Ccnpy.C39_too_small_iff"
   ],
   "note": ""
  },
  {
   "property": "C40",
   "status": "proved",
   "theorems": [
    "Ccnpy.C40_optimizer_minimises_internal_nodes",
    "Ccnpy.C40_smallest_fan_out",
    "Ccnpy.C40_small_files",
    "Ccnpy.C40_chain_iff",
    "Ccnpy.C40_empty_file_raises",
    "Ccnpy.C40_one_pointer_raises"
   ],
   "note": ""
  },
  {
   "property": "C41",
   "status": "proved",
   "theorems": [
    "Ccnpy.C41_height_suffices",
    "Ccnpy.C41_height_least",
    "Ccnpy.C41_chain_height",
    "Ccnpy.C41_selected_tree_has_room"
   ],
   "note": ""
  },
  {
   "property": "C42",
   "status": "proved",
   "theorems": [
    "Ccnpy.C42_segmented_names_distinct",
    "Ccnpy.C42_ids_distinct",
    "Ccnpy.C42_ids_suffice"
   ],
   "note": ""
  },
  {
   "property": "C43",
   "status": "proved",
   "theorems": [
    "Ccnpy.C43_file",
    "Ccnpy.C43_preorder"
   ],
   "note": ""
  },
  {
   "property": "C44",
   "status": "proved",
   "theorems": [
    "Ccnpy.C44_fan_out"
   ],
   "note": ""
  },
  {
   "property": "C45",
   "status": "proved",
   "theorems": [
    "Ccnpy.C45_depth",
    "Ccnpy.C45_no_room_no_tree"
   ],
   "note": ""
  },
  {
   "property": "C46",
   "status": "proved",
   "theorems": [
    "Ccnpy.C46_file",
    "Ccnpy.C46_sizes"
   ],
   "note": ""
  },
  {
   "property": "C47",
   "status": "proved",
   "theorems": [
    "Ccnpy.C47_no_dangling_pointers",
    "Ccnpy.C47_root_last"
   ],
   "note": ""
  },
  {
   "property": "C48",
   "status": "proved",
   "theorems": [
    "Ccnpy.C48_excess",
    "Ccnpy.C48_hashed_bound",
    "Ccnpy.C48_prefix_can_exceed",
    "Ccnpy.C48_segmented_can_exceed",
    "Ccnpy.C48_expiry_can_exceed",
    "Ccnpy.C48_annotations_can_exceed"
   ],
   "note": ""
  },
  {
   "property": "C49",
   "status": "proved",
   "theorems": [
    "Ccnpy.C49_file_returned",
    "Ccnpy.C49_recursion_depth"
   ],
   "note": ""
  },
  {
   "property": "C50",
   "status": "proved",
   "theorems": [
    "Ccnpy.C50_segmented_by_height",
    "Ccnpy.C50_segmented_readable"
   ],
   "note": ""
  },
  {
   "property": "C51",
   "status": "proved",
   "theorems": [
    "Ccnpy.C51_traversal",
    "Ccnpy.C51_memory_hashes",
    "Ccnpy.C51_walks_what_can_be_walked",
    "Ccnpy.C51_exactly"
   ],
   "note": ""
  },
  {
   "property": "C52",
   "status": "proved",
   "theorems": [
    "Ccnpy.C52_resolution",
    "Ccnpy.C52_hiding",
    "Ccnpy.C52_undefined"
   ],
   "note": ""
  },
  {
   "property": "C53",
   "status": "proved",
   "theorems": [
    "Ccnpy.C53_get_first",
    "Ccnpy.C53_get_other_algorithm",
    "Ccnpy.C53_packets_and_length",
    "Ccnpy.C53_byte_counters",
    "Ccnpy.C53_put_succeeds",
    "Ccnpy.C53_reader_of_list_last"
   ],
   "note": ""
  },
  {
   "property": "C54",
   "status": "proved",
   "theorems": [
    "Ccnpy.C54_contents",
    "Ccnpy.C54_raises_iff_full",
    "Ccnpy.C54_at_most_max",
    "Ccnpy.C54_hash_group"
   ],
   "note": ""
  },
  {
   "property": "C55",
   "status": "proved",
   "theorems": [
    "Ccnpy.C55_segmented_distinct",
    "Ccnpy.C55_segmented_name",
    "Ccnpy.C55_segmented_disjoint",
    "Ccnpy.C55_created_context_disjoint",
    "Ccnpy.C55_prefix_one_name",
    "Ccnpy.C55_hashed_no_name",
    "Ccnpy.C55_beyond_64_bits_collide"
   ],
   "note": ""
  },
  {
   "property": "C56",
   "status": "proved",
   "theorems": [
    "Ccnpy.C56_element_inside_buffer",
    "Ccnpy.C56_loop_is_the_unbounded_loop",
    "Ccnpy.C56_at_most_a_quarter",
    "Ccnpy.C56_loop_deterministic",
    "Ccnpy.C56_parsers_terminate",
    "Ccnpy.C56_tlv_parsers_terminate",
    "Ccnpy.C56_trailing_bytes_ignored",
    "Ccnpy.C56_elements_tile_the_value"
   ],
   "note": ""
  },
  {
   "property": "C57",
   "status": "proved",
   "theorems": [
    "Ccnpy.C57_from_uri",
    "Ccnpy.C57_authority_dropped",
    "Ccnpy.C57_relative_drops_first",
    "Ccnpy.C57_query_ignored",
    "Ccnpy.C57_scheme",
    "Ccnpy.C57_getitem",
    "Ccnpy.C57_getitem_exact"
   ],
   "note": ""
  },
  {
   "property": "C58",
   "status": "proved",
   "theorems": [
    "Ccnpy.C58_as_uri",
    "Ccnpy.C58_not_inverse",
    "Ccnpy.C58_has_uri"
   ],
   "note": ""
  },
  {
   "property": "C59",
   "status": "proved",
   "theorems": [
    "Ccnpy.C59_link_name",
    "Ccnpy.C59_link_names_differ",
    "Ccnpy.C59_tilde_collision",
    "Ccnpy.C59_query_collision"
   ],
   "note": ""
  },
  {
   "property": "C60",
   "status": "proved",
   "theorems": [
    "Ccnpy.C60_last_read_back",
    "Ccnpy.C60_read_back",
    "Ccnpy.C60_missing",
    "Ccnpy.C60_own_name"
   ],
   "note": ""
  },
  {
   "property": "C61",
   "status": "proved",
   "theorems": [
    "Ccnpy.C61_by_name_never_returns",
    "Ccnpy.C61_no_link",
    "Ccnpy.C61_after_put",
    "Ccnpy.C61_link_file"
   ],
   "note": ""
  },
  {
   "property": "C62",
   "status": "proved",
   "theorems": [
    "Ccnpy.C62_counters",
    "Ccnpy.C62_nested_unreadable",
    "Ccnpy.C62_nested_path",
    "Ccnpy.C62_failed_link"
   ],
   "note": ""
  },
  {
   "property": "C63",
   "status": "proved",
   "theorems": [
    "Ccnpy.C63_no_hash_check",
    "Ccnpy.C63_forged_data"
   ],
   "note": ""
  },
  {
   "property": "C64",
   "status": "proved",
   "theorems": [
    "Ccnpy.C64_file_in_directory",
    "Ccnpy.C64_written"
   ],
   "note": ""
  },
  {
   "property": "C65",
   "status": "proved",
   "theorems": [
    "Ccnpy.C65_segmented_refused"
   ],
   "note": ""
  },
  {
   "property": "C66",
   "status": "proved",
   "theorems": [
    "Ccnpy.C66_link",
    "Ccnpy.C66_content_object",
    "Ccnpy.C66_nc_def",
    "Ccnpy.C66_node_data",
    "Ccnpy.C66_node",
    "Ccnpy.C66_manifest",
    "Ccnpy.C66_pointers",
    "Ccnpy.C66_locators",
    "Ccnpy.C66_group_data",
    "Ccnpy.C66_hash_group",
    "Ccnpy.C66_kdf_data",
    "Ccnpy.C66_aead_data",
    "Ccnpy.C66_wrapped_key",
    "Ccnpy.C66_no_wrapped_key",
    "Ccnpy.C66_security_context",
    "Ccnpy.C66_schema",
    "Ccnpy.C66_name",
    "Ccnpy.C66_from_content_object",
    "Ccnpy.C66_packet"
   ],
   "note": ""
  },
  {
   "property": "C67",
   "status": "proved",
   "theorems": [
    "Ccnpy.C67_rsa",
    "Ccnpy.C67_validation_alg"
   ],
   "note": ""
  },
  {
   "property": "C68",
   "status": "proved",
   "theorems": [
    "Ccnpy.C68_extend"
   ],
   "note": ""
  },
  {
   "property": "C69",
   "status": "proved",
   "theorems": [
    "Ccnpy.C69_least_waste",
    "Ccnpy.C69_least_waste_then_height",
    "Ccnpy.C69_long_chain_fails"
   ],
   "note": ""
  },
  {
   "property": "C70",
   "status": "proved",
   "theorems": [
    "Ccnpy.C70_rounding",
    "Ccnpy.C70_unique",
    "Ccnpy.C70_seconds",
    "Ccnpy.C70_seconds_large",
    "Ccnpy.C70_milliseconds"
   ],
   "note": ""
  },
  {
   "property": "C71",
   "status": "proved",
   "theorems": [
    "Ccnpy.C71_schema_accepted",
    "Ccnpy.C71_schema_refused",
    "Ccnpy.C71_segmented",
    "Ccnpy.C71_segmented_refused",
    "Ccnpy.C71_prefixed",
    "Ccnpy.C71_hashed"
   ],
   "note": ""
  },
  {
   "property": "C72",
   "status": "proved",
   "theorems": [
    "Ccnpy.C72_create",
    "Ccnpy.C72_encryption",
    "Ccnpy.C72_decryption",
    "Ccnpy.C72_iv_length",
    "Ccnpy.C72_iv_injective"
   ],
   "note": ""
  },
  {
   "property": "C73",
   "status": "proved",
   "theorems": [
    "Ccnpy.C73_draws",
    "Ccnpy.C73_no_nonce_reuse"
   ],
   "note": ""
  },
  {
   "property": "C74",
   "status": "proved",
   "theorems": [
    "Ccnpy.C74_edges",
    "Ccnpy.C74_nodes",
    "Ccnpy.C74_plot",
    "Ccnpy.C74_three_bytes",
    "Ccnpy.C74_label",
    "Ccnpy.C74_hash_values"
   ],
   "note": ""
  },
  {
   "property": "C75",
   "status": "proved",
   "theorems": [
    "Ccnpy.C75_contents",
    "Ccnpy.C75_other",
    "Ccnpy.C75_limit",
    "Ccnpy.C75_signer",
    "Ccnpy.C75_counters",
    "Ccnpy.C75_ignored",
    "Ccnpy.C75_graph",
    "Ccnpy.C75_graph_empty_name",
    "Ccnpy.C75_tree_node",
    "Ccnpy.C75_tree_sizing",
    "Ccnpy.C75_tree_root"
   ],
   "note": ""
  },
  {
   "property": "C76",
   "status": "proved",
   "theorems": [
    "Ccnpy.C76_unwrap",
    "Ccnpy.C76_new_key",
    "Ccnpy.C76_cache",
    "Ccnpy.C76_kept"
   ],
   "note": ""
  },
  {
   "property": "C77",
   "status": "proved",
   "theorems": [
    "Ccnpy.C77_manifest",
    "Ccnpy.C77_content",
    "Ccnpy.C77_packet",
    "Ccnpy.C77_ascii_data"
   ],
   "note": ""
  },
  {
   "property": "C78",
   "status": "proved",
   "theorems": [
    "Ccnpy.C78_unsigned",
    "Ccnpy.C78_unknown_signer",
    "Ccnpy.C78_checked",
    "Ccnpy.C78_returns",
    "Ccnpy.C78_no_keyError"
   ],
   "note": ""
  },
  {
   "property": "C79",
   "status": "proved",
   "theorems": [
    "Ccnpy.C79_plain",
    "Ccnpy.C79_no_context",
    "Ccnpy.C79_unknown_key",
    "Ccnpy.C79_decrypts",
    "Ccnpy.C79_agrees",
    "Ccnpy.C79_packet_first",
    "Ccnpy.C79_shown",
    "Ccnpy.C79_unverified"
   ],
   "note": ""
  },
  {
   "property": "C80",
   "status": "proved",
   "theorems": [
    "Ccnpy.C80_decoders",
    "Ccnpy.C80_encoders",
    "Ccnpy.C80_packet_exact",
    "Ccnpy.C80_auto_parse"
   ],
   "note": ""
  },
  {
   "property": "C81",
   "status": "proved",
   "theorems": [
    "Ccnpy.C81_hex",
    "Ccnpy.C81_hex_roundtrip",
    "Ccnpy.C81_hex_errors",
    "Ccnpy.C81_kdf_info"
   ],
   "note": ""
  },
  {
   "property": "C82",
   "status": "proved",
   "theorems": [
    "Ccnpy.C82_keys",
    "Ccnpy.C82_file"
   ],
   "note": ""
  },
  {
   "property": "C83",
   "status": "proved",
   "theorems": [
    "Ccnpy.C83_reader_never_reads"
   ],
   "note": ""
  },
  {
   "property": "C84",
   "status": "proved",
   "theorems": [
    "Ccnpy.C84_prefixes",
    "Ccnpy.C84_passed_on",
    "Ccnpy.C84_key_number",
    "Ccnpy.C84_wrap_needs_salt",
    "Ccnpy.C84_exact",
    "Ccnpy.C84_encryptor"
   ],
   "note": ""
  },
  {
   "property": "C85",
   "status": "proved",
   "theorems": [
    "Ccnpy.C85_unreadable_locators",
    "Ccnpy.C85_exactly"
   ],
   "note": ""
  },
  {
   "property": "C86",
   "status": "proved",
   "theorems": [
    "Ccnpy.C86_missing_packets",
    "Ccnpy.C86_prefix_written",
    "Ccnpy.C86_memory",
    "Ccnpy.C86_directory"
   ],
   "note": ""
  },
  {
   "property": "C87",
   "status": "proved",
   "theorems": [
    "Ccnpy.C87_contentobject",
    "Ccnpy.C87_contentobject_raises",
    "Ccnpy.C87_packet",
    "Ccnpy.C87_packet_same_bytes",
    "Ccnpy.C87_packet_refl",
    "Ccnpy.C87_packet_symm",
    "Ccnpy.C87_packet_raises",
    "Ccnpy.C87_reread",
    "Ccnpy.C87_same_bytes",
    "Ccnpy.C87_hash",
    "Ccnpy.C87_link",
    "Ccnpy.C87_link_used",
    "Ccnpy.C87_keylink",
    "Ccnpy.C87_pointers",
    "Ccnpy.C87_groupdata",
    "Ccnpy.C87_hashgroup",
    "Ccnpy.C87_locators",
    "Ccnpy.C87_nodedata",
    "Ccnpy.C87_nodedata_raises",
    "Ccnpy.C87_node",
    "Ccnpy.C87_node_raises",
    "Ccnpy.C87_vendor",
    "Ccnpy.C87_schema",
    "Ccnpy.C87_aead",
    "Ccnpy.C87_security",
    "Ccnpy.C87_manifest",
    "Ccnpy.C87_memory",
    "Ccnpy.C87_node_reread"
   ],
   "note": ""
  },
  {
   "property": "C88",
   "status": "proved",
   "theorems": [
    "Ccnpy.C88_hash_binds",
    "Ccnpy.C88_tampered_store",
    "Ccnpy.C88_tampered_readable",
    "Ccnpy.C88_root_determines_file"
   ],
   "note": ""
  },
  {
   "property": "C89",
   "status": "proved",
   "theorems": [
    "Ccnpy.C89_name",
    "Ccnpy.C89_components",
    "Ccnpy.C89_hash",
    "Ccnpy.C89_link",
    "Ccnpy.C89_content_object",
    "Ccnpy.C89_payload_types",
    "Ccnpy.C89_validation",
    "Ccnpy.C89_packet",
    "Ccnpy.C89_manifest",
    "Ccnpy.C89_packet_hash",
    "Ccnpy.C89_wrapped",
    "Ccnpy.C89_unwrapped",
    "Ccnpy.C89_modes"
   ],
   "note": ""
  },
  {
   "property": "C90",
   "status": "proved",
   "theorems": [
    "Ccnpy.C90_next",
    "Ccnpy.C90_sound",
    "Ccnpy.C90_exact",
    "Ccnpy.C90_published",
    "Ccnpy.C90_recursion_limit",
    "Ccnpy.C90_chain",
    "Ccnpy.C90_empty_groups"
   ],
   "note": ""
  },
  {
   "property": "C91",
   "status": "proved",
   "theorems": [
    "Ccnpy.C91_amplification",
    "Ccnpy.C91_doubling"
   ],
   "note": ""
  },
  {
   "property": "C92",
   "status": "proved",
   "theorems": [
    "Ccnpy.C92_printed",
    "Ccnpy.C92_complete",
    "Ccnpy.C92_ascii",
    "Ccnpy.C92_published"
   ],
   "note": ""
  },
  {
   "property": "C93",
   "status": "proved",
   "theorems": [
    "Ccnpy.C93_loop",
    "Ccnpy.C93_collect",
    "Ccnpy.C93_bytes",
    "Ccnpy.C93_nested",
    "Ccnpy.C93_nested_break",
    "Ccnpy.C93_next_first",
    "Ccnpy.C93_reading_changes_equality",
    "Ccnpy.C93_backwards",
    "Ccnpy.C93_backwards_nested"
   ],
   "note": ""
  },
  {
   "property": "C94",
   "status": "proved",
   "theorems": [
    "Ccnpy.C94_plain",
    "Ccnpy.C94_no_writer",
    "Ccnpy.C94_graph_transparent",
    "Ccnpy.C94_labels",
    "Ccnpy.C94_graph_returns",
    "Ccnpy.C94_graph",
    "Ccnpy.C94_picture",
    "Ccnpy.C94_plot",
    "Ccnpy.C94_label_fails",
    "Ccnpy.C94_no_payload",
    "Ccnpy.C94_published"
   ],
   "note": ""
  },
  {
   "property": "C95",
   "status": "proved",
   "theorems": [
    "Ccnpy.C95_recoded",
    "Ccnpy.C95_recodings",
    "Ccnpy.C95_infinitely_many",
    "Ccnpy.C95_hash_binds_fields",
    "Ccnpy.C95_no_signature_time"
   ],
   "note": ""
  },
  {
   "property": "C96",
   "status": "proved",
   "theorems": [
    "Ccnpy.C96_stream",
    "Ccnpy.C96_put",
    "Ccnpy.C96_cut_iff",
    "Ccnpy.C96_unambiguous",
    "Ccnpy.C96_created",
    "Ccnpy.C96_parser_needs_cut",
    "Ccnpy.C96_file",
    "Ccnpy.C96_segmented",
    "Ccnpy.C96_untruthful_received"
   ],
   "note": ""
  },
  {
   "property": "C97",
   "status": "proved",
   "theorems": [
    "Ccnpy.C97_pointers_limit_chunks",
    "Ccnpy.C97_total_is_least",
    "Ccnpy.C97_total_attained",
    "Ccnpy.C97_manifests_written",
    "Ccnpy.C97_promised_and_written",
    "Ccnpy.C97_file"
   ],
   "note": ""
  },
  {
   "property": "C98",
   "status": "proved",
   "theorems": [
    "Ccnpy.C98_more_packets",
    "Ccnpy.C98_kept",
    "Ccnpy.C98_memory",
    "Ccnpy.C98_contained",
    "Ccnpy.C98_directory"
   ],
   "note": ""
  },
  {
   "property": "C99",
   "status": "proved",
   "theorems": [
    "Ccnpy.C99_files",
    "Ccnpy.C99_one_encryptor",
    "Ccnpy.C99_not_encrypted",
    "Ccnpy.C99_two_kinds"
   ],
   "note": ""
  },
  {
   "property": "C100",
   "status": "proved",
   "theorems": [
    "Ccnpy.C100_files",
    "Ccnpy.C100_returns_iff",
    "Ccnpy.C100_link",
    "Ccnpy.C100_published",
    "Ccnpy.C100_network",
    "Ccnpy.C100_links_iff",
    "Ccnpy.C100_links_room"
   ],
   "note": ""
  },
  {
   "property": "C101",
   "status": "proved",
   "theorems": [
    "Ccnpy.C101_packets",
    "Ccnpy.C101_output"
   ],
   "note": ""
  },
  {
   "property": "C102",
   "status": "proved",
   "theorems": [
    "Ccnpy.C102_data",
    "Ccnpy.C102_root",
    "Ccnpy.C102_manifests"
   ],
   "note": ""
  },
  {
   "property": "C103",
   "status": "proved",
   "theorems": [
    "Ccnpy.C103_names_distinct",
    "Ccnpy.C103_numbers",
    "Ccnpy.C103_next_name",
    "Ccnpy.C103_used_up",
    "Ccnpy.C103_final_not_final"
   ],
   "note": ""
  },
  {
   "property": "C104",
   "status": "proved",
   "theorems": [
    "Ccnpy.C104_same_loop",
    "Ccnpy.C104_bound",
    "Ccnpy.C104_bound_accepted",
    "Ccnpy.C104_worst",
    "Ccnpy.C104_packet"
   ],
   "note": ""
  },
  {
   "property": "C105",
   "status": "proved",
   "theorems": [
    "Ccnpy.C105_listener",
    "Ccnpy.C105_collector"
   ],
   "note": ""
  },
  {
   "property": "C106",
   "status": "proved",
   "theorems": [
    "Ccnpy.C106_same_length",
    "Ccnpy.C106_length",
    "Ccnpy.C106_exactly"
   ],
   "note": ""
  },
  {
   "property": "C107",
   "status": "proved",
   "theorems": [
    "Ccnpy.C107_names_only",
    "Ccnpy.C107_exported",
    "Ccnpy.C107_from_the_top",
    "Ccnpy.C107_without_schemas",
    "Ccnpy.C107_needs_the_root"
   ],
   "note": ""
  },
  {
   "property": "C108",
   "status": "proved",
   "theorems": [
    "Ccnpy.C108_locked_out",
    "Ccnpy.C108_exactly",
    "Ccnpy.C108_all_or_nothing",
    "Ccnpy.C108_no_keystore"
   ],
   "note": ""
  },
  {
   "property": "C109",
   "status": "proved",
   "theorems": [
    "Ccnpy.C109_one_meaning",
    "Ccnpy.C109_taken"
   ],
   "note": ""
  },
  {
   "property": "C110",
   "status": "proved",
   "theorems": [
    "Ccnpy.C110_plain",
    "Ccnpy.C110_same",
    "Ccnpy.C110_exact",
    "Ccnpy.C110_no_output",
    "Ccnpy.C110_paused",
    "Ccnpy.C110_drawn",
    "Ccnpy.C110_shown"
   ],
   "note": ""
  },
  {
   "property": "C111",
   "status": "proved",
   "theorems": [
    "Ccnpy.C111_records",
    "Ccnpy.C111_plot",
    "Ccnpy.C111_edges",
    "Ccnpy.C111_same_picture"
   ],
   "note": ""
  },
  {
   "property": "C112",
   "status": "proved",
   "theorems": [
    "Ccnpy.C112_only",
    "Ccnpy.C112_memory",
    "Ccnpy.C112_directory",
    "Ccnpy.C112_exact"
   ],
   "note": ""
  },
  {
   "property": "C113",
   "status": "proved",
   "theorems": [
    "Ccnpy.C113_only_the_root",
    "Ccnpy.C113_chunks",
    "Ccnpy.C113_one_file",
    "Ccnpy.C113_root"
   ],
   "note": ""
  },
  {
   "property": "C114",
   "status": "proved",
   "theorems": [
    "Ccnpy.C114_blocks",
    "Ccnpy.C114_same_packet",
    "Ccnpy.C114_directory",
    "Ccnpy.C114_memory",
    "Ccnpy.C114_segmented",
    "Ccnpy.C114_encrypted"
   ],
   "note": ""
  },
  {
   "property": "C115",
   "status": "proved",
   "theorems": [
    "Ccnpy.C115_no_interest",
    "Ccnpy.C115_interest_list",
    "Ccnpy.C115_node_locator",
    "Ccnpy.C115_pad",
    "Ccnpy.C115_key_bits",
    "Ccnpy.C115_decrypt_node",
    "Ccnpy.C115_copy_with_name",
    "Ccnpy.C115_verifier"
   ],
   "note": ""
  },
  {
   "property": "C116",
   "status": "proved",
   "theorems": [
    "Ccnpy.C116_words",
    "Ccnpy.C116_refused",
    "Ccnpy.C116_passwords"
   ],
   "note": ""
  },
  {
   "property": "C117",
   "status": "proved",
   "theorems": [
    "Ccnpy.C117_clock",
    "Ccnpy.C117_directory",
    "Ccnpy.C117_own_packets",
    "Ccnpy.C117_looks",
    "Ccnpy.C117_expiry"
   ],
   "note": ""
  },
  {
   "property": "C118",
   "status": "proved",
   "theorems": [
    "Ccnpy.C118_same",
    "Ccnpy.C118_exceeded",
    "Ccnpy.C118_or_raises",
    "Ccnpy.C118_chain",
    "Ccnpy.C118_levels",
    "Ccnpy.C118_file",
    "Ccnpy.C118_unreadable"
   ],
   "note": ""
  },
  {
   "property": "C119",
   "status": "proved",
   "theorems": [
    "Ccnpy.C119_volume",
    "Ccnpy.C119_plain"
   ],
   "note": ""
  },
  {
   "property": "C120",
   "status": "proved",
   "theorems": [
    "Ccnpy.C120_tree",
    "Ccnpy.C120_only_root",
    "Ccnpy.C120_published"
   ],
   "note": ""
  },
  {
   "property": "C121",
   "status": "proved",
   "theorems": [
    "Ccnpy.C121_returns",
    "Ccnpy.C121_greatest",
    "Ccnpy.C121_plain",
    "Ccnpy.C121_optimized",
    "Ccnpy.C121_published"
   ],
   "note": ""
  },
  {
   "property": "C122",
   "status": "proved",
   "theorems": [
    "Ccnpy.C122_chunks",
    "Ccnpy.C122_too_many",
    "Ccnpy.C122_full_reads",
    "Ccnpy.C122_byte_reads",
    "Ccnpy.C122_left_behind",
    "Ccnpy.C122_published"
   ],
   "note": ""
  },
  {
   "property": "C123",
   "status": "proved",
   "theorems": [
    "Ccnpy.C123_root",
    "Ccnpy.C123_published"
   ],
   "note": ""
  },
  {
   "property": "C124",
   "status": "proved",
   "theorems": [
    "Ccnpy.C124_larger",
    "Ccnpy.C124_fewer"
   ],
   "note": ""
  },
  {
   "property": "C125",
   "status": "proved",
   "theorems": [
    "Ccnpy.C125_cost",
    "Ccnpy.C125_root",
    "Ccnpy.C125_published",
    "Ccnpy.C125_larger",
    "Ccnpy.C125_fewer"
   ],
   "note": ""
  },
  {
   "property": "C126",
   "status": "proved",
   "theorems": [
    "Ccnpy.C126_no_tree",
    "Ccnpy.C126_no_root",
    "Ccnpy.C126_outcomes"
   ],
   "note": ""
  }
 ]
}