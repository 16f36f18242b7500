{
 "claims": [
  {
   "property": "C01",
   "status": "proved",
   "theorems": [
    "Dkim.C01_body_canonical",
    "Dkim.C01_stream_unchanged"
   ],
   "note": ""
  },
  {
   "property": "C02",
   "status": "proved",
   "theorems": [
    "Dkim.C02_block_independent"
   ],
   "note": ""
  },
  {
   "property": "C03",
   "status": "proved",
   "theorems": [
    "Dkim.C03_limit_is_prefix"
   ],
   "note": ""
  },
  {
   "property": "C04",
   "status": "proved",
   "theorems": [
    "Dkim.C04_body_equiv_iff",
    "Dkim.C04_body_insensitive",
    "Dkim.C04_lf_to_crlf"
   ],
   "note": ""
  },
  {
   "property": "C05",
   "status": "proved",
   "theorems": [
    "Dkim.C05_body_idempotent",
    "Dkim.C05_relaxed_after_simple"
   ],
   "note": ""
  },
  {
   "property": "C06",
   "status": "proved",
   "theorems": [
    "Dkim.C06_relaxed",
    "Dkim.C06_blank_name",
    "Dkim.C06_throws_iff",
    "Dkim.C06_throws_any",
    "Dkim.C06_simple"
   ],
   "note": ""
  },
  {
   "property": "C07",
   "status": "proved",
   "theorems": [
    "Dkim.C07_output_clean",
    "Dkim.C07_idempotent"
   ],
   "note": ""
  },
  {
   "property": "C08",
   "status": "proved",
   "theorems": [
    "Dkim.C08_fws_exact",
    "Dkim.C08_fws_throws",
    "Dkim.C08_fws_lossless",
    "Dkim.C08_unwind",
    "Dkim.C08_crlf",
    "Dkim.C08_wsp",
    "Dkim.C08_loose"
   ],
   "note": ""
  },
  {
   "property": "C09",
   "status": "partial",
   "theorems": [
    "Dkim.C09_address_endless_iff",
    "Dkim.C09_whitespace",
    "Dkim.C09_value_list",
    "Dkim.C09_tag_list",
    "Dkim.C09_quoted_printable",
    "Dkim.C09_encoded_word",
    "Dkim.C09_filter_header",
    "Dkim.C09_message",
    "Dkim.C09_dns",
    "Dkim.C09_address_list_partial",
    "Dkim.C09_unsigned_char_witness",
    "Dkim.C09_address_list_no_quotes"
   ],
   "note": "False of the code on platforms where char is unsigned: an unterminated quoted string in an address list makes ParseAddressList loop for ever (C09_unsigned_char_witness; the loop compares a char with EOF). Proved for every input of every parser with signed char; with unsigned char C09_address_endless_iff gives exactly the texts on which ParseAddressList does not return."
  },
  {
   "property": "C10",
   "status": "proved",
   "theorems": [
    "Dkim.C10_values_back",
    "Dkim.C10_values_sound",
    "Dkim.C10_value_piece"
   ],
   "note": ""
  },
  {
   "property": "C11",
   "status": "proved",
   "theorems": [
    "Dkim.C11_parse_iff",
    "Dkim.C11_fresh",
    "Dkim.C11_getTag",
    "Dkim.C11_errors"
   ],
   "note": ""
  },
  {
   "property": "C12",
   "status": "proved",
   "theorems": [
    "Dkim.C12_offset_delimits"
   ],
   "note": ""
  },
  {
   "property": "C13",
   "status": "proved",
   "theorems": [
    "Dkim.C13_duplicate_rejected",
    "Dkim.C13_history_keeps",
    "Dkim.C13_history_nodup"
   ],
   "note": ""
  },
  {
   "property": "C14",
   "status": "proved",
   "theorems": [
    "Dkim.C14_roundtrip",
    "Dkim.C14_excluded_witness"
   ],
   "note": ""
  },
  {
   "property": "C15",
   "status": "partial",
   "theorems": [
    "Dkim.C15_comment_partial",
    "Dkim.C15_quoted_partial",
    "Dkim.C15_byte_ff_witness",
    "Dkim.C15_adjacent_escapes_witness"
   ],
   "note": "False of the code: with signed char the literal byte 0xFF makes a quoted string count as unterminated (C15_byte_ff_witness), and two adjacent escapes in a comment are misread (C15_adjacent_escapes_witness). Proved for all contents without these two cases. C72 gives the exact grammar of quoted strings and comments (Quoted, CommentText) with these two cases."
  },
  {
   "property": "C16",
   "status": "proved",
   "theorems": [
    "Dkim.C16_encode_exact",
    "Dkim.C16_decode_encode"
   ],
   "note": ""
  },
  {
   "property": "C17",
   "status": "proved",
   "theorems": [
    "Dkim.C17_safe_bytes",
    "Dkim.C17_equals_sign"
   ],
   "note": ""
  },
  {
   "property": "C18",
   "status": "proved",
   "theorems": [
    "Dkim.C18_law_satisfiable",
    "Dkim.C18_injective",
    "Dkim.C18_alphabet",
    "Dkim.C18_length",
    "Dkim.C18_padding",
    "Dkim.C18_rfc4648",
    "Dkim.C18_fold_safe",
    "Dkim.C18_strip_encoding",
    "Dkim.C18_encode",
    "Dkim.C18_decode_all",
    "Dkim.C18_round_trip",
    "Dkim.C18_oversize_witness"
   ],
   "note": "OpenSSL's base64 BIO is outside the repository: that it writes RFC 4648 base64 and reads it back is the explicit hypothesis BioLaw / Env.B64Law (shown satisfiable). The loops of src/Base64.cpp around it are modelled; sizes of 2 GiB and more are cut by the conversion to int (C18_oversize_witness)."
  },
  {
   "property": "C19",
   "status": "proved",
   "theorems": [
    "Dkim.C19_words",
    "Dkim.C19_base64_word",
    "Dkim.C19_plain"
   ],
   "note": ""
  },
  {
   "property": "C20",
   "status": "proved",
   "theorems": [
    "Dkim.C20_parse",
    "Dkim.C20_parse_at",
    "Dkim.C20_lossless",
    "Dkim.C20_body_offset"
   ],
   "note": ""
  },
  {
   "property": "C21",
   "status": "proved",
   "theorems": [
    "Dkim.C21_line_endings"
   ],
   "note": ""
  },
  {
   "property": "C22",
   "status": "proved",
   "theorems": [
    "Dkim.C22_fields",
    "Dkim.C22_name_trimmed"
   ],
   "note": ""
  },
  {
   "property": "C23",
   "status": "proved",
   "theorems": [
    "Dkim.C23_validateDomain"
   ],
   "note": ""
  },
  {
   "property": "C24",
   "status": "proved",
   "theorems": [
    "Dkim.C24_history_safe",
    "Dkim.C24_set_or_throw",
    "Dkim.C24_no_injection"
   ],
   "note": ""
  },
  {
   "property": "C25",
   "status": "proved",
   "theorems": [
    "Dkim.C25_fails_permanently",
    "Dkim.C25_accepts_iff",
    "Dkim.C25_getters",
    "Dkim.C25_mandatory"
   ],
   "note": ""
  },
  {
   "property": "C26",
   "status": "proved",
   "theorems": [
    "Dkim.C26_identity"
   ],
   "note": ""
  },
  {
   "property": "C27",
   "status": "partial",
   "theorems": [
    "Dkim.C27_length_partial",
    "Dkim.C27_accepted_forms",
    "Dkim.C27_not_decimal_witness"
   ],
   "note": "False of the code: an empty l=, a plus sign and a negated number are accepted (C27_not_decimal_witness). Proved: a plain decimal number is read exactly; C27_accepted_forms gives the exact list of accepted texts and their values."
  },
  {
   "property": "C28",
   "status": "proved",
   "theorems": [
    "Dkim.C28_expiry",
    "Dkim.C28_expired_rejected"
   ],
   "note": ""
  },
  {
   "property": "C29",
   "status": "partial",
   "theorems": [
    "Dkim.C29_stale_errno_witness",
    "Dkim.C29_no_length_tag_partial",
    "Dkim.C29_errno_only_rejects",
    "Dkim.C29_exact",
    "Dkim.C29_stale_rejects_length"
   ],
   "note": "False of the code: errno is tested without having been cleared (C29_stale_errno_witness). Proved for headers without l= (C29_no_length_tag_partial), and exactly what a stale errno does: the fields accepted are those accepted with a clean errno that have no l= tag, with the same result (C29_exact, C29_errno_only_rejects, C29_stale_rejects_length)."
  },
  {
   "property": "C30",
   "status": "proved",
   "theorems": [
    "Dkim.C30_repeated_tag",
    "Dkim.C30_second_parse_fails",
    "Dkim.C30_reset_fresh",
    "Dkim.C30_disjoint_merge_witness",
    "Dkim.C30_key_repeated_tag",
    "Dkim.C30_key_reset_fresh"
   ],
   "note": ""
  },
  {
   "property": "C31",
   "status": "proved",
   "theorems": [
    "Dkim.C31_accepts_iff",
    "Dkim.C31_accepted",
    "Dkim.C31_revoked",
    "Dkim.C31_fails_permanently"
   ],
   "note": ""
  },
  {
   "property": "C32",
   "status": "partial",
   "theorems": [
    "Dkim.C32_exact",
    "Dkim.C32_algorithms_partial",
    "Dkim.C32_unknown_hash_witness"
   ],
   "note": "False of the code: h= naming only unknown hashes leaves the key unrestricted (C32_unknown_hash_witness). Proved: key type always matches, and the hash is listed whenever h= names at least one known hash. C32_exact says for every record and signature exactly when which restriction rejects."
  },
  {
   "property": "C33",
   "status": "partial",
   "theorems": [
    "Dkim.C33_other_service_witness",
    "Dkim.C33_service_ignored",
    "Dkim.C33_recorded_partial"
   ],
   "note": "False of the code: the service type is recorded but never checked (C33_service_ignored, C33_other_service_witness). Proved: what is recorded."
  },
  {
   "property": "C34",
   "status": "proved",
   "theorems": [
    "Dkim.C34_strict",
    "Dkim.C34_rejects"
   ],
   "note": ""
  },
  {
   "property": "C35",
   "status": "proved",
   "theorems": [
    "Dkim.C35_any_length",
    "Dkim.C35_hash_input",
    "Dkim.C35_first_is_last"
   ],
   "note": ""
  },
  {
   "property": "C36",
   "status": "proved",
   "theorems": [
    "Dkim.C36_success_iff",
    "Dkim.C36_failure_class"
   ],
   "note": ""
  },
  {
   "property": "C37",
   "status": "proved",
   "theorems": [
    "Dkim.C37_covered_only",
    "Dkim.C37_unsigned_fields",
    "Dkim.C37_insert"
   ],
   "note": ""
  },
  {
   "property": "C38",
   "status": "proved",
   "theorems": [
    "Dkim.C38_oversigned"
   ],
   "note": ""
  },
  {
   "property": "C39",
   "status": "proved",
   "theorems": [
    "Dkim.C39_accepts_iff",
    "Dkim.C39_two_messages",
    "Dkim.C39_tampering",
    "Dkim.C39_immaterial"
   ],
   "note": ""
  },
  {
   "property": "C40",
   "status": "proved",
   "theorems": [
    "Dkim.C40_order_irrelevant"
   ],
   "note": ""
  },
  {
   "property": "C41",
   "status": "proved",
   "theorems": [
    "Dkim.C41_discovery"
   ],
   "note": ""
  },
  {
   "property": "C42",
   "status": "proved",
   "theorems": [
    "Dkim.C42_lookup",
    "Dkim.C42_query_name"
   ],
   "note": ""
  },
  {
   "property": "C43",
   "status": "partial",
   "theorems": [
    "Dkim.C43_large_offset",
    "Dkim.C43_large_offset_witness",
    "Dkim.C43_exact",
    "Dkim.C43_short_signature_witness",
    "Dkim.C43_memory_safe_partial"
   ],
   "note": "False of the code: an Ed25519 signature shorter than 63 bytes is read beyond its buffer (C43_short_signature_witness), and a signature field of 2 GiB or more can end verification with std::out_of_range (C43_large_offset, C43_large_offset_witness). Proved: no other undefined behaviour or foreign exception is reachable in verification."
  },
  {
   "property": "C44",
   "status": "proved",
   "theorems": [
    "Dkim.C44_round_trip",
    "Dkim.C44_oversign_witness",
    "Dkim.C44_field_name_witness",
    "Dkim.C44_leading_space_witness",
    "Dkim.C44_ed25519_sha1_witness"
   ],
   "note": ""
  },
  {
   "property": "C45",
   "status": "partial",
   "theorems": [
    "Dkim.C45_exact",
    "Dkim.C45_plain",
    "Dkim.C45_form_partial",
    "Dkim.C45_names",
    "Dkim.C45_default_names",
    "Dkim.C45_name_length",
    "Dkim.C45_folded_name_witness"
   ],
   "note": "False of the code in sign-all mode: a folded field name is copied into h= and produces a line without leading TAB (C45_folded_name_witness). C45_exact: a generated field has only CRLF TAB line breaks if and only if that is true of every name signed; C45_form_partial adds the line lengths for names without line break, in particular for every selection made by name (C45_default_names)."
  },
  {
   "property": "C46",
   "status": "partial",
   "theorems": [
    "Dkim.C46_later_calls_partial",
    "Dkim.C46_empty_body_partial",
    "Dkim.C46_body_lost_witness",
    "Dkim.C46_field_twice_witness",
    "Dkim.C46_body_as_header_witness",
    "Dkim.C46_no_empty_line_partial",
    "Dkim.C46_nothing_added_partial",
    "Dkim.C46_history_partial",
    "Dkim.C46_history_total",
    "Dkim.C46_history_fresh_partial",
    "Dkim.C46_second_call_partial",
    "Dkim.C46_second_call_shorter_partial"
   ],
   "note": "False of the code: a second call sees the stream at its end and the last field again (C46_body_lost_witness, C46_field_twice_witness, C46_body_as_header_witness). What later calls sign is described exactly for every history: C46_history_partial with C46_history_total (message with an empty line, any calls with or without length limits), C46_no_empty_line_partial (message without). C46_second_call_partial: where the claim does hold after a call with a length limit."
  },
  {
   "property": "C47",
   "status": "partial",
   "theorems": [
    "Dkim.C47_own_type_partial",
    "Dkim.C47_wrong_type_rejected",
    "Dkim.C47_witness"
   ],
   "note": "False of the code: every field announces the key type of the first signature (C47_witness). Proved when all key types are the same; C47_wrong_type_rejected shows that a wrongly announced signature is always rejected. C47_own_type_partial: a field announces its own type if and only if it is that of the first signature."
  },
  {
   "property": "C48",
   "status": "proved",
   "theorems": [
    "Dkim.C48_signed_headers",
    "Dkim.C48_read_back"
   ],
   "note": ""
  },
  {
   "property": "C49",
   "status": "proved",
   "theorems": [
    "Dkim.C49_in_bounds"
   ],
   "note": ""
  },
  {
   "property": "C50",
   "status": "proved",
   "theorems": [
    "Dkim.C50_glibc_skips_names",
    "Dkim.C50_exact"
   ],
   "note": ""
  },
  {
   "property": "C51",
   "status": "proved",
   "theorems": [
    "Dkim.C51_headers",
    "Dkim.C51_delHeaders"
   ],
   "note": ""
  },
  {
   "property": "C52",
   "status": "partial",
   "theorems": [
    "Dkim.C52_key_buffers",
    "Dkim.C52_success_has_keys",
    "Dkim.C52_clean_failure_partial",
    "Dkim.C52_no_rsa_key",
    "Dkim.C52_unset_key_witness"
   ],
   "note": "False of the code: Ed25519 selected without a key reads 64 bytes of an empty buffer (C52_unset_key_witness). Proved for every other option history."
  },
  {
   "property": "C53",
   "status": "proved",
   "theorems": [
    "Dkim.C53_expired",
    "Dkim.C53_times",
    "Dkim.C53_nonneg",
    "Dkim.C53_negative_witness"
   ],
   "note": ""
  },
  {
   "property": "C54",
   "status": "proved",
   "theorems": [
    "Dkim.C54_unambiguous",
    "Dkim.C54_verified_twice",
    "Dkim.C54_leading_space_witness"
   ],
   "note": ""
  },
  {
   "property": "C55",
   "status": "proved",
   "theorems": [
    "Dkim.C55_generated"
   ],
   "note": ""
  },
  {
   "property": "C56",
   "status": "proved",
   "theorems": [
    "Dkim.C56_input_binds",
    "Dkim.C56_authentic"
   ],
   "note": ""
  },
  {
   "property": "C57",
   "status": "proved",
   "theorems": [
    "Dkim.C57_relay"
   ],
   "note": ""
  },
  {
   "property": "C58",
   "status": "proved",
   "theorems": [
    "Dkim.C58_sign_same"
   ],
   "note": ""
  },
  {
   "property": "C59",
   "status": "proved",
   "theorems": [
    "Dkim.C59_report",
    "Dkim.C59_ok_line",
    "Dkim.C59_abort_witness"
   ],
   "note": ""
  },
  {
   "property": "C60",
   "status": "proved",
   "theorems": [
    "Dkim.C60_main",
    "Dkim.C60_arc_value",
    "Dkim.C60_missing_message",
    "Dkim.C60_output",
    "Dkim.C60_round_trip",
    "Dkim.C60_options",
    "Dkim.C60_options_values",
    "Dkim.C60_arcinstance_witness",
    "Dkim.C60_status"
   ],
   "note": ""
  },
  {
   "property": "C61",
   "status": "proved",
   "theorems": [
    "Dkim.C61_ownership",
    "Dkim.C61_assignment_witness"
   ],
   "note": ""
  },
  {
   "property": "C62",
   "status": "partial",
   "theorems": [
    "Dkim.C62_exact",
    "Dkim.C62_always",
    "Dkim.C62_no_leak_partial",
    "Dkim.C62_reload_witness",
    "Dkim.C62_lent_witness",
    "Dkim.C62_failed_load_witness",
    "Dkim.C62_public_witness"
   ],
   "note": "The full claim is false: C62_reload_witness, C62_lent_witness, C62_failed_load_witness and C62_public_witness are histories that leak. C62_no_leak_partial proves it for histories in which keys are stored only into objects that hold none. C62_exact gives exactly the keys that leak in any history without assignments; C62_always is the invariant behind it."
  },
  {
   "property": "C63",
   "status": "proved",
   "theorems": [
    "Dkim.C63_no_nul",
    "Dkim.C63_brackets",
    "Dkim.C63_closed",
    "Dkim.C63_closed_example"
   ],
   "note": ""
  },
  {
   "property": "C64",
   "status": "proved",
   "theorems": [
    "Dkim.C64_decode_iff",
    "Dkim.C64_otherwise_error",
    "Dkim.C64_unique"
   ],
   "note": ""
  },
  {
   "property": "C65",
   "status": "proved",
   "theorems": [
    "Dkim.C65_decode_iff",
    "Dkim.C65_otherwise_error"
   ],
   "note": ""
  },
  {
   "property": "C66",
   "status": "partial",
   "theorems": [
    "Dkim.C66_report_readable_partial",
    "Dkim.C66_forged_line_witness",
    "Dkim.C66_explanation",
    "Dkim.C66_numbers",
    "Dkim.C66_one_line",
    "Dkim.C66_line_count"
   ],
   "note": "False of the code: error texts quote tag values of the key record and of the signature, which may contain line feeds, so the owner of a signing domain can make the tool print an OK line for any other domain and file (C66_forged_line_witness). Proved for all reports whose names contain no ] or LF and whose explanations contain no LF."
  },
  {
   "property": "C67",
   "status": "proved",
   "theorems": [
    "Dkim.C67_list_iff",
    "Dkim.C67_otherwise_error",
    "Dkim.C67_unique"
   ],
   "note": ""
  },
  {
   "property": "C68",
   "status": "proved",
   "theorems": [
    "Dkim.C68_total",
    "Dkim.C68_verdict"
   ],
   "note": ""
  },
  {
   "property": "C69",
   "status": "proved",
   "theorems": [
    "Dkim.C69_clock",
    "Dkim.C69_no_expiry",
    "Dkim.C69_earlier"
   ],
   "note": ""
  },
  {
   "property": "C70",
   "status": "proved",
   "theorems": [
    "Dkim.C70_one_name",
    "Dkim.C70_not_asked"
   ],
   "note": ""
  },
  {
   "property": "C71",
   "status": "proved",
   "theorems": [
    "Dkim.C71_signature",
    "Dkim.C71_key",
    "Dkim.C71_order"
   ],
   "note": ""
  },
  {
   "property": "C72",
   "status": "proved",
   "theorems": [
    "Dkim.C72_list_iff",
    "Dkim.C72_unique",
    "Dkim.C72_otherwise",
    "Dkim.C72_unsigned"
   ],
   "note": ""
  },
  {
   "property": "C73",
   "status": "proved",
   "theorems": [
    "Dkim.C73_quoted_printable",
    "Dkim.C73_encoded_words",
    "Dkim.C73_value_list",
    "Dkim.C73_tags",
    "Dkim.C73_addresses",
    "Dkim.C73_txt",
    "Dkim.C73_body",
    "Dkim.C73_field",
    "Dkim.C73_hashed_once",
    "Dkim.C73_hash_input"
   ],
   "note": ""
  },
  {
   "property": "C74",
   "status": "proved",
   "theorems": [
    "Dkim.C74_signing_again",
    "Dkim.C74_chain",
    "Dkim.C74_oversigned_witness"
   ],
   "note": ""
  },
  {
   "property": "C75",
   "status": "proved",
   "theorems": [
    "Dkim.C75_text",
    "Dkim.C75_outcome",
    "Dkim.C75_end_to_end",
    "Dkim.C75_truncated",
    "Dkim.C75_truncated_witness"
   ],
   "note": ""
  },
  {
   "property": "C76",
   "status": "proved",
   "theorems": [
    "Dkim.C76_testing",
    "Dkim.C76_body_witness"
   ],
   "note": ""
  },
  {
   "property": "C77",
   "status": "proved",
   "theorems": [
    "Dkim.C77_white_space",
    "Dkim.C77_value_list",
    "Dkim.C77_tag_list",
    "Dkim.C77_address_list",
    "Dkim.C77_quoted_printable",
    "Dkim.C77_encoded_word",
    "Dkim.C77_header"
   ],
   "note": ""
  },
  {
   "property": "C78",
   "status": "proved",
   "theorems": [
    "Dkim.C78_value_list",
    "Dkim.C78_tag_list",
    "Dkim.C78_address_list",
    "Dkim.C78_quoted_printable",
    "Dkim.C78_encoded_word",
    "Dkim.C78_header",
    "Dkim.C78_printed"
   ],
   "note": ""
  },
  {
   "property": "C79",
   "status": "proved",
   "theorems": [
    "Dkim.C79_private_key",
    "Dkim.C79_signatures",
    "Dkim.C79_last_wins",
    "Dkim.C79_getters"
   ],
   "note": ""
  },
  {
   "property": "C80",
   "status": "partial",
   "theorems": [
    "Dkim.C80_throwing_call_partial",
    "Dkim.C80_failed_key_witness"
   ],
   "note": "False of the code: SetPrivateKey on an RSA signature with a text that is neither PEM nor base64 of a DER key throws after having replaced the stored key by a null pointer (C80_failed_key_witness: options that could sign no longer can). Proved: in every other case a throwing call changes nothing, and what this one changes."
  },
  {
   "property": "C81",
   "status": "partial",
   "theorems": [
    "Dkim.C81_del_headers_partial",
    "Dkim.C81_own_list_witness"
   ],
   "note": "False of the code: DelHeaders(GetHeaders()) frees the node its loop stands on, for every non-empty list (C81_own_list_witness). Proved for every other argument."
  },
  {
   "property": "C82",
   "status": "proved",
   "theorems": [
    "Dkim.C82_stack_depth",
    "Dkim.C82_stack_depth_2GiB"
   ],
   "note": ""
  },
  {
   "property": "C83",
   "status": "partial",
   "theorems": [
    "Dkim.C83_complete_partial",
    "Dkim.C83_pipe_witness",
    "Dkim.C83_error_witness",
    "Dkim.C83_forged_witness"
   ],
   "note": "False of the code: a source that cannot be positioned (a pipe) is treated as having no body, and a read error as the end of the message; neither is reported (C83_pipe_witness, C83_error_witness), and a signature over an empty body verifies on a pipe that delivers any body (C83_forged_witness). Proved for sources that can be positioned, or have no body, and are read without error; C84 says what the other sources are taken for."
  },
  {
   "property": "C84",
   "status": "proved",
   "theorems": [
    "Dkim.C84_signing",
    "Dkim.C84_verification",
    "Dkim.C84_total",
    "Dkim.C84_body_ignored"
   ],
   "note": ""
  },
  {
   "property": "C85",
   "status": "proved",
   "theorems": [
    "Dkim.C85_message",
    "Dkim.C85_message_named",
    "Dkim.C85_results",
    "Dkim.C85_linear",
    "Dkim.C85_folded",
    "Dkim.C85_fields",
    "Dkim.C85_quadratic"
   ],
   "note": ""
  },
  {
   "property": "C86",
   "status": "partial",
   "theorems": [
    "Dkim.C86_message_witness",
    "Dkim.C86_message_no_linear_bound",
    "Dkim.C86_address_partial",
    "Dkim.C86_address_levels_partial",
    "Dkim.C86_address_log_partial",
    "Dkim.C86_nested_quotes_witness",
    "Dkim.C86_nested_folds",
    "Dkim.C86_escaped_break_witness",
    "Dkim.C86_rejected_steps",
    "Dkim.C86_quadratic_witness",
    "Dkim.C86_no_linear_bound",
    "Dkim.C86_linear_partial"
   ],
   "note": "False of the code: ValueList, FilterHeader, ParseAddressList and PublicKey::Parse take at least n*n steps on n spaces followed by an unfolded line break (C86_quadratic_witness, C86_no_linear_bound), reading a header block takes n*n steps on n continuation lines without a colon (C86_message_witness), and ParseAddressList is not linear on strings quoted several times even if there is no white space at all (C86_nested_quotes_witness). Proved: the other parsers on every text, and ValueList, FilterHeader and PublicKey::Parse on text in which every CRLF is followed by a space or tab (C86_linear_partial); ParseAddressList on such text without backslashes (C86_address_partial); on text whose CRs all stand in folds, backslashes allowed, ParseAddressList takes at most (63 + 5 log n)(n + 1) steps (C86_address_log_partial; C86_address_levels_partial in terms of the number of quotation marks and backslashes), which the nested quotes show to be the right order; C86_escaped_break_witness: with an escaped LF after CR in a quoted string it is quadratic again, so the condition on CRs is needed."
  },
  {
   "property": "C87",
   "status": "partial",
   "theorems": [
    "Dkim.C87_huge_field",
    "Dkim.C87_field_partial",
    "Dkim.C87_verifies_partial",
    "Dkim.C87_query_methods",
    "Dkim.C87_length",
    "Dkim.C87_quoted_identity",
    "Dkim.C87_space_before_value",
    "Dkim.C87_space_after_value",
    "Dkim.C87_signature_hashes_itself"
   ],
   "note": "False of the code in six cases, each with a witness that satisfies Rfc.Verifies and is rejected: a q= list (C87_query_methods), l= from 2^63 on (C87_length), an at-sign in the quoted local part of i= (C87_quoted_identity), white space before or after the value of b= (C87_space_before_value, C87_space_after_value: the code hashes that white space, RFC 6376 3.7 deletes it), and h= mentioning the signature field's own name more often than there are such fields below (C87_signature_hashes_itself). Proved for everything else: C87_verifies_partial (verification) and C87_field_partial (the parser and its getters). Conforming header fields are taken to have a name and CR only before LF; field lengths below 2^31. Fields of 2 GiB or more are excluded as well (C87_huge_field)."
  },
  {
   "property": "C88",
   "status": "proved",
   "theorems": [
    "Dkim.C88_key_record"
   ],
   "note": ""
  },
  {
   "property": "C89",
   "status": "proved",
   "theorems": [
    "Dkim.C89_valid_by_rfc"
   ],
   "note": ""
  },
  {
   "property": "C90",
   "status": "proved",
   "theorems": [
    "Dkim.C90_validatory",
    "Dkim.C90_signatory",
    "Dkim.C90_rewound",
    "Dkim.C90_not_rewound_witness",
    "Dkim.C90_sign_not_rewound_witness"
   ],
   "note": "The theorems hold for the stream in any state; C90_rewound says when \"unread\" is the whole message. C90_not_rewound_witness and C90_sign_not_rewound_witness show what happens without rewinding: the second object takes the body for the message. Later signatures of the same Signatory: C46."
  },
  {
   "property": "C91",
   "status": "partial",
   "theorems": [
    "Dkim.C91_independent_partial",
    "Dkim.C91_assign_copies",
    "Dkim.C91_alias_exact",
    "Dkim.C91_reaches",
    "Dkim.C91_own_members",
    "Dkim.C91_destroyed",
    "Dkim.C91_defined_partial",
    "Dkim.C91_alias_witness",
    "Dkim.C91_reset_witness"
   ],
   "note": "False of the code: the implicit assignment operator copies the pointers into the source object's list (C91_alias_witness: after a = b, a.SetDomain changes b; C91_reset_witness: after options = SignatoryOptions() the next setter is undefined behaviour). Proved: independence for every program without assignment (C91_independent_partial), no undefined call in them (C91_defined_partial), what an assignment copies (C91_assign_copies), and for all programs, assignments included, exactly which object a getter or setter reaches and when the call is undefined (C91_reaches, C91_own_members, C91_destroyed, C91_alias_exact)."
  },
  {
   "property": "C92",
   "status": "partial",
   "theorems": [
    "Dkim.C92_found_partial",
    "Dkim.C92_verdict_partial",
    "Dkim.C92_sign_partial",
    "Dkim.C92_utf8",
    "Dkim.C92_turkish_witness"
   ],
   "note": "False of the code for locales in which tolower('I') is not 'i' (C92_turkish_witness: signatures are not found, generated ones are invalid). Proved for every locale that treats ASCII as the \"C\" locale does and messages whose field names and identity contain no byte it treats differently (C92_found_partial, C92_verdict_partial, C92_sign_partial), and for every message if the locale agrees on all bytes (C92_utf8)."
  },
  {
   "property": "C93",
   "status": "proved",
   "theorems": [
    "Dkim.C93_signature",
    "Dkim.C93_all",
    "Dkim.C93_many_signatures",
    "Dkim.C93_no_linear_bound",
    "Dkim.C93_record"
   ],
   "note": "C93_signature, C93_all and C93_record are the upper bounds, C93_many_signatures and C93_no_linear_bound the lower one. Steps: stream calls, bytes read, copied, compared or hashed; base64, DNS transport and the public key operation are not counted."
  },
  {
   "property": "C94",
   "status": "proved",
   "theorems": [
    "Dkim.C94_sign",
    "Dkim.C94_size",
    "Dkim.C94_sign_named"
   ],
   "note": ""
  },
  {
   "property": "C95",
   "status": "partial",
   "theorems": [
    "Dkim.C95_valid_partial",
    "Dkim.C95_iff_partial",
    "Dkim.C95_other_hash",
    "Dkim.C95_other_service",
    "Dkim.C95_long_signature",
    "Dkim.C95_space_hashed",
    "Dkim.C95_signature_hashes_itself"
   ],
   "note": "Proved for every message and record in the grammar outside five cases, each refuted by a witness in which only that condition fails: the key record's h= names no known hash (C32), its s= names neither * nor email (C33), an Ed25519 signature that is not 64 bytes long (witness: a longer one), white space around the value of b= (hashed by the library, deleted by the RFC), h= naming the signature field itself. C95_iff_partial joins C87 and C95 to an equivalence."
  },
  {
   "property": "C96",
   "status": "proved",
   "theorems": [
    "Dkim.C96_default_fields",
    "Dkim.C96_emptied_list_signs_all"
   ],
   "note": ""
  },
  {
   "property": "C97",
   "status": "proved",
   "theorems": [
    "Dkim.C97_iteration",
    "Dkim.C97_same_tags",
    "Dkim.C97_parse_iff",
    "Dkim.C97_order_irrelevant"
   ],
   "note": ""
  },
  {
   "property": "C98",
   "status": "partial",
   "theorems": [
    "Dkim.C98_parse_signature",
    "Dkim.C98_public_key",
    "Dkim.C98_private_key",
    "Dkim.C98_body_hash",
    "Dkim.C98_check_signature",
    "Dkim.C98_sign_exact",
    "Dkim.C98_sign_partial",
    "Dkim.C98_sign_leaks",
    "Dkim.C98_leak_witness"
   ],
   "note": "The full claim is false: CreateSignature keeps the context it copies for the generated field in a raw pointer and loses it when FilterHeader throws. C98_sign_exact: that is the only loss there is (one context, relaxed header canonicalization, an oversign name with a bare CR, exception for that CR); C98_sign_leaks: it does happen whenever the same options sign without oversign names; C98_leak_witness is a concrete call. All other calls are proved in full (C98_parse_signature, C98_public_key, C98_private_key, C98_body_hash, C98_check_signature)."
  },
  {
   "property": "C99",
   "status": "proved",
   "theorems": [
    "Dkim.C99_spelled",
    "Dkim.C99_refused",
    "Dkim.C99_order",
    "Dkim.C99_keytype",
    "Dkim.C99_documented"
   ],
   "note": ""
  },
  {
   "property": "C100",
   "status": "proved",
   "theorems": [
    "Dkim.C100_signing",
    "Dkim.C100_construct",
    "Dkim.C100_check",
    "Dkim.C100_end_throws",
    "Dkim.C100_end_throws_check",
    "Dkim.C100_pipe_witness"
   ],
   "note": "C100_signing, C100_construct, C100_check: exception or the plain result; C100_end_throws, C100_end_throws_check: failbit/eofbit in the mask; C100_pipe_witness: the mask does not cure C83 for pipes."
  },
  {
   "property": "C101",
   "status": "partial",
   "theorems": [
    "Dkim.C101_body_exact",
    "Dkim.C101_signature_exact",
    "Dkim.C101_check_partial",
    "Dkim.C101_sign_partial",
    "Dkim.C101_accept",
    "Dkim.C101_unavailable_witness",
    "Dkim.C101_lost_update_witness"
   ],
   "note": "The full claim is false: no return value of a digest function is looked at. C101_body_exact and C101_signature_exact say for every pattern of failures what happens (digest of the pieces whose update succeeded, undefined behaviour if creation, initialization or the final call failed); C101_accept: what an accepted signature still means; C101_check_partial and C101_sign_partial: as long as no update fails a call ends as it should or with undefined behaviour. Witnesses: C101_unavailable_witness (every parsable signature where the digest is not available), C101_lost_update_witness (a replaced body accepted)."
  },
  {
   "property": "C102",
   "status": "proved",
   "theorems": [
    "Dkim.C102_text",
    "Dkim.C102_cause",
    "Dkim.C102_quoted",
    "Dkim.C102_two_names_witness"
   ],
   "note": "C102_text: table of beginnings and ends (Spec/Causes); C102_cause; C102_quoted; C102_two_names_witness: the two names quoted for an i= outside of d= cannot be separated in general."
  },
  {
   "property": "C103",
   "status": "partial",
   "theorems": [
    "Dkim.C103_read_partial",
    "Dkim.C103_agree_partial",
    "Dkim.C103_negative_rejected",
    "Dkim.C103_verdict_partial",
    "Dkim.C103_small_partial",
    "Dkim.C103_message_partial",
    "Dkim.C103_sign_partial",
    "Dkim.C103_written_witness",
    "Dkim.C103_expiry_witness",
    "Dkim.C103_errno_witness",
    "Dkim.C103_minus_witness"
   ],
   "note": "False as stated (witnesses: C103_expiry_witness, C103_errno_witness, C103_minus_witness, C103_written_witness). C103_small_partial, C103_message_partial: the whole outcome is the same where all numbers are below 2^(w-1) in absolute value, also for rejected fields and for all fields of a message in turn. C103_read_partial, C103_verdict_partial: exactly which fields agree (no negative numbers): l= below 2^(w-1) and, where x= is not, the clock is. C103_sign_partial: equal results for settings whose numbers fit w bits. C103_agree_partial: exactly which fields both programs read alike, without any condition; C103_negative_rejected: with a negative number one of them rejects the field."
  },
  {
   "property": "C104",
   "status": "proved",
   "theorems": [
    "Dkim.C104_mutex",
    "Dkim.C104_finish",
    "Dkim.C104_own",
    "Dkim.C104_race_witness"
   ],
   "note": "C104_mutex: verdicts under the lock, every schedule; C104_finish: no deadlock; C104_own: own streams, with and without lock; C104_race_witness: without the lock a forged body is accepted. A schedule chooses whose next stream access comes next; single accesses are atomic."
  }
 ]
}