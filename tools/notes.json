{
 "C18": {
  "note": "OpenSSL's base64 BIO is outside the repository: that it writes RFC 4648 base64 and reads it back is the explicit hypothesis BioLaw / Env.B64Law (shown satisfiable). The loops of src/Base64.cpp around it are modelled; sizes of 2 GiB and more are cut by the conversion to int (C18_oversize_witness)."
 },
 "C09": {
  "note": "False of the code on platforms where char is unsigned: an unterminated quoted string in an address list makes ParseAddressList loop for ever (C09_unsigned_char_witness; the loop compares a char with EOF). Proved for every input of every parser with signed char; with unsigned char C09_address_endless_iff gives exactly the texts on which ParseAddressList does not return."
 },
 "C15": {
  "note": "False of the code: with signed char the literal byte 0xFF makes a quoted string count as unterminated (C15_byte_ff_witness), and two adjacent escapes in a comment are misread (C15_adjacent_escapes_witness). Proved for all contents without these two cases. C72 gives the exact grammar of quoted strings and comments (Quoted, CommentText) with these two cases."
 },
 "C27": {
  "note": "False of the code: an empty l=, a plus sign and a negated number are accepted (C27_not_decimal_witness). Proved: a plain decimal number is read exactly; C27_accepted_forms gives the exact list of accepted texts and their values."
 },
 "C29": {
  "note": "False of the code: errno is tested without having been cleared (C29_stale_errno_witness). Proved for headers without l= (C29_no_length_tag_partial), and exactly what a stale errno does: the fields accepted are those accepted with a clean errno that have no l= tag, with the same result (C29_exact, C29_errno_only_rejects, C29_stale_rejects_length)."
 },
 "C32": {
  "note": "False of the code: h= naming only unknown hashes leaves the key unrestricted (C32_unknown_hash_witness). Proved: key type always matches, and the hash is listed whenever h= names at least one known hash. C32_exact says for every record and signature exactly when which restriction rejects."
 },
 "C33": {
  "note": "False of the code: the service type is recorded but never checked (C33_service_ignored, C33_other_service_witness). Proved: what is recorded."
 },
 "C43": {
  "note": "False of the code: an Ed25519 signature shorter than 63 bytes is read beyond its buffer (C43_short_signature_witness), and a signature field of 2 GiB or more can end verification with std::out_of_range (C43_large_offset, C43_large_offset_witness). Proved: no other undefined behaviour or foreign exception is reachable in verification."
 },
 "C45": {
  "note": "False of the code in sign-all mode: a folded field name is copied into h= and produces a line without leading TAB (C45_folded_name_witness). C45_exact: a generated field has only CRLF TAB line breaks if and only if that is true of every name signed; C45_form_partial adds the line lengths for names without line break, in particular for every selection made by name (C45_default_names)."
 },
 "C46": {
  "note": "False of the code: a second call sees the stream at its end and the last field again (C46_body_lost_witness, C46_field_twice_witness, C46_body_as_header_witness). What later calls sign is described exactly for every history: C46_history_partial with C46_history_total (message with an empty line, any calls with or without length limits), C46_no_empty_line_partial (message without). C46_second_call_partial: where the claim does hold after a call with a length limit."
 },
 "C47": {
  "note": "False of the code: every field announces the key type of the first signature (C47_witness). Proved when all key types are the same; C47_wrong_type_rejected shows that a wrongly announced signature is always rejected. C47_own_type_partial: a field announces its own type if and only if it is that of the first signature."
 },
 "C52": {
  "note": "False of the code: Ed25519 selected without a key reads 64 bytes of an empty buffer (C52_unset_key_witness). Proved for every other option history."
 },
 "C62": {
  "note": "The full claim is false: C62_reload_witness, C62_lent_witness, C62_failed_load_witness and C62_public_witness are histories that leak. C62_no_leak_partial proves it for histories in which keys are stored only into objects that hold none. C62_exact gives exactly the keys that leak in any history without assignments; C62_always is the invariant behind it."
 },
 "C66": {
  "note": "False of the code: error texts quote tag values of the key record and of the signature, which may contain line feeds, so the owner of a signing domain can make the tool print an OK line for any other domain and file (C66_forged_line_witness). Proved for all reports whose names contain no ] or LF and whose explanations contain no LF."
 },
 "C80": {
  "note": "False of the code: SetPrivateKey on an RSA signature with a text that is neither PEM nor base64 of a DER key throws after having replaced the stored key by a null pointer (C80_failed_key_witness: options that could sign no longer can). Proved: in every other case a throwing call changes nothing, and what this one changes."
 },
 "C81": {
  "note": "False of the code: DelHeaders(GetHeaders()) frees the node its loop stands on, for every non-empty list (C81_own_list_witness). Proved for every other argument."
 },
 "C83": {
  "note": "False of the code: a source that cannot be positioned (a pipe) is treated as having no body, and a read error as the end of the message; neither is reported (C83_pipe_witness, C83_error_witness), and a signature over an empty body verifies on a pipe that delivers any body (C83_forged_witness). Proved for sources that can be positioned, or have no body, and are read without error; C84 says what the other sources are taken for."
 },
 "C86": {
  "note": "False of the code: ValueList, FilterHeader, ParseAddressList and PublicKey::Parse take at least n*n steps on n spaces followed by an unfolded line break (C86_quadratic_witness, C86_no_linear_bound), reading a header block takes n*n steps on n continuation lines without a colon (C86_message_witness), and ParseAddressList is not linear on strings quoted several times even if there is no white space at all (C86_nested_quotes_witness). Proved: the other parsers on every text, and ValueList, FilterHeader and PublicKey::Parse on text in which every CRLF is followed by a space or tab (C86_linear_partial); ParseAddressList on such text without backslashes (C86_address_partial); on text whose CRs all stand in folds, backslashes allowed, ParseAddressList takes at most (63 + 5 log n)(n + 1) steps (C86_address_log_partial; C86_address_levels_partial in terms of the number of quotation marks and backslashes), which the nested quotes show to be the right order; C86_escaped_break_witness: with an escaped LF after CR in a quoted string it is quadratic again, so the condition on CRs is needed."
 },
 "C87": {
  "note": "False of the code in six cases, each with a witness that satisfies Rfc.Verifies and is rejected: a q= list (C87_query_methods), l= from 2^63 on (C87_length), an at-sign in the quoted local part of i= (C87_quoted_identity), white space before or after the value of b= (C87_space_before_value, C87_space_after_value: the code hashes that white space, RFC 6376 3.7 deletes it), and h= mentioning the signature field's own name more often than there are such fields below (C87_signature_hashes_itself). Proved for everything else: C87_verifies_partial (verification) and C87_field_partial (the parser and its getters). Conforming header fields are taken to have a name and CR only before LF; field lengths below 2^31. Fields of 2 GiB or more are excluded as well (C87_huge_field)."
 },
 "C91": {
  "note": "False of the code: the implicit assignment operator copies the pointers into the source object's list (C91_alias_witness: after a = b, a.SetDomain changes b; C91_reset_witness: after options = SignatoryOptions() the next setter is undefined behaviour). Proved: independence for every program without assignment (C91_independent_partial), no undefined call in them (C91_defined_partial), what an assignment copies (C91_assign_copies), and for all programs, assignments included, exactly which object a getter or setter reaches and when the call is undefined (C91_reaches, C91_own_members, C91_destroyed, C91_alias_exact)."
 },
 "C90": {
  "note": "The theorems hold for the stream in any state; C90_rewound says when \"unread\" is the whole message. C90_not_rewound_witness and C90_sign_not_rewound_witness show what happens without rewinding: the second object takes the body for the message. Later signatures of the same Signatory: C46."
 },
 "C92": {
  "note": "False of the code for locales in which tolower('I') is not 'i' (C92_turkish_witness: signatures are not found, generated ones are invalid). Proved for every locale that treats ASCII as the \"C\" locale does and messages whose field names and identity contain no byte it treats differently (C92_found_partial, C92_verdict_partial, C92_sign_partial), and for every message if the locale agrees on all bytes (C92_utf8)."
 },
 "C93": {
  "note": "C93_signature, C93_all and C93_record are the upper bounds, C93_many_signatures and C93_no_linear_bound the lower one. Steps: stream calls, bytes read, copied, compared or hashed; base64, DNS transport and the public key operation are not counted."
 },
 "C95": {
  "note": "Proved for every message and record in the grammar outside five cases, each refuted by a witness in which only that condition fails: the key record's h= names no known hash (C32), its s= names neither * nor email (C33), an Ed25519 signature that is not 64 bytes long (witness: a longer one), white space around the value of b= (hashed by the library, deleted by the RFC), h= naming the signature field itself. C95_iff_partial joins C87 and C95 to an equivalence."
 },
 "C98": {
  "note": "The full claim is false: CreateSignature keeps the context it copies for the generated field in a raw pointer and loses it when FilterHeader throws. C98_sign_exact: that is the only loss there is (one context, relaxed header canonicalization, an oversign name with a bare CR, exception for that CR); C98_sign_leaks: it does happen whenever the same options sign without oversign names; C98_leak_witness is a concrete call. All other calls are proved in full (C98_parse_signature, C98_public_key, C98_private_key, C98_body_hash, C98_check_signature)."
 },
 "C100": {
  "note": "C100_signing, C100_construct, C100_check: exception or the plain result; C100_end_throws, C100_end_throws_check: failbit/eofbit in the mask; C100_pipe_witness: the mask does not cure C83 for pipes."
 },
 "C101": {
  "note": "The full claim is false: no return value of a digest function is looked at. C101_body_exact and C101_signature_exact say for every pattern of failures what happens (digest of the pieces whose update succeeded, undefined behaviour if creation, initialization or the final call failed); C101_accept: what an accepted signature still means; C101_check_partial and C101_sign_partial: as long as no update fails a call ends as it should or with undefined behaviour. Witnesses: C101_unavailable_witness (every parsable signature where the digest is not available), C101_lost_update_witness (a replaced body accepted)."
 },
 "C102": {
  "note": "C102_text: table of beginnings and ends (Spec/Causes); C102_cause; C102_quoted; C102_two_names_witness: the two names quoted for an i= outside of d= cannot be separated in general."
 },
 "C103": {
  "note": "False as stated (witnesses: C103_expiry_witness, C103_errno_witness, C103_minus_witness, C103_written_witness). C103_small_partial, C103_message_partial: the whole outcome is the same where all numbers are below 2^(w-1) in absolute value, also for rejected fields and for all fields of a message in turn. C103_read_partial, C103_verdict_partial: exactly which fields agree (no negative numbers): l= below 2^(w-1) and, where x= is not, the clock is. C103_sign_partial: equal results for settings whose numbers fit w bits. C103_agree_partial: exactly which fields both programs read alike, without any condition; C103_negative_rejected: with a negative number one of them rejects the field."
 },
 "C104": {
  "note": "C104_mutex: verdicts under the lock, every schedule; C104_finish: no deadlock; C104_own: own streams, with and without lock; C104_race_witness: without the lock a forged body is accepted. A schedule chooses whose next stream access comes next; single accesses are atomic."
 }
}