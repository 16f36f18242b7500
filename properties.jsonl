{"id": "C01", "title": "Body canonicalization computes the RFC 6376 canonical body", "statement": "For every body and both modes, the bytes CanonicalizationBody hands to its callback, concatenated, are the canonical body: CR bytes deleted, lines split at LF, (relaxed) runs of SP/TAB collapsed to one SP and trailing WSP removed from each line, trailing empty lines removed, remaining lines joined by CRLF and terminated by one CRLF; an empty result is CRLF in simple mode and empty in relaxed mode.", "quantifier": "every byte string as body, both canonicalization modes", "why_tests_cant": "the state machine carries pending whitespace and pending newlines across positions; a test fixes finitely many bodies", "anchors": ["src/Canonicalization.cpp: DKIM::Conversion::CanonicalizationBody"]}
{"id": "C02", "title": "Body canonicalization does not depend on read-buffer boundaries", "statement": "The canonical body and the return value are the same whatever the size of the blocks in which the stream is read (the code reads 8096 bytes at a time), with or without a length limit.", "quantifier": "every body, every positive block size, every limit", "why_tests_cant": "a boundary can fall between any two bytes (CR|LF, WSP|LF ...); tests only use bodies shorter than one block", "anchors": ["src/Canonicalization.cpp: CanonicalizationBody (8096-byte buffer loop)"]}
{"id": "C03", "title": "Body length limit takes exactly a prefix", "statement": "With a body length limit n the bytes hashed are exactly the first n bytes of the canonical body, and the call reports success iff the canonical body has at least n bytes.", "quantifier": "every body, mode and limit n", "why_tests_cant": "the limit interacts with block boundaries, the early exit and the final CRLF", "anchors": ["src/Canonicalization.cpp: CanonicalizationBody (bodyLimit, bodySize)", "src/Signatory.cpp: CreateSignature"]}
{"id": "C04", "title": "Body canonicalization is insensitive to line-ending style and trailing blank lines", "statement": "Converting CRLF to LF (or deleting/adding CR bytes anywhere), appending empty lines at the end, and in relaxed mode changing the amount of whitespace inside runs or at line ends, never change the canonical body.", "quantifier": "every body and every such edit", "why_tests_cant": "an unbounded family of edits at every position", "anchors": ["src/Canonicalization.cpp: CanonicalizationBody"]}
{"id": "C05", "title": "Body canonicalization is idempotent and relaxed absorbs simple", "statement": "Canonicalizing an already canonical body of the same mode changes nothing; relaxed canonicalization of a simple-canonicalized body equals relaxed canonicalization of the original.", "quantifier": "every body, both modes", "why_tests_cant": "algebraic law over all inputs", "anchors": ["src/Canonicalization.cpp: CanonicalizationBody"]}
{"id": "C06", "title": "Header canonicalization computes the RFC 6376 canonical header field", "statement": "For every header field delivered by the message parser, FilterHeader in relaxed mode returns the lower-cased name without the white space before the colon (leading white space of the name is kept as one SP), ':', and the unfolded, whitespace-collapsed, trimmed value; it throws a permanent error exactly when the field has no colon or contains a CR that is not followed by LF; in simple mode it returns its input.", "quantifier": "every header field text that MailParser can produce, both modes", "why_tests_cant": "folding, whitespace runs and the colon can be arranged in unboundedly many ways", "anchors": ["src/Canonicalization.cpp: CanonicalizationHeader::FilterHeader", "src/Tokenizer.cpp: ReadWhiteSpace", "src/MailParser.cpp"]}
{"id": "C07", "title": "Header canonicalization is idempotent and its output is clean", "statement": "A relaxed-canonicalized header field contains no CR, no LF fold, no TAB, no two adjacent spaces and no trailing space, and canonicalizing it again returns it unchanged.", "quantifier": "every header field text that MailParser can produce", "why_tests_cant": "algebraic law over all inputs", "anchors": ["src/Canonicalization.cpp: CanonicalizationHeader::FilterHeader"]}
{"id": "C08", "title": "Whitespace reader consumes exactly an FWS and never loses bytes", "statement": "ReadWhiteSpace returns a prefix of the remaining input and leaves exactly the rest: in FWS mode the consumed text is WSP* or WSP* CRLF WSP+, and when a CRLF is not followed by WSP nothing is consumed; it throws only on a CR without LF.", "quantifier": "every stream content and every whitespace mode", "why_tests_cant": "the unwind (putback) path depends on the input shape", "anchors": ["src/Tokenizer.cpp: ReadWhiteSpace"]}
{"id": "C09", "title": "Every parser terminates on every input", "statement": "ReadWhiteSpace loops, ValueList, ParseAddressList (including its recursion into quoted strings), TagList::Parse, QuotedPrintable::Decode, EncodedWord::Decode, FilterHeader, the message header loop and the DNS answer loop all return or throw for every finite input.", "quantifier": "every finite byte string given to each parser", "why_tests_cant": "non-termination cannot be observed by a finite run; needs a decreasing measure for all inputs", "anchors": ["src/Tokenizer.cpp", "src/TagList.cpp", "src/QuotedPrintable.cpp", "src/EncodedWord.cpp", "src/Canonicalization.cpp", "src/MailParser.cpp", "src/Resolver.cpp"]}
{"id": "C10", "title": "Colon lists parse back to the values they were written from", "statement": "ValueList applied to values joined by ':' with arbitrary FWS around them returns exactly those values in order; every value it ever returns is non-empty, contains no ':' and is a contiguous piece of the input.", "quantifier": "every list of valid values and every placement of folding whitespace; every input for the second half", "why_tests_cant": "unbounded lists and whitespace placements", "anchors": ["src/Tokenizer.cpp: ValueList"]}
{"id": "C11", "title": "Tag lists are accepted exactly according to the tag=value grammar", "statement": "TagList::Parse on a fresh object succeeds iff the text is a ';'-separated list of [ws] name [ws] = [ws] value [ws] items with pairwise distinct names and an optional trailing ';', and then GetTag returns for each name exactly its value (inner whitespace kept, outer removed) and false for every other name.", "quantifier": "every byte string", "why_tests_cant": "grammar equivalence over all strings, both directions", "anchors": ["src/TagList.cpp: TagList::Parse, TagList::GetTag"]}
{"id": "C12", "title": "A tag's recorded offset and length delimit exactly its raw value", "statement": "After a successful TagList::Parse, for every tag with a non-empty value the input bytes at [offset, offset+length) are exactly the value, so erasing that range removes the value and nothing else.", "quantifier": "every tag list text and every tag in it", "why_tests_cant": "relied on to blank the b= tag before hashing; must hold for every whitespace layout", "anchors": ["src/TagList.cpp: TagListEntry::SetValueOffset", "src/Validatory.cpp: CheckSignature (v.erase)"]}
{"id": "C13", "title": "Duplicate tags are rejected, also across calls without Reset", "statement": "A tag list in which a name occurs twice is rejected; parsing into an object that already holds a tag of that name is rejected; a tag already stored is never overwritten or lost by any sequence of Parse calls, including failing ones.", "quantifier": "every history of Parse calls on one object", "why_tests_cant": "history property over unbounded call sequences including exceptions midway", "anchors": ["src/TagList.cpp: TagList::Parse, TagList::Reset"]}
{"id": "C14", "title": "Address lists written in plain form parse back exactly", "statement": "ParseAddressList applied to mailboxes - a one-word addr-spec with comments around it, or an addr-spec made of words, quoted strings and comments in angle brackets after any display name - separated by commas or semicolons, with folding white space between the parts, returns exactly the addr-specs in order.", "quantifier": "every list of addresses built from atoms, display names, angle addresses", "why_tests_cant": "unbounded lists of mailboxes", "anchors": ["src/Tokenizer.cpp: NextAddressListToken, ParseAddressList"]}
{"id": "C15", "title": "Address parsing treats every quoted byte and every escaped byte literally", "statement": "Inside a quoted string any byte except '\"' and '\\\\' stands for itself and backslash escapes any byte; inside a comment an escaped parenthesis never closes or opens the comment.", "quantifier": "every quoted string and every comment content", "why_tests_cant": "byte- and adjacency-dependent", "anchors": ["src/Tokenizer.cpp: NextAddressListToken"]}
{"id": "C16", "title": "Quoted-printable decoding inverts encoding", "statement": "QuotedPrintable::Decode(QuotedPrintable::Encode(x)) = x for every byte string x.", "quantifier": "every byte string", "why_tests_cant": "round trip over all byte strings", "anchors": ["src/QuotedPrintable.cpp: Decode, Encode"]}
{"id": "C17", "title": "Quoted-printable encoding is safe inside a tag value", "statement": "Every byte of Encode(x) is printable ASCII other than ';' and space, and '=' occurs only as the start of '=' plus two upper-case hex digits.", "quantifier": "every byte string", "why_tests_cant": "no-injection claim over all inputs", "anchors": ["src/QuotedPrintable.cpp: Encode", "src/Signatory.cpp: CreateSignature (i=)"]}
{"id": "C18", "title": "Base64 decoding inverts encoding and encoded text is safe to fold", "statement": "Base64_Decode(Base64_Encode(x)) = x for every x whose encoding is below 2 GiB, in whatever pieces OpenSSL delivers data; the encoding uses only A-Z a-z 0-9 + / =, its length is 4*ceil(n/3), and inserting whitespace that the caller strips again does not change the decoded value.", "quantifier": "every byte string, every folding", "why_tests_cant": "round trip over all byte strings", "anchors": ["src/Base64.cpp", "src/Signature.cpp: Parse (b, bh)", "src/Signatory.cpp: CreateSignature"]}
{"id": "C19", "title": "Encoded-word decoding", "statement": "EncodedWord::Decode of '=?cs?B?base64(x)?=' is x for every x; adjacent encoded words separated by linear whitespace decode to the concatenation; text that contains no '=?' and no CR and has no surrounding whitespace decodes to itself.", "quantifier": "every byte string x, every charset label, every list of encoded words, every plain text", "why_tests_cant": "round trip over all inputs", "anchors": ["src/EncodedWord.cpp: EncodedWord::Decode"]}
{"id": "C20", "title": "Header block parsing is lossless and finds the first empty line", "statement": "For every message, the parser delivers the header fields in order with folded lines joined by CRLF, so that joining the fields by CRLF restores the header block (modulo LF vs CRLF line ends); the body offset is the position right after the first empty line, or -1 if there is none.", "quantifier": "every byte string as message", "why_tests_cant": "arbitrary line structure", "anchors": ["src/MailParser.cpp: Message::ParseLine, Header::ParseLine"]}
{"id": "C21", "title": "Header parsing does not depend on the line-ending style", "statement": "A message whose lines end in LF and the same message with CRLF line ends yield the same list of header names and texts.", "quantifier": "every list of lines", "why_tests_cant": "unbounded family of messages", "anchors": ["src/MailParser.cpp: Message::ParseLine"]}
{"id": "C22", "title": "Header fields are delivered well-folded", "statement": "No delivered header field contains an LF other than as part of CRLF followed by SP or TAB, and its name contains no ':' and no surrounding WSP.", "quantifier": "every message", "why_tests_cant": "needed so that a header field can never smuggle another one into the hash", "anchors": ["src/MailParser.cpp"]}
{"id": "C23", "title": "Domain validation accepts exactly dot-separated LDH labels", "statement": "ValidateDomain(s) holds iff s splits at '.' into non-empty labels of ASCII letters, digits and '-' that begin and end with a letter or digit.", "quantifier": "every byte string", "why_tests_cant": "iff over all strings", "anchors": ["src/Util.cpp: ValidateDomain, ValidateSubDomain"]}
{"id": "C24", "title": "Signing options never hold an unsafe domain or selector", "statement": "After any sequence of option setters (including throwing ones) every domain and selector stored is either empty (never set) or passes domain validation, so d= and s= can never inject tags, lines or headers.", "quantifier": "every history of setter calls on SignatoryOptions and its additional signatures", "why_tests_cant": "history property", "anchors": ["src/SignatoryOptions.cpp: SetDomain, SetSelector, AddAdditionalSignature"]}
{"id": "C25", "title": "An accepted signature header has all mandatory tags with legal values", "statement": "If Signature::Parse accepts a header on a fresh object then d, a, b, bh, h, s (and v=1 for DKIM, i in 1..50 for ARC) are present, a is one of the three supported algorithms, c and q are legal, From is among the signed headers, and the getters return exactly these values; a header lacking any of them is rejected with a permanent error.", "quantifier": "every header text", "why_tests_cant": "iff over all inputs", "anchors": ["src/Signature.cpp: Signature::Parse"]}
{"id": "C26", "title": "The agent identity is always inside the signing domain", "statement": "For every accepted DKIM signature the i= domain equals d or ends in '.' followed by d (case-insensitively); without i= it equals d.", "quantifier": "every accepted signature header", "why_tests_cant": "suffix arithmetic must hold for all lengths", "anchors": ["src/Signature.cpp: Signature::Parse (i)"]}
{"id": "C27", "title": "Body length tag is the decimal number written", "statement": "If l= is accepted, its value is a plain decimal number below 2^63 and GetBodySize returns exactly it.", "quantifier": "every l= value", "why_tests_cant": "strtoul edge cases (signs, empty, overflow) over all strings", "anchors": ["src/Signature.cpp: Signature::Parse (l)"]}
{"id": "C28", "title": "Expired signatures are rejected", "statement": "A signature whose x= decimal value is less than the current time is rejected; one whose x= is a decimal number not less than the current time is not rejected for expiry.", "quantifier": "every x= value and every clock value", "why_tests_cant": "strtol saturation over all strings", "anchors": ["src/Signature.cpp: Signature::Parse (x)"]}
{"id": "C29", "title": "Parsing a signature does not depend on earlier calls", "statement": "The outcome of Signature::Parse on a fresh Signature object is a function of the header and the clock only, whatever was parsed earlier in the thread.", "quantifier": "every history of earlier parses", "why_tests_cant": "errno is thread-global state; only a history exposes it", "anchors": ["src/Signature.cpp: Signature::Parse (errno == ERANGE)"]}
{"id": "C30", "title": "A signature object can be filled at most once per Reset", "statement": "After a successful Signature::Parse, a further Parse on the same object without Reset of any header that repeats a stored tag - in particular of any header that a fresh object would accept - fails with a permanent error and loses or changes none of the stored tags; after any history of Parse and Reset calls ending in Reset the object behaves like a fresh one. The same holds for PublicKey.", "quantifier": "every history of Parse/Reset calls", "why_tests_cant": "history property", "anchors": ["src/Signature.cpp: Reset, Parse", "src/PublicKey.cpp: Reset, Parse"]}
{"id": "C31", "title": "Revoked, malformed or unsupported keys are never accepted", "statement": "PublicKey::Parse on a fresh object succeeds only if v (when present) is DKIM1, k (when present) is rsa or ed25519, p is present and non-empty and decodes to an RSA SubjectPublicKeyInfo (rsa) or exactly 32 bytes (ed25519).", "quantifier": "every TXT record", "why_tests_cant": "over all inputs", "anchors": ["src/PublicKey.cpp: PublicKey::Parse"]}
{"id": "C32", "title": "A key is only used with algorithms it allows", "statement": "CheckSignature succeeds only if the signature's key type equals the key record's k and, when the key record has an h= tag, the signature's hash is listed there.", "quantifier": "every signature and key record", "why_tests_cant": "over all pairs", "anchors": ["src/Validatory.cpp: CheckSignature", "src/PublicKey.cpp: Parse (h)"]}
{"id": "C33", "title": "A key restricted to other services is not used for e-mail", "statement": "If the key record's s= tag lists service types but neither '*' nor 'email', verification of a message against it fails.", "quantifier": "every key record and signature", "why_tests_cant": "over all pairs", "anchors": ["src/PublicKey.cpp: Parse (s)", "src/Validatory.cpp: CheckSignature"]}
{"id": "C34", "title": "Strict-domain keys are honoured", "statement": "If the key's t= flags contain 's', CheckSignature of a DKIM signature fails unless the i= domain equals d exactly.", "quantifier": "every signature and key", "why_tests_cant": "over all pairs", "anchors": ["src/Validatory.cpp: CheckSignature", "src/PublicKey.cpp: Parse (t)"]}
{"id": "C35", "title": "The verifier hashes exactly the header fields h= selects, bottom-up", "statement": "The header hash input is, for each name in h= in order, the canonical form plus CRLF of the k-th field from the bottom with that name (case-insensitive), where k counts the earlier mentions of the name, nothing if there are fewer; followed by the canonical signature field with the b= value removed and no CRLF.", "quantifier": "every message, every h= list", "why_tests_cant": "unbounded repetition counts and orders", "anchors": ["src/Validatory.cpp: CheckSignature"]}
{"id": "C36", "title": "Verification success means the cryptographic check succeeded on that hash input", "statement": "CheckSignature returns normally iff the algorithm/flag checks hold and the RSA/Ed25519 verification primitive accepts the signature data for the digest of exactly that hash input under the given key; otherwise it throws, with result class 'fail' when only the cryptographic check failed.", "quantifier": "every message, signature and key, for arbitrary cryptographic primitives", "why_tests_cant": "over all inputs and all primitives", "anchors": ["src/Validatory.cpp: CheckSignature"]}
{"id": "C37", "title": "Fields that are not signed do not influence verification", "statement": "Adding, removing or changing header fields whose name is not in h= does not change the outcome of CheckSignature; neither does inserting further fields of a signed name above the ones already covered.", "quantifier": "every message, signature and edit", "why_tests_cant": "over all edits", "anchors": ["src/Validatory.cpp: CheckSignature"]}
{"id": "C38", "title": "Oversigning detects added header fields", "statement": "If a name occurs in h= more often than in the message, then inserting another field of that name changes the header hash input.", "quantifier": "every message, signature and inserted field", "why_tests_cant": "over all edits", "anchors": ["src/Validatory.cpp: CheckSignature", "src/Signatory.cpp: CreateSignature (oversign)"]}
{"id": "C39", "title": "Body tampering is detected up to hash collisions", "statement": "If the body hash check accepts two messages for the same signature then their canonical bodies (cut at l=) are equal or form a collision of the digest function.", "quantifier": "every pair of messages and every digest function", "why_tests_cant": "reduction statement over all inputs", "anchors": ["src/Validatory.cpp: CheckBodyHash"]}
{"id": "C40", "title": "Verification results do not depend on the order or number of checks", "statement": "On one Validatory object, any sequence of body hash and signature checks in any order gives for each check the same result as on a freshly constructed object.", "quantifier": "every history of calls on a Validatory", "why_tests_cant": "the stream position and state bits are shared mutable state", "anchors": ["src/Validatory.cpp", "src/Canonicalization.cpp (clear, seekg)"]}
{"id": "C41", "title": "Signature discovery", "statement": "Validatory lists exactly the header fields named DKIM-Signature (or ARC-Message-Signature in ARC mode, none in NONE mode), compared case-insensitively, in message order.", "quantifier": "every message", "why_tests_cant": "over all messages", "anchors": ["src/Validatory.cpp: Validatory::Validatory"]}
{"id": "C42", "title": "Temporary and permanent key errors are distinguished", "statement": "GetPublicKey throws a temporary error iff the resolver reports failure; an empty record, and every malformed record, is a permanent error; the name queried is selector._domainkey.domain.", "quantifier": "every resolver behaviour, signature", "why_tests_cant": "over all resolver answers", "anchors": ["src/Validatory.cpp: GetPublicKey"]}
{"id": "C43", "title": "Verification never reads outside its buffers", "statement": "No sequence of Parse and CheckSignature calls on a message and key record reaches undefined behaviour (out-of-bounds read of the signature or key buffer).", "quantifier": "every message and key record", "why_tests_cant": "memory safety for all inputs", "anchors": ["src/Validatory.cpp: CheckSignature (crypto_sign_verify_detached)", "src/PublicKey.cpp"]}
{"id": "C44", "title": "Sign then verify succeeds", "statement": "For every message and option set for which the following hold - the message does not begin with SP or TAB; every name to be listed in h= is a legal field name and From is among them; no oversigned name is that of a field that is present and not signed, or of the generated field itself; the ARC instance is 0 or 1..50 and without identity when non-zero, and a given identity lies in or below each signing domain; a length limit is below 2^63; all signatures use the same key type, Ed25519 only with SHA-256; the expiration requested is not in the past when verifying - if CreateSignature returns H (shorter than 2^31 bytes) then, in the message H CRLF message, one signature field per signature requested is found first and in order, and GetSignature, key lookup and CheckSignature succeed on each with the matching published key, in any order and any number of times, for RSA and Ed25519, both canonicalizations, DKIM and ARC, with length limit, identity, timestamp, expiration, oversigning and additional signatures; the domain, selector and identity read back are those requested.", "quantifier": "every message, option set, key pair for which sign/verify are inverse", "why_tests_cant": "end-to-end round trip over all messages and options", "anchors": ["src/Signatory.cpp: CreateSignature", "src/Validatory.cpp", "src/Signature.cpp", "src/TagList.cpp"]}
{"id": "C45", "title": "Generated headers are well-formed and folded", "statement": "The text CreateSignature returns consists of header fields whose continuation lines all start with a TAB, contains no bare LF or empty line, and every folded h= and b= line has bounded length.", "quantifier": "every message and option set", "why_tests_cant": "over all messages and options", "anchors": ["src/Signatory.cpp: CreateSignature"]}
{"id": "C46", "title": "CreateSignature can be called repeatedly", "statement": "Calling CreateSignature again on the same Signatory with the same options returns a signature over the same body and headers.", "quantifier": "every history of CreateSignature calls", "why_tests_cant": "history property: parser and stream state are kept in the object", "anchors": ["src/Signatory.cpp: CreateSignature", "src/MailParser.cpp"]}
{"id": "C47", "title": "Additional signatures are announced with their own algorithm", "statement": "Each generated signature's a= tag names the key type with which that signature was made.", "quantifier": "every option set with additional signatures", "why_tests_cant": "over all option sets", "anchors": ["src/Signatory.cpp: CreateSignature (Algorithm2String)"]}
{"id": "C48", "title": "All instances of the selected headers are signed, bottom-up", "statement": "CreateSignature's h= list names every header field of the message whose name is selected (all named fields if the selection is empty), once per instance from the bottom of the message up, followed by the oversign names.", "quantifier": "every message and selection", "why_tests_cant": "over all messages", "anchors": ["src/Signatory.cpp: CreateSignature"]}
{"id": "C49", "title": "DNS answer parsing stays inside the answer", "statement": "For every byte string returned by the resolver as answer, GetTXT reads only bytes inside the answer (apart from the counts in the fixed-size header of its zero-filled buffer) and returns.", "quantifier": "every DNS answer", "why_tests_cant": "adversarial input; memory safety for all byte strings", "anchors": ["src/Resolver.cpp: Resolver::GetTXT"]}
{"id": "C50", "title": "DNS TXT extraction is exact", "statement": "For every well-formed DNS answer, GetTXT returns the concatenation of all character-strings of the TXT records in order, skipping records of other types.", "quantifier": "every list of records", "why_tests_cant": "unbounded answers", "anchors": ["src/Resolver.cpp: Resolver::GetTXT"]}
{"id": "C51", "title": "Header selection list operations", "statement": "SetHeaders/AddHeaders/DelHeaders act as list replacement, append and removal of all equal entries; after any history the selected set is what these list operations produce from the default RFC list.", "quantifier": "every history of calls", "why_tests_cant": "history property", "anchors": ["src/SignatoryOptions.cpp: SetHeaders, AddHeaders, DelHeaders"]}
{"id": "C52", "title": "Signing fails cleanly without a usable key", "statement": "CreateSignature with no key of the selected type throws a permanent error and never reads an unset key buffer.", "quantifier": "every option history", "why_tests_cant": "memory safety over all histories", "anchors": ["src/Signatory.cpp: CreateSignature (signing switch)", "src/SignatoryOptions.cpp: SetPrivateKey, SetSignatureAlgorithm"]}
{"id": "C53", "title": "Timestamps and expirations are written as requested", "statement": "Each generated header carries t= exactly if a timestamp was requested, namely the timestamp set (current time if -1), and x= exactly if an expiration was requested, namely e if absolute and time + e if relative, the time being the timestamp written or else the current time; both as the decimal number of that time modulo 2^64, i.e. the time itself when it is not negative. After its expiration a generated signature is rejected with a permanent error, before any key lookup. (A negative time is therefore written as a huge one, which the verifier treats as far in the future; a witness shows it.)", "quantifier": "every option set and clock", "why_tests_cant": "over all values, including negative ones", "anchors": ["src/Signatory.cpp: CreateSignature (t, x)", "src/SignatoryOptions.cpp: SetTimestamp, SetExpiration"]}
{"id": "C54", "title": "The signed header block is unambiguous", "statement": "Two messages that give the same header hash input under the same signature select the same sequence of canonical header fields (up to the digest), i.e. distinct field sequences never concatenate to the same hash input. (With simple header canonicalization this is claimed for messages whose first byte is not white space; a message that starts with a folded line is ambiguous, as a witness shows.) Consequently, if one signature header verifies under one key in two messages, their covered fields agree canonically unless the digest collides or the primitive accepts one signature for two digests.", "quantifier": "every pair of messages", "why_tests_cant": "injectivity over all inputs", "anchors": ["src/Validatory.cpp: CheckSignature", "src/Canonicalization.cpp: FilterHeader"]}
{"id": "C55", "title": "Exact output of CreateSignature", "statement": "CreateSignature returns one header field per signature entry, the last added first, separated by CRLF; each field is exactly the tags v=1 (or i=instance for ARC), a, c, t, x, d, s, i, l, h, bh, b in that order with the requested values, bh being the base64 of the digest of the canonical body (cut at the length limit), and b the base64 of a signature made with that entry's key over the digest of the canonical signed fields, each followed by CRLF, followed by the canonical form of the generated field itself up to b=. A length limit above the canonical body length never yields a signature.", "quantifier": "every message, option set and clock", "why_tests_cant": "exact output over all messages and options", "anchors": ["src/Signatory.cpp: CreateSignature"]}
{"id": "C56", "title": "A verified message is one the key holder signed", "statement": "If verification of a signature field of a message succeeds, and the primitive accepts its signature data only for digests of hash inputs the key holder signed (unforgeability), then the key holder signed a message whose signature field makes the same claims (every tag but b= equal up to white space, same algorithms, canonicalizations, body hash and length), whose covered header fields have the same canonical forms one by one, and whose canonical body agrees up to l= - or two different texts with the same digest exist. The hash input alone determines the claims and the covered fields. (For messages that do not begin with white space, see C54.)", "quantifier": "every message, signature field, key record and signing history", "why_tests_cant": "injectivity of the hash input over all pairs of messages and signature fields, and over all signing histories", "anchors": ["src/Validatory.cpp: CheckSignature, CheckBodyHash", "src/Signature.cpp: Parse", "src/TagList.cpp: Parse", "src/Canonicalization.cpp: FilterHeader, FilterBody"]}
{"id": "C57", "title": "Signatures survive permitted changes in transit", "statement": "If a message with a signature field is changed, in any number of steps, by inserting or removing fields that lie above as many fields of that name as the signature covers, by swapping neighbouring fields of different names, by refolding a field or changing its white space or the case of its name (relaxed header canonicalization), by immaterial body changes (line end style, trailing blank lines, and under relaxed runs of white space), or by appending to the body after a signed length that complete lines already reach, then verification of that signature has the same outcome.", "quantifier": "every message, every sequence of permitted changes, every signature field and key record", "why_tests_cant": "a relational property over all pairs of messages connected by arbitrarily long sequences of changes", "anchors": ["src/Validatory.cpp: CheckSignature, CheckBodyHash, GetSignedHeaders", "src/Canonicalization.cpp: FilterHeader, FilterBody", "src/MailParser.cpp: ParseLine"]}
{"id": "C58", "title": "Signing ignores what it does not cover", "statement": "CreateSignature gives the very same result (text or error) for two messages that differ only in fields not selected for signing, in the folding, white space or name case of fields under relaxed header canonicalization, and in immaterial body changes.", "quantifier": "every pair of such messages, option set and clock", "why_tests_cant": "non-interference over all pairs of messages", "anchors": ["src/Signatory.cpp: CreateSignature", "src/Canonicalization.cpp"]}
{"id": "C59", "title": "The tool reports every signature truthfully", "statement": "libdkimtest -v prints, for the files on the command line in order, exactly one line per signature field that the library lists in that file, in message order: with the file name, the domain and selector parsed, and the outcome that verification of that field by itself (fresh objects, that file only) has: OK iff it succeeds, TEMPERR iff it throws TemporaryError, otherwise SOFT iff the key is flagged t=y, else the permanent error. It then ends with status 0. Files that cannot be opened contribute no line. The process ends earlier only in the cases of C43. An OK line is only printed if the library accepts that field also with a clean errno.", "quantifier": "every list of files, contents, resolver, clock, errno history", "why_tests_cant": "over all file lists, message texts and histories of earlier verifications in the same process", "anchors": ["tools/src/main.cpp: main (validation loop)", "src/Validatory.cpp", "src/PublicKey.hpp: SoftFail"]}
{"id": "C60", "title": "The tool signs what it is told to", "statement": "Without -v, libdkimtest writes exactly the text CreateSignature returns for the key file, domain and selector given last on the command line, relaxed canonicalization, the default header list, the current time as timestamp and an expiration one second later, followed by CRLF, and ends with status 0; if anything fails it writes nothing and ends with status 1; it never crashes. Put in front of the message (which must not begin with white space and must have a From field), that text makes libdkimtest -v report OK for domain and selector up to that second, and a permanent error ever after. (A message file that cannot be opened is signed as an empty message; --arcinstance reads a null pointer.)", "quantifier": "every command line, message, key and clock", "why_tests_cant": "round trip over all messages, command lines and times", "anchors": ["tools/src/main.cpp: main", "src/Signatory.cpp: CreateSignature", "src/Validatory.cpp"]}
{"id": "C61", "title": "RSA keys are freed at most once, never in use, and never when merely lent", "statement": "In every sequence of creating SignatoryOptions and PublicKey objects, adding signatures, loading keys, handing over or lending keys with SetRSAPrivateKey, calling Reset and destroying objects (in any order and interleaving, failures included), RSA_free is called at most once per RSA object, no live object keeps a pointer to a freed RSA object, and a key the caller passed with privatekeyfree=false is never freed. (Excluded: the assignment operator the compiler supplies, which is shown to break this.)", "quantifier": "all histories of calls on any number of objects, all outcomes of key loading", "why_tests_cant": "A test frees a few objects in one order; the claim is about all interleavings of object lifetimes.", "anchors": ["src/SignatoryOptions.cpp: SetRSAPrivateKey, SetPrivateKey, ~AdditionalSignaturesOptions", "src/PublicKey.cpp: Parse, Reset"]}
{"id": "C62", "title": "No RSA key is leaked", "statement": "Once all SignatoryOptions and PublicKey objects are destroyed, every RSA object the library loaded and every RSA object handed to it with privatekeyfree=true has been freed exactly once.", "quantifier": "all histories of calls on any number of objects, all outcomes of key loading", "why_tests_cant": "Leaks depend on the history of calls on one object (reloading, failed loads, lending before loading), which a test samples.", "anchors": ["src/SignatoryOptions.cpp: SetRSAPrivateKey, SetPrivateKey, ~AdditionalSignaturesOptions", "src/PublicKey.cpp: Parse, Reset"]}
{"id": "C63", "title": "Accepted address lists contain no NUL byte and close every bracket", "statement": "If ParseAddressList accepts a text, the text contains no NUL byte, and every quoted string, comment and angle-bracket address in it is closed.", "quantifier": "every header text", "why_tests_cant": "over all texts; a test only shows that sampled malformed lists are refused", "anchors": ["src/Tokenizer.cpp: ParseAddressList, NextAddressListToken"]}
{"id": "C64", "title": "Quoted-printable decoding accepts exactly its grammar", "statement": "QuotedPrintable::Decode succeeds on a text iff the text is a sequence of safe characters (printable ASCII except ; and =), =HH with upper-case hex digits, SP, TAB and CRLF before SP or TAB; it then returns the bytes this stands for (white space for nothing, and _ for a space in the Q encoding), which are unique; every other text throws PermanentError.", "quantifier": "every text, both encodings", "why_tests_cant": "an exact characterization of accepted language and result over all texts", "anchors": ["src/QuotedPrintable.cpp: Decode"]}
{"id": "C65", "title": "Encoded-word decoding is exactly specified for every text", "statement": "EncodedWord::Decode skips leading folding white space, replaces each =?charset?encoding?data?= that is followed by white space or the end and whose encoding is q or b (data legal) by the data decoded, together with the white space before it; everything else that looks like the beginning of an encoded word is kept, other characters are kept, CRLF is dropped, and white space at the end is dropped. It throws PermanentError iff no such reading exists (a bare CR).", "quantifier": "every text", "why_tests_cant": "an exact characterization over all texts, including all truncated and malformed encoded words", "anchors": ["src/EncodedWord.cpp: Decode", "src/QuotedPrintable.cpp: Decode", "src/Base64.cpp"]}
{"id": "C66", "title": "The tool's report can be read back", "statement": "The bytes libdkimtest -v prints determine how many signatures were reported and for each its file, domain, selector and kind of verdict (OK, TEMPERR, SOFT or permanent error, with its authentication result class), whatever messages and key records contain.", "quantifier": "every run: all files, message texts, key records", "why_tests_cant": "injectivity of the printed form over all reports, including error texts that quote attacker-controlled tag values", "anchors": ["tools/src/main.cpp: main (printf calls)", "src/Util.cpp: StringFormat", "src/Exception.hpp: getAuthenticationResult", "all PermanentError/TemporaryError texts"]}
{"id": "C67", "title": "Colon-separated lists are read by one exact grammar", "statement": "Reading a colon-separated list (h=, q=, s=, t= tags) succeeds exactly on texts made of colon-separated pieces in which every CR is followed by LF and whose contents, once the folding white space around them is removed, are not empty (only the part after the last colon may be blank); the values returned are those contents, uniquely determined; every other text is a permanent error.", "quantifier": "all byte strings", "why_tests_cant": "an if-and-only-if over all byte strings, including bare CR, partial folds and blank pieces", "anchors": ["src/Tokenizer.cpp: ValueList, ReadWhiteSpace"]}
{"id": "C68", "title": "The verdict on a signature is exactly specified from the bytes of the message", "statement": "For every message, every signature field listed in it (below 2 GiB), clock, resolver and key record, the outcome of verification is determined by one specification written over the bytes: permerror if the field is unacceptable, fail if bh= is not the digest of the canonical body, temperror if the resolver fails for selector._domainkey.domain, permerror if the key record is unacceptable, forbidden for this signature or a signed field cannot be canonicalized, otherwise pass or fail as the primitive decides on the digest of the specified hash input. The specification covers all cases and gives one verdict.", "quantifier": "all messages, signature fields, clocks, resolvers, key records and primitives", "why_tests_cant": "the composition of every stage, in order, over all inputs, as an if-and-only-if for each verdict", "anchors": ["src/Validatory.cpp: GetSignature, CheckBodyHash, GetPublicKey, CheckSignature", "src/Signature.cpp: Parse", "src/PublicKey.cpp: Parse", "src/MailParser.cpp", "src/Canonicalization.cpp"]}
{"id": "C69", "title": "The clock matters only for expiry", "statement": "Verifying a field at two different times gives the same result unless the field has an x= tag and the times fall on different sides of it; a signature that verifies at some time verifies at every earlier time with the same result.", "quantifier": "all messages, fields, resolvers, key records and pairs of times", "why_tests_cant": "a statement about pairs of runs over all inputs", "anchors": ["src/Signature.cpp: Parse", "src/Validatory.cpp: GetSignature, CheckBodyHash, GetPublicKey, CheckSignature"]}
{"id": "C70", "title": "The resolver is asked for one name, and only after the body hash matched", "statement": "The result of verifying a field depends on the resolver only through its answer for selector._domainkey.domain of that field, and not at all when the field is not acceptable or bh= does not match the body.", "quantifier": "all messages, fields, times and pairs of resolvers", "why_tests_cant": "non-interference: a statement about pairs of runs over all resolvers", "anchors": ["src/Validatory.cpp: GetPublicKey, CheckBodyHash", "tools/src/main.cpp"]}
{"id": "C71", "title": "Tag order, white space around tags and unknown tags are irrelevant", "statement": "If a signature field (or key record) is accepted, every field (record) that is a legal tag list without duplicates and gives the same values to the tags of the standard is accepted with the same contents, whatever the order of the tags, the white space around them and the additional tags.", "quantifier": "all signature fields, key records and pairs of tag lists", "why_tests_cant": "a relation between all pairs of texts with the same tags", "anchors": ["src/TagList.cpp: Parse, GetTag", "src/Signature.cpp: Parse", "src/PublicKey.cpp: Parse"]}
{"id": "C72", "title": "Address lists are read by one exact grammar", "statement": "ParseAddressList accepts a text with given addresses iff the text stands for them: tokens (words, quoted strings, nested comments, < > , ;) separated by at most one folding white space each; groups of tokens ended by >, a separator or the end; the address of a group is what follows its last <, its words and quoted strings joined; a single quoted string is an address list of its own; words before a separator without @ are dropped; < must be closed. A text stands for at most one list. Every other text is a permanent error (with unsigned char: or, exactly where a quotation mark is reached that is never closed, no return).", "quantifier": "every text, signed and unsigned char", "why_tests_cant": "an if-and-only-if over all byte strings with unbounded nesting", "anchors": ["src/Tokenizer.cpp: ParseAddressList, NextAddressListToken, ReadWhiteSpace"]}
{"id": "C73", "title": "No amplification: results are bounded by their inputs", "statement": "Decoding quoted-printable or encoded words never lengthens a text; the values of a colon-separated list, the tags of a tag list and the addresses of an address list together take no more room than the text; the canonical form of a field is no longer than the field, the canonical body at most twice the body plus two bytes; the text from a DNS answer is shorter than the answer. However often h= repeats a name, every field of the message is hashed at most once, so the header hash input is no longer than all fields with line ends plus the signature field.", "quantifier": "every text, message, signature field, DNS answer and every behaviour of dn_skipname", "why_tests_cant": "a bound that must hold for all inputs, in particular adversarial ones", "anchors": ["src/QuotedPrintable.cpp: Decode", "src/EncodedWord.cpp: Decode", "src/Tokenizer.cpp: ValueList, ParseAddressList", "src/TagList.cpp: Parse", "src/Canonicalization.cpp: FilterHeader, FilterBody", "src/Validatory.cpp: CheckSignature", "src/Resolver.cpp: GetTXT"]}
{"id": "C74", "title": "Any number of signers can sign one after the other", "statement": "A message signed by any number of signers in turn (each signing what it received, with its own options, algorithms, DKIM or ARC) has, in the end, every signature of every signer in its expected place among the listed fields, and each verifies with fresh objects, showing its signer's data; signing again changes nothing for earlier signatures unless they oversigned the field name added.", "quantifier": "all messages, all chains of signers and options", "why_tests_cant": "an induction over an unbounded history of signing steps", "anchors": ["src/Signatory.cpp: CreateSignature", "src/Validatory.cpp: Parse, GetSignature, GetPublicKey, CheckSignature"]}
{"id": "C75", "title": "Keys published in the DNS are found by the built-in resolver", "statement": "If the DNS answer for selector._domainkey.domain is well formed and its TXT records carry a text, cut into character-strings in any way and among any other records, then the built-in resolver returns the text, no or damaged service is a temporary failure, no record is a permanent one; signing, publishing and verifying over the built-in resolver succeeds; and an answer cut short anywhere never yields part of a TXT record.", "quantifier": "all DNS answers, truncations, key records, messages and options", "why_tests_cant": "a statement over all wire-format answers, all ways of cutting strings and all truncation points", "anchors": ["src/Resolver.cpp: GetTXT", "src/Validatory.cpp: GetPublicKey", "src/PublicKey.cpp: Parse"]}
{"id": "C76", "title": "The testing flag is reported exactly", "statement": "After the verification of a field, PublicKey::SoftFail() is true iff the field was acceptable, the body hash matched, the key record was found and is legal, and its t= lists y; in particular no rejected record leaves the flag behind.", "quantifier": "all messages, fields, resolvers and key records", "why_tests_cant": "an if-and-only-if over all inputs and all ways a run can end", "anchors": ["src/PublicKey.hpp: SoftFail", "src/PublicKey.cpp: Parse", "src/Validatory.cpp: GetSignature, GetPublicKey", "tools/src/main.cpp: main"]}
{"id": "C77", "title": "Look-ahead, put-back and end-of-file bits never change a parser's result", "statement": "The parsers read their text through std::stringstream with peek, get, clear and putback. Whatever the text, every put-back succeeds, no end-of-file or fail bit stands in the way of unread bytes, and each parser (white space, colon-separated lists, tag lists, address lists, quoted-printable, encoded words, header canonicalization) returns what reading the plain byte sequence gives: the same values, or the same error.", "quantifier": "all byte strings, all positions and state bits of a usable stream, both evaluation orders of function arguments", "why_tests_cant": "stream state (eof/fail/bad bits, position) must be right after every prefix of reads and put-backs on every text", "anchors": ["src/Tokenizer.cpp: ReadWhiteSpace, ValueList, NextAddressListToken, ParseAddressList", "src/TagList.cpp: Parse", "src/QuotedPrintable.cpp: Decode", "src/EncodedWord.cpp: Decode", "src/Canonicalization.cpp: FilterHeader"]}
{"id": "C78", "title": "The byte and position in a parser's error text are those of the offending place", "statement": "When a parser throws, the byte (0x..) and position in the exception's text are those of the place in the parsed text that is wrong in the way the text says, or 0xff and -1 when the text ended there; texts without numbers are thrown for the reasons that have no place. This holds for either order in which the compiler evaluates the two arguments.", "quantifier": "all byte strings, both evaluation orders of function arguments", "why_tests_cant": "an invariant relating stream position, state bits and text over all inputs and all throw sites", "anchors": ["src/Tokenizer.cpp: ReadWhiteSpace, ValueList, NextAddressListToken, ParseAddressList", "src/TagList.cpp: Parse", "src/QuotedPrintable.cpp: Decode", "src/EncodedWord.cpp: Decode", "src/Canonicalization.cpp: FilterHeader"]}
{"id": "C79", "title": "The signing options are determined by the last call of each setter", "statement": "After any history of calls on a SignatoryOptions object and its additional signatures, calls that threw included, every getter returns the argument of the last successful call of its setter (or the default); there is one signature for the object and one for each AddAdditionalSignature, each determined by the calls made on it alone; SetPrivateKey accepts exactly PEM text of an RSA key, base64 of a DER RSA key, and for Ed25519 a 64 byte secret key or 32 byte seed, raw or base64.", "quantifier": "all histories of setter calls, all arguments", "why_tests_cant": "an induction over unbounded interleavings of calls on several objects that share state through pointers", "anchors": ["src/SignatoryOptions.cpp", "src/SignatoryOptions.hpp"]}
{"id": "C80", "title": "A setter that throws has no effect", "statement": "A setter that throws leaves the options exactly as they were.", "quantifier": "all states of the options, all setters and arguments", "why_tests_cant": "all states times all arguments, including every way a key can fail to load", "anchors": ["src/SignatoryOptions.cpp: SetPrivateKey, SetDomain, SetSelector"]}
{"id": "C81", "title": "DelHeaders removes exactly the listed names, whatever list it is given", "statement": "DelHeaders(l) removes from the selection exactly the names in l, keeping the order of the others, without touching freed memory, also when l is the list returned by the object's own GetHeaders().", "quantifier": "all lists, including the object's own", "why_tests_cant": "iterator validity for all list contents and aliasing", "anchors": ["src/SignatoryOptions.cpp: DelHeaders", "src/SignatoryOptions.hpp: GetHeaders"]}
{"id": "C82", "title": "No input can exhaust the stack", "statement": "The only recursive function, ParseAddressList, which reads a quoted mailbox as an address list of its own, nests at most n calls on a text with fewer than 2^(n+1)-2 quotation marks and backslashes (31 for a text of 2 GiB), since every level of quoting doubles them.", "quantifier": "every text, signed and unsigned char", "why_tests_cant": "a bound on recursion depth over all inputs, in particular adversarial nesting", "anchors": ["src/Tokenizer.cpp: ParseAddressList, NextAddressListToken"]}
{"id": "C83", "title": "Success means that the whole message was read", "statement": "If signing returns a header, or a verification succeeds, then the source was read to the end of the message: a source that cannot be positioned, or that fails with an I/O error, gives an error and not a result for part of the message.", "quantifier": "all sources (any content, seekable or not, ending or failing at any byte), all options, all verification calls", "why_tests_cant": "a fault may strike at any byte of any message, between any two reads", "anchors": ["src/MailParser.cpp: Message::ParseLine", "src/Canonicalization.cpp: CanonicalizationBody", "src/Signatory.cpp: CreateSignature", "src/Validatory.cpp: Validatory, CheckBodyHash"]}
{"id": "C84", "title": "What a source that cannot be positioned or that fails is taken for", "statement": "Signing and verifying from any source gives exactly the results of one definite message: the whole text if the source can be positioned and does not fail; the header block with an empty body if it cannot be positioned (so the results do not depend on its body); the header block and the whole 8096-byte blocks of the body before an error in the body; the complete lines before an error in the header block. No source makes the library crash or loop.", "quantifier": "all sources, all options and clocks, all sequences of verifications of any header with any resolver", "why_tests_cant": "equality of two unbounded computations for every content and every fault position", "anchors": ["src/MailParser.cpp: Message::ParseLine", "src/Canonicalization.cpp: CanonicalizationBody", "src/Signatory.cpp: CreateSignature", "src/Validatory.cpp: Validatory, GetSignature, CheckBodyHash"]}
{"id": "C85", "title": "The running time of every parser is bounded by its input", "statement": "Counting calls on the parser's stream: TagList::Parse, QuotedPrintable::Decode and EncodedWord::Decode take time linear in the text; ValueList, header canonicalization and PublicKey::Parse do so on text in which every CRLF is followed by a space or tab, as in every header field of a message; on any text whatever, these and ParseAddressList (signed char) take at most quadratic time. Counting bytes, reading the header block of a message takes at most quadratic time, and linear time if every line that starts a field has a colon.", "quantifier": "every text, every prior tag list, both evaluation orders of function arguments", "why_tests_cant": "an upper bound over all adversarial inputs; a test can only time some", "anchors": ["src/Tokenizer.cpp: ReadWhiteSpace, ValueList, ParseAddressList", "src/TagList.cpp: Parse", "src/QuotedPrintable.cpp: Decode", "src/EncodedWord.cpp: Decode", "src/Canonicalization.cpp: FilterHeader", "src/PublicKey.cpp: Parse", "src/MailParser.cpp: Header::ParseLine, Message::ParseLine"]}
{"id": "C86", "title": "Every parser takes linear time on every text", "statement": "There is a constant c such that every parser of the library makes at most c calls on its stream per byte of text, whatever the text; in particular a DNS key record cannot make verification slow, and neither can a header block.", "quantifier": "every text", "why_tests_cant": "an upper bound over all adversarial inputs", "anchors": ["src/Tokenizer.cpp: ReadWhiteSpace, ValueList, ParseAddressList", "src/Canonicalization.cpp: FilterHeader", "src/PublicKey.cpp: Parse"]}
{"id": "C87", "title": "A signature that is valid by the RFCs verifies", "statement": "If a message carries a signature field that conforms to RFC 6376 (or, for ARC-Message-Signature, RFC 8617; keys and algorithms also RFC 8463), has not expired, whose bh= is the hash of the canonical body, whose key record conforms to the RFCs and allows the hash and the identity, and whose b= is a signature, by that key, of the header data RFC 6376 section 3.7 prescribes, then verification succeeds - whatever other fields the message contains and however the white space, folding, order of tags and unknown tags are chosen. In particular the field is parsed and the getters return what it says.", "quantifier": "every message, every way the grammar allows to write the signature field and the key record, every key, hash and signature primitive, every time", "why_tests_cant": "the RFC grammar allows unboundedly many spellings of every signature; interoperability tests only exercise those of a few signers", "anchors": ["src/Validatory.cpp: CheckSignature, CheckBodyHash", "src/Signature.cpp: Parse", "src/TagList.cpp: Parse", "src/Tokenizer.cpp: ValueList", "src/Base64.cpp", "src/QuotedPrintable.cpp: Decode", "src/Canonicalization.cpp"]}
{"id": "C88", "title": "Every key record that conforms to the RFCs is read correctly", "statement": "PublicKey::Parse accepts every text record that conforms to the grammar of RFC 6376 section 3.6.1 (and RFC 8463 for Ed25519) and holds a key the crypto library can load, and the getters return exactly the algorithm, key, permitted hashes and flags it states, however white space, folding, order of tags, unknown tags, unknown hashes, services and flags are chosen.", "quantifier": "every conforming record, every key", "why_tests_cant": "unboundedly many spellings of a record are allowed", "anchors": ["src/PublicKey.cpp: Parse", "src/TagList.cpp: Parse", "src/Tokenizer.cpp: ValueList"]}
{"id": "C89", "title": "Signatures the library makes are valid by the RFCs", "statement": "For every message whose header fields are RFC 5322 fields and every option set with legal field names, set domains, an identity that is a Local-part and a domain within the signing domain, one kind of key, and times of at most 12 digits: if CreateSignature returns H, then in the message H CRLF message each generated field conforms to the grammar of RFC 6376 (RFC 8617 for ARC), says what the options say, and verifies by the RFCs with every conforming key record for the public key - so any conforming verifier, not just this library, accepts it.", "quantifier": "every message, every reachable option set meeting the listed conditions, every number of signatures, every key record, hash and signature primitive that belong together", "why_tests_cant": "round-trip tests only show that the library accepts its own output, and only for sampled inputs", "anchors": ["src/Signatory.cpp: CreateSignature", "src/SignatoryOptions.cpp", "src/QuotedPrintable.cpp: Encode", "src/Canonicalization.cpp", "src/Base64.cpp: Encode"]}
{"id": "C90", "title": "Objects that share an input stream do not disturb each other", "statement": "A program may construct any number of Validatory and Signatory objects over one input stream, use the stream itself (read, getline, seekg, clear) and interleave all these calls in any order. Every Validatory lists the signatures and gives the results it would give with a stream of its own that holds just the bytes that were unread when it was constructed, and the first signature of every Signatory is the one it would make from the bytes unread when it signs; after clear() and seekg(0) these are the whole message.", "quantifier": "every stream content, every program of calls before and after, any number of objects, every signature, key, option set and clock", "why_tests_cant": "the histories of calls are unbounded and interleave arbitrarily", "anchors": ["src/Validatory.cpp: Validatory, GetSignature, CheckBodyHash, CheckSignature", "src/Signatory.cpp: CreateSignature", "src/Canonicalization.cpp: CanonicalizationBody", "src/MailParser.cpp: Message::ParseLine"]}
{"id": "C91", "title": "Options objects are independent of each other", "statement": "Whatever a program does with several SignatoryOptions objects - construct, set, assign one to another, destroy - each object signs with the options set on it (or copied into it) and its getters report them; a call on one object never changes another, and no call on a live object is undefined.", "quantifier": "every program of constructions, setter calls, assignments and destructions", "why_tests_cant": "the histories of calls are unbounded", "anchors": ["src/SignatoryOptions.hpp: SignatoryOptions", "src/SignatoryOptions.cpp: SignatoryOptions::SignatoryOptions, setters"]}
{"id": "C92", "title": "Results do not depend on the program's locale", "statement": "Whatever locale the program has chosen with setlocale, the same message, options, keys and clock give the same signatures found, the same verification results and the same generated signature; in particular a signature made under one locale is found and verifies under every other.", "quantifier": "every locale (every behaviour of tolower and isspace), every message, signature, key record, option set and clock", "why_tests_cant": "a test runs under one locale, with one message", "anchors": ["src/Validatory.cpp: Validatory, CheckSignature", "src/Signatory.cpp: CreateSignature", "src/Signature.cpp: Parse", "src/PublicKey.cpp: Parse", "src/Canonicalization.cpp: FilterHeader"]}
{"id": "C93", "title": "A message cannot make the verification of a signature slow", "statement": "Verifying one signature of a message - GetSignature, GetPublicKey, CheckSignature - takes at most a constant number of steps per byte of the message, whatever the signature field claims (names repeated, values folded, huge l=), plus the time for the key record, which is at most quadratic in the record. Verifying all signatures takes at most that for each of them; that really is a pass over the body for each, so a message with many bare signature fields takes time quadratic in its length.", "quantifier": "every message, every signature field (shorter than 2 GiB) in it, every number of signatures, every resolver, clock and errno", "why_tests_cant": "an upper bound over all adversarial inputs", "anchors": ["src/Validatory.cpp: GetSignature, GetPublicKey, CheckBodyHash, CheckSignature", "src/Signature.cpp: Parse", "src/Canonicalization.cpp", "tools/src/main.cpp"]}
{"id": "C94", "title": "Signing takes work linear in the message for each signature, and the result is no larger", "statement": "CreateSignature on a message of n bytes with k signatures in the options reads, copies, compares and hashes, apart from reading the header block and the private key operations, at most about 44n + k(88n + 22S + q(B)) bytes, where S is the total size of domain, selector, identity and oversigned names plus a constant, B the length of a signature and q a quadratic polynomial (the base64 text of a signature is cut into lines by erasing from its front), provided no signed or oversigned field name contains a line break; with a colon in the first line of every field reading the header block is linear as well. Whatever the names, the text returned has at most k(4n + S + 10B + 362) bytes.", "quantifier": "all messages, options (any number of signatures, any selection and oversign list), clocks, keys and signature values of bounded length", "why_tests_cant": "a test measures one message; the bound is about all messages and all numbers of signatures", "anchors": ["src/Signatory.cpp: CreateSignature", "src/Canonicalization.cpp: FilterHeader, CanonicalizationBody"]}
{"id": "C95", "title": "What the library accepts is valid by the RFCs", "statement": "If verification of a signature succeeds, and the message's fields, the signature field and the key record are written in the grammar of RFC 5322, 6376 and 8617, then the signature is valid by the RFCs: the field has all required tags and has not expired, bh= is the hash of the canonical body, the key record allows the hash, the service and the identity, and b= is a signature, by that key, of exactly the header data RFC 6376 section 3.7 prescribes. Together with C87: for texts in the grammar the library's verdict and that of the RFCs agree.", "quantifier": "every message, every way the grammar allows to write the signature field and the key record, every key, hash and signature primitive, every time and resolver", "why_tests_cant": "a test shows that some invalid signatures are rejected, not that all are", "anchors": ["src/Validatory.cpp: CheckSignature, CheckBodyHash", "src/Signature.cpp: Parse", "src/PublicKey.cpp: Parse", "src/TagList.cpp: Parse"]}
{"id": "C96", "title": "Unless told otherwise a signer covers every field the RFCs recommend", "statement": "With options on which SetHeaders was never called, every signature CreateSignature makes covers every occurrence of every field that RFC 6376 (5.4.1), RFC 4871 (5.5), RFC 8058 and RFC 9477 recommend or require to sign, in any case of letters: it is part of what is hashed and its name is listed in h= once per occurrence - unless DelHeaders was called with its name. Without any call that edits the list no field that the RFCs advise not to sign (Return-Path, Received, Comments, Keywords, signatures and their results, Bcc) is covered.", "quantifier": "every message, every history of setter calls without SetHeaders, every number of signatures", "why_tests_cant": "the number and order of fields and the histories of calls are unbounded", "anchors": ["src/SignatoryOptions.cpp: SignatoryOptions::SignatoryOptions, AddHeaders, DelHeaders", "src/Signatory.cpp: CreateSignature"]}
{"id": "C97", "title": "Iterating over a tag list visits each tag once, by ascending name", "statement": "After any sequence of Parse and Reset calls on a TagList, including calls that throw, iterating from cbegin() to cend() visits the names in strictly ascending byte order, and the (name, entry) pairs it visits are exactly those GetTag returns. For a text parsed on a fresh object these are the items of the text, each once; two texts with the same items in different order or spacing iterate to the same names and values.", "quantifier": "all sequences of Parse/Reset calls with arbitrary texts; all pairs of texts with permuted items", "why_tests_cant": "the order of the items, the spacing and the history of failed calls are unbounded; a test fixes a few texts", "anchors": ["src/TagList.cpp: TagList::Parse, TagList::Reset, TagList::GetTag", "src/TagList.hpp: TagList::cbegin, TagList::cend, m_tags"]}
{"id": "C98", "title": "Every temporary object a call creates is freed exactly once", "statement": "Every digest context, BIO, EVP_PKEY and buffer that Signature construction, GetPublicKey, SetPrivateKey, CheckBodyHash, CheckSignature or CreateSignature creates is freed exactly once before the call returns or throws; no object is used or freed when it is not alive, and objects that existed before are left alone.", "quantifier": "all headers, key records, resolver answers, key texts, messages, options, clocks, keys and crypto primitives, on the first and all later calls, whether the call returns or throws", "why_tests_cant": "a leak check in a test only sees the error paths the test takes; which inputs make which step throw is unbounded", "anchors": ["src/Base64.cpp: Base64_Decode, Base64_Encode", "src/Signature.cpp: Parse", "src/PublicKey.cpp: Parse", "src/SignatoryOptions.cpp: SetPrivateKey", "src/Validatory.cpp: CheckBodyHash, CheckSignature", "src/Signatory.cpp: CreateSignature"]}
{"id": "C99", "title": "The tool's command line is read the same way however it is spelled", "statement": "A command line of libdkimtest that follows the GNU conventions (options in any order between file names, letters joined, values attached, separate or after =, long names cut short as long as only one fits, -- before the last file names; with POSIXLY_CORRECT nothing is an option after the first file name) does exactly what the tool does with the options and file names it spells, and spells only one thing; values are taken as they are, even if they begin with a dash. Moving file names between the options or respelling options changes nothing. Every other command line (unknown or ambiguous option, value missing or not wanted) is refused: nothing is signed, verified or printed but the usage, with status 2, unless an earlier word asks for help (0) or is --arcinstance (null pointer, see C60). So is --keytype, which the usage text documents.", "quantifier": "every list of words, with and without POSIXLY_CORRECT, every file system, clock, resolver", "why_tests_cant": "the spellings of one request and the ways to interleave them are unbounded", "anchors": ["tools/src/main.cpp: main (longopts, getopt_long loop), usage"]}
{"id": "C100", "title": "A stream that throws on read errors gives a result for the whole message or an exception", "statement": "If the message is read from a file or string stream on which exceptions(std::ios::badbit) was called, then however its accesses fail, at whatever point and after however many bytes, and whatever the caller does to position and state of the stream between the calls, and even if the resolver throws: CreateSignature, the Validatory constructor and each later verification pass on the exception - which happens only if an access or the resolver did throw - or give exactly the result, objects or library exception for the whole text. The Validatory can be used again after an exception. With failbit or eofbit in the mask the end of the text is reported as an exception: nothing can be signed or verified without a body length limit.", "quantifier": "every message, every pattern of failing accesses, every sequence of verifications with arbitrary disturbances of the stream in between, every resolver", "why_tests_cant": "the points at which an access can fail and the histories of calls are unbounded", "anchors": ["src/MailParser.cpp: Message::ParseLine", "src/Canonicalization.cpp: CanonicalizationBody", "src/Signatory.cpp: CreateSignature", "src/Validatory.cpp: Validatory::Validatory, GetSignature, CheckBodyHash, GetPublicKey"]}
{"id": "C101", "title": "A failing digest function is never mistaken for a digest", "statement": "If a digest function of the cryptographic library fails - creating, initializing, feeding, copying or finishing a context: no memory, or a digest this installation does not offer - then GetSignature, CheckSignature and CreateSignature throw; they do not accept a signature, return one, or use memory that was not written.", "quantifier": "every pattern of failing calls, every message, signature, key and signing options", "why_tests_cant": "any of an unbounded number of calls may fail, in any combination; tests run against a library that works", "anchors": ["src/Validatory.cpp: CheckBodyHash, CheckSignature", "src/Signatory.cpp: CreateSignature", "src/Canonicalization.hpp: EVPDigest"]}
{"id": "C102", "title": "The text of an exception tells its cause", "statement": "Whatever names, values and numbers from the message, the key record or the options an exception's text quotes, the text begins and ends with fixed words that belong to its cause: two exceptions with the same text have the same cause. A text that quotes one name determines this name up to its first NUL byte.", "quantifier": "every cause, every quoted text and number", "why_tests_cant": "the quoted texts are arbitrary bytes chosen by the sender", "anchors": ["src/Exception.hpp: PermanentError, TemporaryError", "src/Util.cpp: StringFormat", "src/Signature.cpp: Parse", "src/PublicKey.cpp: Parse", "src/Validatory.cpp: GetPublicKey, CheckSignature", "src/TagList.cpp: Parse", "src/Tokenizer.cpp: ReadWhiteSpace, ParseAddressList"]}
{"id": "C103", "title": "Results do not depend on the size of the C type long", "statement": "A program built where long has 32 bits (Windows, 32-bit Unix, with 64-bit time_t) finds the same signatures valid, reads the same values from a signature field and makes the same signatures from the same settings as one built where long has 64 bits.", "quantifier": "every signature field, message, key record, clock, resolver, errno; every options object, signer state and clock", "why_tests_cant": "the numbers a sender writes into l=, x=, i= and the times to be signed are unbounded, and the tests run on one platform", "anchors": ["src/Signature.cpp: Parse", "src/Signatory.cpp: CreateSignature", "src/Validatory.cpp: GetSignature", "src/Util.cpp: StringFormat"]}
{"id": "C104", "title": "Threads get the verdicts they would get alone", "statement": "Any number of threads verify any fields with any number of shared Validatory objects at the same time. If GetSignature and CheckBodyHash calls on one stream exclude each other - nothing else has to be locked, GetPublicKey and CheckSignature may overlap with everything - then for every schedule a thread that has finished got exactly the verdicts it would have got alone, and with enough turns for everybody all finish. Threads that sign or verify messages on streams of their own need no lock: outcome and number of turns needed do not depend on the others. (Without the lock a forged body can be accepted.)", "quantifier": "every number of threads, every interleaving of their stream accesses, all messages, fields, options, resolvers and clocks", "why_tests_cant": "schedules cannot be enumerated, and a test run sees only the few that happen", "anchors": ["src/Validatory.cpp: Validatory::Validatory, GetSignature, CheckBodyHash, GetPublicKey, CheckSignature", "src/Canonicalization.cpp: CanonicalizationBody", "src/MailParser.cpp: Message::ParseLine", "src/Signatory.cpp: CreateSignature"]}
