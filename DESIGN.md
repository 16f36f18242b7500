# A Lean 4 model of halon/libdkimpp

## 1. Layout

* `lean/Verif/Model/*.lean` – executable model, one file per C++ source file (plus `CLib`, `Stream`, `Env` for the C/C++ library
  and OpenSSL, `Tool` for tools/src/main.cpp and `Ownership` for the lifetime of `RSA` objects); every definition cites file and
  lines and says where it simplifies.
* `lean/Verif/Spec/*.lean`  – short specifications written from the RFC or the English property: character classes (`Ascii`),
  numbers, canonical bodies and fields, FWS, tag lists, colon lists, domains, signature header, key record, DNS answers, hash input,
  generated field text, and so on. They do not mention the functions they specify. Larger specifications build on smaller
  *verified* API functions where the property itself is about them: the hash input (C35) is written with the canonicalized field
  (`filterHeader`, specified by C06), the tag readers of C25/C31 with the colon-list reader (C10) and the quoted-printable decoder
  (C16), and the tool (C59) with the outcome of one verification (C36, C39).
* `lean/Verif/Proofs/*.lean` – helper lemmas.
* `lean/Verif/Props/*.lean` – the property theorems (`Cnn_...`), each with `example`s (or named `*_example`/`*_witness` theorems)
  showing that the hypotheses are met by a concrete non-trivial case. `MANIFEST.json` maps properties to theorem names.
* `lean/Verif/Tests/*.lean` – the repository's unit tests replayed on the model (`RepoTests`), a toy cryptographic environment
  (`Toy`) and sample runs (`Samples`). They are tests of the model, not proofs of properties.
* `seeded/LOG.jsonl` – mutation log. `tools/` – generators of `properties.jsonl`, `Verif.lean`, `MANIFEST.json`.

Naming: `Cnn_xxx` is part of the proof of property Cnn; `Cnn_xxx_partial` proves only part of what the property says;
`Cnn_xxx_witness` is a concrete run that refutes the full statement (a defect of the code) or shows that a side condition is needed.

## 2. Modelling decisions

* A byte is `UInt8`, `std::string` is `List UInt8`. `char` is signed (x86-64 ABI) except in the address parser, which is modelled for
  both (`Tokenizer.lean`, parameter `signedChar`).
* An in-memory `std::stringstream` that is only read is represented by the bytes not yet consumed (peek = head, get = head/tail,
  EOF = `[]`). This is justified by a second model, `Model/StringStream`, of the same parsers over a stream with buffer, position and
  eof/fail/bad bits, in which `putback` can fail and `tellg()` is -1 once a peek has hit the end of input: C77 proves both agree on
  every text, C78 states what the byte and position printed in exception texts are.
* The message stream is a structure with data, position, eofbit and failbit; `getline`, `read`, `tellg`, `seekg`, `clear` follow
  the C++11 standard.
* Exceptions are values of `Err`: `perm`/`temp` (the two exception classes with their Authentication-Results class and a reason
  that carries the quoted values; `Model/Report` turns it into the text), `outOfRange` (std::out_of_range escaping), `ub` (undefined behaviour reached) and `hang` (a
  loop ran out of fuel). Loops that are not structurally recursive take fuel = remaining input length + 1; the theorems of C09 state
  that `hang` is never the outcome, so the fuel is not a restriction.
* Objects whose partially updated state survives an exception (TagList, Signature, PublicKey, SignatoryOptions) are modelled in
  `EStateM`, which keeps the state on the error path.
* `errno` is explicit state of the signature parser.
* Time is an argument. `std::map` is a list without duplicate keys; `std::list` is a list. Reads of arrays at computed positions are
  checked reads whose failure is `ub`.
* Cryptography, base64 decoding, DER/PEM parsing and the resolver are fields of a structure `Env` (`Model/Env.lean`);
  theorems quantify over all `Env`. `EVP_DigestUpdate` sequences are the digest of the concatenation (digest calls that fail: `Model/DigestFaults`, C101).

## 3. Trusted base

* Lean 4.33.0's kernel; the axioms the theorems depend on are at most `propext`, `Classical.choice` and `Quot.sound` (checked for every
  `Cnn_` theorem). No axiom is added, nothing is evaluated by compiled code.
* The reading of the C++ in `/repo` (nothing is run here).
* The C/C++ library contracts above (streams, `strtoul`/`strtol`, `tolower`/`isspace`/`isalnum` in the "C" locale, `std::list`, `std::map`,
  `vasprintf`, `getopt_long`).
* Laws of OpenSSL that appear as explicit hypotheses of theorems, never as axioms: `Env.B64Law` (decoding an encoding returns the
  bytes, C18/C44/C56/C60; `C18_law_satisfiable` shows a decoder satisfying it), correctness of signatures for a key pair (`Published`, C44),
  unforgeability and collision-freeness on the messages at hand (C56, C39; each theorem is stated so that its failure would
  exhibit the collision or forgery).

Modelled: Tokenizer, TagList, Canonicalization (header and body), MailParser, QuotedPrintable, Base64 (encoder; decoder is a
field of `Env`), EncodedWord, Util (domain validation, string helpers), Signature, PublicKey, Validatory, SignatoryOptions, Signatory, Resolver
(parsing of the answer and building of the result), tools/src/main.cpp (option parsing with glibc's getopt_long, signing, verification report),
lifetime of RSA objects.

`std::stringstream` as the parsers use it (`StringStream`: state bits, put-back, positions in error texts; `Steps`: number of calls), message sources that
cannot be positioned or fail (`Device`).

Not modelled: the resolver's network access (`res_query`/`res_search` results are an input) and Windows code paths;
OpenSSL internals (its objects only as far as who creates and frees them: RSA keys in `Model/Ownership`, contexts, BIOs and `EVP_PKEY`s in `Model/Temporaries`); allocation failure (except of digest contexts, C101); iconv (character set conversion of encoded words is not done by
the library); locales other than "C" (except in `Model/Locale`, C92); `long` of another size than 64 bits (except in `Model/WordSize`, C103); concurrency within one stream access (schedules of accesses: `Model/Threads`, C104; the library has no shared state but the streams, OpenSSL's and the per-thread `errno`); file reading of the
tool other than "contents or failure"; the SWIG/Python wrappers, if any.

## 4. Per property: what is modelled, how it is proved

| id | modelled | proof |
|----|----------|-------|
| C01–C05 | CanonicalizationBody as block-wise state machine over the message stream | spec by lines; invariant on (pending wsp, pending lines); prefix law for the limit; algebraic corollaries |
| C06, C07 | FilterHeader on a field as the parser delivers it | equality with the RFC spec on well-folded text; error iff bare CR/no colon |
| C08 | ReadWhiteSpace | case analysis/induction |
| C09 | all fuel loops | fuel sufficiency by decreasing length; witness for unsigned `char` |
| C10 | ValueList | induction on the list of values and FWS sequences |
| C11–C13 | TagList::Parse in EStateM | grammar relation, both directions; offset invariant; history induction |
| C14, C15 | NextAddressListToken, ParseAddressList | round trip for plain lists; literal bytes: true part `_partial`, witnesses |
| C16, C17 | QuotedPrintable | induction; per-byte table |
| C18 | encoder modelled, decoder = `Env` field with law; the wrapper loops around BIO_write/BIO_read/EVP (`Model/Base64Bio`) relative to a contract of the BIO chain (`BioLaw`) | induction in steps of 3 bytes; loop invariant |
| C19 | EncodedWord::Decode | scanning lemmas |
| C20–C22 | Message/Header parser over the stream | invariant over lines |
| C23 | ValidateDomain | iff with split-at-dot spec |
| C24, C51 | SignatoryOptions setters as operations | invariant over histories; exact header list |
| C25–C30 | Signature::Parse, strtoul/strtol, errno | exact acceptance, then corollaries; witnesses for false parts (C27 sign/empty, C29 errno, C30 merge) |
| C31–C34, C42 | PublicKey::Parse, CheckSignature, GetPublicKey | exact acceptance; witnesses for false parts (C32 only unknown h=, C33 s= ignored) |
| C35–C38 | CheckSignature: header selection, hash input | spec "k-th instance from the bottom"; induction over h= |
| C39, C40 | CheckBodyHash on the shared stream | C01–C03; independence of earlier calls |
| C41 | constructor: finding DKIM-Signature and ARC fields | list induction |
| C43 | buffers of verification | `ub` outcome unreachable except one witness |
| C44 | Signatory then Validatory | composition of C20, C25, C31, C35, C39, C55 |
| C45, C47, C48, C53, C55 | CreateSignature | exact text of the output; C45_exact: well-formed line breaks iff those of the signed names are; witnesses (C45 folded name, C47 wrong a=, C53 negative expiration) |
| C46 | second and later CreateSignature on one object | exact description of what is signed in every history, with and without an empty line after the header, with length limits that leave the stream inside the body (Spec/Repeat); witnesses |
| C49, C50 | Resolver::GetTXT with checked reads | invariant on the pointer; encoder/decoder round trip |
| C52 | CreateSignature's key use | `ub` outcome; witness + partial |
| C54 | injectivity of the canonical header block | unique reading |
| C56 | verifier accepted ⇒ signer signed | injectivity of hash input; history of signing as parameter |
| C57 | relay: added fields, changed line endings, … | C37 + C39 + C06 |
| C58 | two signing runs | C55 and selection lemmas |
| C59, C60 | command line tool | exact report; composition with C44 |
| C61, C62 | RSA objects and their holders as a heap | counting invariant over histories; leak witnesses |
| C63 | address lists byte by byte | a NUL byte is never lost by the tokenizer; everything opened is closed (`AllClosed`, by induction over the grammar of C72) |
| C64 | QuotedPrintable::Decode for all inputs | relation `QpText`, iff |
| C65 | EncodedWord::Decode for all inputs | relation `EwText`, iff |
| C66 | the bytes printed by the tool, including error texts (`Model/Report`) | readable when no quoted value contains LF; forged line witness |
| C67 | ValueList for all inputs | relation `ListText`, iff, functional |
| C68 | the whole verification of one field | `Spec/Verdict.lean` uses no model function; composition of C06, C11, C20, C25, C31, C35, C36, C39, C42, C64, C67 |
| C69 | the clock | Signature::Parse factored into a part without clock and x= |
| C70 | the resolver | result as a function of the resolver's answer to one name |
| C71 | signature fields and key records | through the exact parse theorems (C25, C31): only the values of known tags occur in them |
| C72 | ParseAddressList for all inputs | relation `AddrText` (tokens, groups, nested lists), iff, functional; `Endless` for unsigned char, iff |
| C73 | sizes of all results | induction over the grammars of C64, C65, C67, C11, C72; canonical forms of C01/C06; covered fields form a sub-multiset of the fields |
| C74 | repeated signing of one message | `Chain` of signers; induction: earlier fields keep their verdict when fields are prepended (C37, C57), the new ones by C44 |
| C75 | built-in resolver, wire format | well-formed answers (C50) composed with C42, C44; truncation: induction over names, questions, records |
| C76 | `SoftFail` after a run | flags are kept by every other step of Parse; composed with C68's stages |
| C77 | the same parsers over a `std::stringstream` with position and state bits (`Model/StringStream`) | simulation relation `Rep` between stream and unread bytes, kept by every operation; hence equality with the byte-list model |
| C78 | exception texts' byte and position | the simulation carries `Points` (what the numbers mean in the text) through every throw site, for both argument evaluation orders |
| C79 | SignatoryOptions setters, all histories | last-call-wins by induction over the history; signatures as a function of the calls on them (`After`); SetPrivateKey as an exact relation |
| C80 | throwing setters | case analysis over all setters (exact relation of C79); witness for the failed DER load |
| C81 | DelHeaders over list nodes with addresses (`Model/HeaderNodes`) | loop invariant; agreement with the value model; witness for the own list |
| C82 | recursion of ParseAddressList with an explicit depth bound | each level doubles the marks; induction on the depth; bound shown tight |
| C83 | the stream-reading code again, over a source that may be unseekable or fail (`Model/Device`) | corollary of C84 for complete sources; witnesses for the others |
| C84 | the same model | simulation of header loop and body loop by the seekable stream over the text seen; induction on lines and on blocks |
| C85 | the stream programs with a step counter (`Model/Steps`) | simulation by `Model/StringStream` for the results; a cost logic with remaining input as potential for the bounds |
| C86 | the same | false: exact runs on `n` spaces and an unfolded line break, induction on `n`; proved part from C85; ParseAddressList: linear on folded text without backslashes, never more than n log n if every CR stands in a fold (each level of quoting doubles the quotation marks and backslashes), and n log n on nested quoted strings (Props/StepAddress) |
| C87 | grammar and rules of RFC 6376/8463/8617 transcribed in `Spec/Rfc.lean` (not from the code); verification as in C68 | false in six cases (witnesses built with the toy environment); otherwise: the RFC grammar is a special case of the texts C11/C67/C64/C68 characterize, and the RFC's header data is the input of C35 |
| C88 | the same for key records | as C87, from C32_exact |
| C89 | `Spec/RfcSign` (option sets, key pairs, what a field says) and `Spec/Rfc` as the notion of validity | the generated text is decomposed into RFC tag-specs (`Proofs/RfcSign`), the fields covered are those selected by the RFC (C44's lemmas), the hashed text is RFC section 3.7's |
| C90 | `Model/Shared` (one stream, lists of objects, all calls), `Spec/Shared` (`pending`) | invariant over programs (positions stay inside, offsets valid); parsing at a position is parsing the rest with shifted offsets; results of body checks depend on the data only |
| C91 | `Model/OptionsHeap` (objects with pointers into each other's lists, implicit assignment), `Spec/OptionsHeap` | invariant over programs without assignment: pointers point into their own object; false with assignment (witnesses) |
| C92 | `Model/Locale` (every function that calls `tolower`, `isspace`, `strcasecmp`, `strtoul`, `strtol`, with the locale as a parameter), `Spec/Locale` | the two versions of each step agree from states whose tag values, names and identity are bytes on which the locale agrees with "C"; false for locales that treat `I` differently (witness) |
| C93 | `Model/VerifySteps` (costs of every stage beside the stage itself, on top of `Model/Steps`) | each signed field is hashed once (C73), so the costs add up to a multiple of the fields' total length; potential function for the line ends held back by the body loop; family of messages for the lower bound |
| C94 | `Model/SignSteps` (the work of `CreateSignature` counted beside the model of `Signatory`) | bounds from C85 (canonicalization of folded text), lengths of every piece of the generated text, and that the generated text is well folded when no signed name has a line break. |
| C95 | models of verification; grammar in `Spec/RfcSound`, validity in `Spec/Rfc` | from the exact verdict (C68): every text is read in one way (tag lists, lists, header block, canonical forms), so what the library read is what the RFC says; the header data of RFC 6376 3.7 computed from the text of the field (`emptied_text`) gives the witnesses that hold for every reading |
| C96 | `Model/SignatoryOptions` (history of setters), `Model/Signatory`; lists of the RFCs in `Spec/Recommended` | C51 (the list after any history) and C48 (what is hashed and listed) |
| C97 | `Model/TagMap`: the tag list on a map ordered by name (pairs in iteration order), with `find`, `operator[]`, `Parse`, `Reset` and call histories | simulation between the map and the insertion-ordered list of `Model/TagList` (same outcome, permuted tags), sortedness invariant, comparison proved equal to the dictionary order; uniqueness of a sorted permutation |
| C98 | `Model/Temporaries`: the functions that create digest contexts, BIOs, `EVP_PKEY`s and buffers, with each creation, use and release a step on the set of live objects; `unique_ptr` guards run their deleter on both exits | a relation "does what the plain model does and ends with the objects it started with, except for one context when it throws an error with P" closed under sequencing and guards; P shown to need a bare CR in an oversigned name (the generated field and the names taken from the message have none). False as stated: `_partial` plus C98_sign_exact, C98_sign_leaks and a witness |
| C99 | `Model/CommandLine`: the option tables of main.cpp and the algorithm of glibc's `getopt_long` (permutation, clusters, abbreviations, `--`, POSIXLY_CORRECT), then `Model/Tool.main` | a separate grammar (`Spec/CommandLine`) of the words that spell options and file names; by induction over the words, `getopt` returns what a word list spells, and ends with an error iff it spells nothing |
| C100 | `Model/Faults`: `std::istream` with an exception mask and an arbitrary pattern of failing accesses; the functions that touch the stream once more over it, exceptions passing through; a resolver that may throw | each stream operation throws or simulates the plain stream of `Model/Stream`; loop by loop up to the calls; then by induction over the sequence of calls. The statements compare with the plain model on the whole text |
| C101 | `Model/DigestFaults`: the functions that compute digests once more, with contexts (null, without digest, fed with bytes) and an arbitrary pattern of failing calls | exact outcome for the two checks by running the calls on the list of pieces; signing by a relation "ends as it should, or undefined behaviour and some call fails" closed under sequencing. False as stated: `_partial`, exact theorems and witnesses |
| C102 | `Model/Report` (texts at the throw sites) | a separate table of beginnings and ends (`Spec/Causes`), checked to be pairwise incompatible; every text fits its entry |
| C103 | `Model/WordSize`: the places where `long` matters (strtoul, strtol, `%lu`) with `w` bits, 32 ≤ w ≤ 64, everything else shared | parse as chain of the same steps; the three steps compared (`Proofs/WordSize`); witnesses for 32 bits |
| C104 | `Model/Threads`: verification, construction and signing as programs that stop before every stream access; a world of streams and threads, schedules, a mutex per stream around body checks | a body check alone gives the same whatever position and state the stream has (`BodyGives`); invariant over turns: who is inside is where it would be alone, at most one inside per stream; a measure for the end; own streams: a thread is where it would be alone after as many turns (`Proofs/Threads`); race witness evaluated |

A property is marked partial only where the full English statement is false of the code (each time with a machine-checked witness).

## 5. Defects found (each has a witness theorem)

* C09 unterminated quoted string in an address list loops for ever where `char` is unsigned; with signed `char` byte 0xFF is taken for EOF (C15).
* C15 adjacent escapes inside a comment are misread.
* C27 `l=` may be empty, have a plus sign or be a negated number. C29 `errno` is tested without being cleared.
* C30 a Signature object that failed or succeeded once can be merged with a second header whose tags are disjoint.
* C32 `h=` naming only unknown hashes means "no restriction". C33 the service type is never enforced.
* C43 Ed25519 signature shorter than 64 bytes is read out of bounds; longer ones are accepted truncated.
* C44 ed25519 with sha1, a field starting with white space and other side conditions of the round trip.
* C45 in sign-all mode a folded field name breaks the generated header. C46 a second CreateSignature call loses the body and repeats the last field.
* C47 additional signatures are announced with the first signature's key type. C52 ed25519 without key reads out of bounds.
* C53 negative expirations are printed as huge numbers: the signature never expires.
* C54 a message starting with white space has an ambiguous header block. C06 a blank field name keeps a leading space.
* C59/C60 tool: an uncaught std::out_of_range, `--arcinstance` without argument dereferences null, missing message file signed as empty, signatures expire after one second.
* C61 the implicit assignment operators double free; C62 reloading keys, lending then loading, and failed loads leak.
* C66 error texts quote tag values unescaped: a key record whose `k=` contains LF forges an OK line in the tool's report. C18 sizes from 2 GiB on are cut by the `int` conversion.
* C75 a DNS answer cut inside the name of a record counts as an answer without that record: the key is missing for good instead of temporarily.
* C76 the key is fetched only after the body hash matched, so a changed body is a hard failure even if the signer's key says it is testing.
* C80 a failed load of a DER key has already replaced the key stored before by a null pointer. C81 `opts.DelHeaders(opts.GetHeaders())` is a use after free.
* C83 a stream that cannot be positioned (tellg gives -1) is silently taken for a message without body: signing signs an empty body, and a signature over an empty body verifies with any body. A read error is silently taken for the end of the message.
* C86 `ReadWhiteSpace` puts an unfolded line break and all white space before it back, one byte at a time, and its callers then try again one byte further on: `ValueList`, relaxed header canonicalization, `ParseAddressList` and `PublicKey::Parse` are quadratic. A key record of 64 KB (`h=a`, spaces, CRLF, `b`) costs more than 10^9 stream calls for each signature that names it. Reading a header block is quadratic as well: while a field has no colon, every continuation line makes `find(':')` start at the field's first byte again. `ParseAddressList` reads a string quoted d times d times (C86_nested_quotes_witness). A CR followed by an escaped LF in a quoted string becomes a line break of its content, so a text without any CRLF can be quadratic too (C86_escaped_break_witness); without such CRs it is never worse than n log n (C86_address_log_partial).
* C87 RFC 6376 section 3.7 deletes the value of b= "including all surrounding whitespace" before hashing; `CheckSignature` erases only the value, so signatures written as `b= ...` or `b=... ;` by other signers do not verify. A q= list is rejected even if it contains dns/txt; i= is split at the first at-sign, also inside a quoted local part; a signature field whose h= mentions its own name more often than there are such fields below is hashed itself, with its b=.
* C43, C87 positions of tags are `int`: in a signature field of more than 2 GiB with b= beyond 2^31 (mod 2^32) `CheckSignature` throws `std::out_of_range`; from 2^32 on it erases bytes at the wrong place (C35_any_length).
* C90 a second `Validatory` made over a stream that was not rewound takes the body for the message: it overlooks the real signatures and finds those quoted in the body; a `Signatory` then signs the body.
* C91 `SignatoryOptions` has no assignment operator of its own: after `a = b` the setters and getters of `a` for the first signature act on `b` (a signs with b's old domain, b with a's), and after `options = SignatoryOptions()` they use freed memory.
* C92 in a program that has called `setlocale` with a Turkish or Azerbaijani locale `tolower('I')` is not `i`: `DKIM-Signature` fields are not found (the message looks unsigned), and relaxed signatures made there are rejected by every verifier.
* C93 nothing bounds the number of signatures the tool verifies: n signature fields of 54 bytes make it canonicalize and hash the whole body n times (C93_many_signatures).
* C95 the converse of C87: the library accepts signatures that are not valid by the RFCs: with a key for another hash or service, with trailing bytes after an Ed25519 signature, with white space around b= that was hashed, and with a signature field that hashes itself.
* C96 removing the last name with `DelHeaders` leaves an empty list, which means "sign every field" (C96_emptied_list_signs_all).
* C98 `CreateSignature` holds the digest context of the generated field in a raw pointer (Signatory.cpp:196); when `FilterHeader` (line 198) throws, which a name to be oversigned with a CR that is not followed by LF makes it do under relaxed header canonicalization, the context is never freed.
* C100 a caller who wants read errors reported (C83) has to call `exceptions(std::ios::badbit)`; with failbit or eofbit in the mask every message without a body length limit ends with an exception, and a pipe is still signed without its body.
* C101 the return values of `EVP_MD_CTX_create`, `EVP_DigestInit_ex`, `EVP_DigestUpdate`, `EVP_MD_CTX_copy` and `EVP_DigestFinal_ex` are never looked at: where a digest is not available (SHA-1 in a restricted installation) a message with `a=rsa-sha1` makes the verifier compare and verify `md_len` bytes that were never written, `md_len` itself included.
* C103 where `long` has 32 bits, a signature valid until after 2038 is taken as expired as soon as the clock passes 2^31, and before that its x= leaves ERANGE in errno, so that the next signature with l= is rejected; l= of 2 GiB or more is refused; l= and i= with a minus sign are taken modulo 2^32; t= and x= are written modulo 2^32.
* C104 `GetSignature` and `CheckBodyHash` of one `Validatory` move its stream: called by two threads without a lock, one thread can find the stream at its end and hash an empty body, so that a body put into a message that was signed with an empty one (relaxed, or `l=0`) is accepted. Nothing in the interface says that these calls must not overlap; `CheckSignature` and `GetPublicKey` are safe.
