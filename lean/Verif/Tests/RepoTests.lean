import Verif.Model.Tokenizer
import Verif.Model.TagList
import Verif.Model.Canonicalization
import Verif.Model.MailParser
import Verif.Model.EncodedWord
import Verif.Model.Validatory
import Verif.Model.Signatory
import Verif.Tests.Toy
/-!
# The unit tests of the repository, evaluated on the model

These are tests, not proofs: they check the reading of the code against the expectations recorded in
/repo/tests/src (the real library cannot be run here).
-/

namespace Dkim.Tests

/-! ## tests/src/TokenizerTest.cpp -/
example : readWSP b!" H\t" = (b!" ", b!"H\t") := by decide +kernel
example : readWSP b!"H\t" = ([], b!"H\t") := by decide +kernel
example : readFWS [] = .ok ([], []) := by decide +kernel
example : readFWS b!"\r\n " = .ok (b!"\r\n ", []) := by decide +kernel
example : readFWS b!" \r\n " = .ok (b!" \r\n ", []) := by decide +kernel
example : readFWS b!" \r\n \r\n " = .ok (b!" \r\n ", b!"\r\n ") := by decide +kernel
example : (readFWS b!" \r\n\r\n ").map (·.1) = .ok [] := by decide +kernel
example : readFWS b!"\r" = .error (.p .crWithoutLf) := by decide +kernel
example : (readFWS b!" \n").map (·.1) = .ok b!" " := by decide +kernel
example : (readFWS b!"\n").map (·.1) = .ok [] := by decide +kernel
example : readFWS b!"\r\n \r" = .ok (b!"\r\n ", b!"\r") := by decide +kernel

example : valueList [] = .ok [] := by decide +kernel
example : valueList b!"a" = .ok [b!"a"] := by decide +kernel
example : valueList b!"a:b" = .ok [b!"a", b!"b"] := by decide +kernel
example : valueList b!":" = .error (.p .emptyListValue) := by decide +kernel
example : valueList b!"a:" = .ok [b!"a"] := by decide +kernel
example : valueList b!" a : b : a b : a b:b" =
    .ok [b!"a", b!"b", b!"a b", b!"a b", b!"b"] := by decide +kernel

example : parseAddressList true b!"\"Donald \\\"d-man\\\" Duck\"<root@halon.se>" =
    .ok [b!"root@halon.se"] := by decide +kernel
example : parseAddressList true
    b!"Pete(A wonderful \\) chap) <pete(his account)@silly.test(his host)>" =
    .ok [b!"pete@silly.test"] := by decide +kernel
example : parseAddressList true b!"Mary Smith <mary@x.test>, jdoe@example.org, Who? <one@y.test>" =
    .ok [b!"mary@x.test", b!"jdoe@example.org", b!"one@y.test"] := by decide +kernel
example : parseAddressList true
    b!"\"Mary Smith <mary@x.test>\", jdoe@example.org, Who? <one@y.test>" =
    .ok [b!"mary@x.test", b!"jdoe@example.org", b!"one@y.test"] := by decide +kernel
example : parseAddressList true b!"\"<mary@x.test>\", \"jdoe@example.org\", Who? <one@y.test>" =
    .ok [b!"mary@x.test", b!"jdoe@example.org", b!"one@y.test"] := by decide +kernel
example : parseAddressList true b!"John Doe <jdoe@machine(comment).  example>" =
    .ok [b!"jdoe@machine.example"] := by decide +kernel
example : parseAddressList true b!"User, Company Inc <foo@example.org>" =
    .ok [b!"foo@example.org"] := by decide +kernel
example : parseAddressList true b!"User, Company Inc <foo@example.org>, <bar@example.org>" =
    .ok [b!"foo@example.org", b!"bar@example.org"] := by decide +kernel
example : parseAddressList true
    b!"Pete(A \\\\wonderful \\) chap) <pete(his account)@silly.test(his host)>" =
    .ok [b!"pete@silly.test"] := by decide +kernel
example : parseAddressList true
    b!"A Group(Some people)\r\n :Chris Jones <c@(Chris's host.)public.example>,\r\n joe@example.org,\r\n John <jdoe@one.test> (my dear friend); (the end of the group)" =
    .ok [b!"c@public.example", b!"joe@example.org", b!"jdoe@one.test"] := by decide +kernel
example : parseAddressList true
    b!"Pete(A \\\\wonderful \\) chap) <pete(his account)@silly.test(his host)>  " =
    .ok [b!"pete@silly.test"] := by decide +kernel

/-! ## tests/src/TagListTest.cpp -/

/-- The tags after a successful parse on a fresh object. -/
def tl (s : Bytes) : Except Err (List (Bytes × Bytes)) :=
  match TagList.parse s [] with
  | .ok () m => .ok (m.map (fun p => (p.1, p.2.value)))
  | .error e _ => .error e

example : tl b!"v" = .error (.p .expectedEq) := by decide +kernel
example : tl b!"v=1;x" = .error (.p .expectedEq) := by decide +kernel
example : tl b!"v=1;\r\nk=1;" = .ok [(b!"v", b!"1"), (b!"k", b!"1")] := by decide +kernel
example : tl b!"v=1; \r\nk=1;" = .ok [(b!"v", b!"1"), (b!"k", b!"1")] := by decide +kernel
example : tl b!"v=1;\t\nk=1;" = .ok [(b!"v", b!"1"), (b!"k", b!"1")] := by decide +kernel
example : tl b!"\r\n" = .ok [] := by decide +kernel
example : tl b!"v=1;x=2" = .ok [(b!"v", b!"1"), (b!"x", b!"2")] := by decide +kernel
example : tl b!"" = .ok [] := by decide +kernel
example : tl b!"v=" = .ok [(b!"v", b!"")] := by decide +kernel
example : tl b!"v=;x=   ;z  = \r\n  m ;y  = \r\n ;" =
    .ok [(b!"v", b!""), (b!"x", b!""), (b!"z", b!"m"), (b!"y", b!"")] := by decide +kernel

/-! ## tests/src/CanonicalizationTest.cpp -/
example : filterHeader .simple b!"This should not be modified" = .ok b!"This should not be modified" :=
  by decide +kernel
example : filterHeader .relaxed b!"SUBJect: AbC" = .ok b!"subject:AbC" := by decide +kernel
example : filterHeader .relaxed b!"SUBJect\t : AbC" = .ok b!"subject:AbC" := by decide +kernel
example : filterHeader .relaxed b!"SUBJect:\r\n AbC" = .ok b!"subject:AbC" := by decide +kernel
example : filterHeader .relaxed b!"SUBJect: AbC\r\n\t hej" = .ok b!"subject:AbC hej" := by decide +kernel
example : filterHeader .relaxed b!"SUBJect: AbC\r\n\t hej\r\n      \thej\t" =
    .ok b!"subject:AbC hej hej" := by decide +kernel

/-- Callback output of `CanonicalizationBody` on a string stream from offset 0 without limit. -/
def cb (s : Bytes) (m : CanonMode) : Except Err Bytes :=
  (canonBody { data := s } m 0 false 0).map (fun r => r.1.1.flatten)

example : cb b!"Hello \r\n\r\n\r\n\tWorld\r\n\r\n" .simple =
    .ok b!"Hello \r\n\r\n\r\n\tWorld\r\n" := by decide +kernel
example : cb b!"" .simple = .ok b!"\r\n" := by decide +kernel
example : cb b!"Hello \r\n\r\n\r\n\tWorld\t\t!\r\n\r\n\r\n       \r\nHello \r\nHello \t  \r\n \t Hello \t  \r\n \t Hello \tWorld \t  \r\n" .relaxed =
    .ok b!"Hello\r\n\r\n\r\n World !\r\n\r\n\r\n\r\nHello\r\nHello\r\n Hello\r\n Hello World\r\n" :=
  by decide +kernel

/-! ## tests/src/MailParserTest.cpp -/

/-- Names, texts and body offset. -/
def mp (s : Bytes) : Except Err (List (Bytes × Bytes) × Int) :=
  (({} : Message).parseAll { data := s }).map
    (fun r => (r.1.headers.map (fun h => (h.name, h.header)), r.1.bodyOffset))

example : mp b!"Subject: test" = .ok ([(b!"Subject", b!"Subject: test")], -1) := by decide +kernel
example : mp b!"Subject: test\r\n" = .ok ([(b!"Subject", b!"Subject: test")], -1) := by decide +kernel
example : mp b!"test\r\n" = .ok ([(b!"", b!"test")], -1) := by decide +kernel
example : mp b!"Subject: test\r\n\r\n" = .ok ([(b!"Subject", b!"Subject: test")], 17) := by decide +kernel
example : mp b!"Subject: test\r\nSubject2 : test\r\nSubject3 : test\r\n test\r\nxxx" =
    .ok ([(b!"Subject", b!"Subject: test"), (b!"Subject2", b!"Subject2 : test"),
      (b!"Subject3", b!"Subject3 : test\r\n test"), (b!"", b!"xxx")], -1) := by decide +kernel

/-! ## tests/src/QuotedPrintableTest.cpp -/
example : qpDecode b!"=41" = .ok b!"A" := by decide +kernel
example : qpDecode b!"=20" = .ok b!" " := by decide +kernel
example : qpDecode b!"\r\n " = .ok b!"" := by decide +kernel
example : qpDecode b!"=41 =42" = .ok b!"AB" := by decide +kernel
example : qpDecode b!"=41 \r\n  =42" = .ok b!"AB" := by decide +kernel
example : qpDecode b!"=41 \r\n  =42 \r\n  " = .ok b!"AB" := by decide +kernel
example : qpDecode b!"<" = .ok b!"<" := by decide +kernel
example : qpDecode b!">" = .ok b!">" := by decide +kernel
example : qpDecode b!":" = .ok b!":" := by decide +kernel
example : qpDecode b!" " = .ok b!"" := by decide +kernel
example : qpDecode b!"=" = .error (.p .qpHex) := by decide +kernel
example : qpDecode b!"=a" = .error (.p .qpHex) := by decide +kernel
example : qpDecode b!"=a0" = .error (.p .qpHex) := by decide +kernel
example : qpDecode b!"=g0" = .error (.p .qpHex) := by decide +kernel
example : qpDecode b!"\r" = .error (.p .crWithoutLf) := by decide +kernel
example : qpDecode b!"\t \r" = .error (.p .crWithoutLf) := by decide +kernel
example : qpDecode b!"\n" = .error (.p .qpUnsafe) := by decide +kernel

/-! ## tests/src/EncodedWordTest.cpp -/
example : ewDecode toyEnv b!"=?8859-1?q?=20?=" = .ok b!" " := by decide +kernel
example : ewDecode toyEnv b!"=?8859-1?Q?=20?= " = .ok b!" " := by decide +kernel
example : ewDecode toyEnv b!"=?8859-1?Q?=20?= =?8859-1?q?=20?=" = .ok b!"  " := by decide +kernel
example : ewDecode toyEnv b!"=?8859-1?Q?=20?=  =?8859-1?q?=20?=" = .ok b!"  " := by decide +kernel
example : ewDecode toyEnv b!"=?8859-1?Q?=20?= A" = .ok b!"  A" := by decide +kernel
example : ewDecode toyEnv b!"=?8859-1?Q?=20?=  =?8859-1?q?_?=  =?8859-1?Q?=20?=" = .ok b!"   " :=
  by decide +kernel
example : ewDecode toyEnv b!"=?8859-1?Q?=20?=  A  A  =?8859-1?Q?=20?=" = .ok b!"   A  A " :=
  by decide +kernel
example : ewDecode toyEnv b!"=?ISO-8859-1?Q?a?= =?ISO-8859-2?Q?_b?=" = .ok b!"a b" := by decide +kernel
example : ewDecode toyEnv b!"=?ISO-8859-1?Q?a_b?=" = .ok b!"a b" := by decide +kernel
example : ewDecode toyEnv b!"=?ISO-8859-1?Q?a?=\r\n   =?ISO-8859-1?Q?b?=" = .ok b!"ab" := by decide +kernel
example : ewDecode toyEnv b!"=?ISO-8859-1?Q?a?= b" = .ok b!"a b" := by decide +kernel
example : ewDecode toyEnv b!"=?ISO-8859-1?-?a?=" = .ok b!"=?ISO-8859-1?-?a?=" := by decide +kernel

/-! ## tests/src/Base64Test.cpp -/
example : b64Encode b!"Hello World? Is it mine to take over? I would so if I ever got the chance :)" =
    b!"SGVsbG8gV29ybGQ/IElzIGl0IG1pbmUgdG8gdGFrZSBvdmVyPyBJIHdvdWxkIHNvIGlmIEkgZXZlciBnb3QgdGhlIGNoYW5jZSA6KQ==" :=
  by decide +kernel

/-! ## tests/src/SignatoryTest.cpp, with the toy environment -/

/-- Options of the test. -/
def opts (limit : Bool) : Options toyEnv :=
  { first := { rsa := some (7 : Nat), domain := b!"halon.se", selector := b!"dkim-test" },
    bodySignLength := limit }

/-- Sign, prepend, verify. -/
def signMail (limit : Bool) (mail : Bytes) : Except Err (Nat × Except Err Unit) :=
  match (Signatory.createSignature toyEnv (opts limit) (fun _ => 1000) { file := { data := mail } }).1 with
  | .error e => .error e
  | .ok head =>
    match Validatory.mk' { data := head ++ CRLF ++ mail } .dkim with
    | .error e => .error e
    | .ok v =>
      match v.sigs with
      | h :: _ => .ok (v.sigs.length,
          (v.verifyOne toyEnv 2000 (fun _ => (true, b!"v=DKIM1; p=Bw==; t=s")) h false).1)
      | [] => .ok (0, .ok ())

example : signMail false b!"From: erik@halon.se\r\n\r\nThis is my first DKIM test" = .ok (1, .ok ()) :=
  by decide +kernel
example : signMail false b!"From: erik@halon.se\r\n\r\n" = .ok (1, .ok ()) := by decide +kernel
example : signMail false b!"From: erik@halon.se\r\n" = .ok (1, .ok ()) := by decide +kernel
example : signMail false b!"From: erik@halon.se" = .ok (1, .ok ()) := by decide +kernel
example : signMail true b!"From: erik@halon.se\r\n\r\n" = .ok (1, .ok ()) := by decide +kernel
example : signMail true b!"From: erik@halon.se" = .ok (1, .ok ()) := by decide +kernel
example : signMail true b!"From: erik@halon.se\r\n\r\n123" = .ok (1, .ok ()) := by decide +kernel

end Dkim.Tests
