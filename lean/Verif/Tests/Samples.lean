import Verif.Tests.Toy
import Verif.Model.Signatory
/-!
# A message signed and verified in the toy environment

Concrete runs of the whole pipeline; used as non-vacuity examples and counterexamples.
-/

namespace Dkim.Samples

/-- An unsigned message with a repeated and a folded field. -/
def message : Bytes := b!"To: x\r\nFrom: a@b.c\r\nTo: y,\r\n z\r\n\r\nHi\r\n"

/-- RSA options: key 7, domain d.e, selector s. -/
def rsaOpts : Options toyEnv :=
  { first := { rsa := some (7 : Nat), domain := b!"d.e", selector := b!"s" }
    headers := [b!"from", b!"to"], canonHead := .relaxed }

/-- Ed25519 options: key bytes 5. -/
def edOpts : Options toyEnv :=
  { first := { ed := List.replicate 64 5, alg := .ed25519, domain := b!"d.e", selector := b!"s" }
    headers := [b!"from"] }

/-- What `CreateSignature` returns. -/
def sign (o : Options toyEnv) (msg : Bytes) : Except Err Bytes :=
  (Signatory.createSignature toyEnv o (fun _ => 0) { file := { data := msg } }).1

/-- The signed message. -/
def signed (o : Options toyEnv) (msg : Bytes) : Bytes :=
  match sign o msg with
  | .ok h => h ++ CRLF ++ msg
  | .error _ => []

/-- Verification of the first signature of a message with a given key record. -/
def verify (rec msg : Bytes) : Option (Except Err Unit) :=
  match Validatory.mk' { data := msg } .dkim with
  | .error _ => none
  | .ok v =>
    match v.sigs with
    | [] => none
    | h :: _ => some (v.verifyOne toyEnv 0 (fun _ => (true, rec)) h false).1

/-- Key records for the two keys. -/
def rsaRec : Bytes := b!"v=DKIM1; p=Bw=="
def edRec : Bytes := b!"k=ed25519; p=BQUFBQUFBQUFBQUFBQUFBQUFBQUFBQUFBQUFBQUFBQU="

example : verify rsaRec (signed rsaOpts message) = some (.ok ()) := by decide +kernel
example : verify edRec (signed edOpts message) = some (.ok ()) := by decide +kernel
example : verify edRec (signed rsaOpts message) = some (.error (.p .algMismatch)) := by decide +kernel
example : verify b!"p=CA==" (signed rsaOpts message) = some (.error (.perm .sigMismatch .fail)) := by
  decide +kernel

end Dkim.Samples
