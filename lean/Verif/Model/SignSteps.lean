import Verif.Model.VerifySteps
import Verif.Model.Signatory
/-!
# The work of signing

Steps of `Signatory::CreateSignature` (src/Signatory.cpp:55-267), counted as in `Model/VerifySteps`: calls on the
streams, bytes read, copied, compared or hashed. Not counted: the private key operation and base64 encoding; operations
on sets count one step.
-/

namespace Dkim

/-- Bytes of names copied. src/Signatory.cpp:105-139. -/
def nameSteps (names : List Bytes) : Nat := (names.map (fun n => n.length + 1)).sum

/-- The loop over the fields, src/Signatory.cpp:119-134: the name is copied; a selected field is canonicalized, hashed and
its name stored. -/
def signLoopSteps (lr : Bool) (mode : CanonMode) (sel : List Bytes) : List Header → Nat
  | [] => 0
  | h :: hs =>
    h.name.length + 1 +
      if isSelected sel h then
        (Steps.filterHeader lr mode h.header).2 +
          match filterHeader mode h.header with
          | .error _ => 0
          | .ok t => t.length + 2 + h.name.length + 1 + signLoopSteps lr mode sel hs
      else signLoopSteps lr mode sel hs

/-- The loop splitting the signature, src/Signatory.cpp:253-260: `substr` copies a line, `erase` moves the rest to the
front. -/
def foldBSteps : Nat → Nat → Bytes → Nat
  | 0, _, _ => 0
  | n + 1, offset, split => if split.isEmpty then 1 else split.length + 1 + foldBSteps n 2 (split.drop (80 - offset))

/-- One signature, src/Signatory.cpp:143-264: the text is put together in pieces and appended (each byte copied twice), then
canonicalized and hashed; the signature is split and appended, and the result appended to `dkimHeaders`. -/
def oneSignatureSteps (E : Env) (lr : Bool) (o : Options E) (s : SigOpts E) (now : Int) (hashed : Bytes)
    (names : List Bytes) (bh : Bytes) : Nat :=
  nameSteps names +
    match sigHeaderText o s now names bh with
    | .error _ => 0
    | .ok text =>
      2 * text.length + (Steps.filterHeader lr o.canonHead text).2 +
        match filterHeader o.canonHead text with
        | .error _ => 0
        | .ok t2 =>
          t2.length +
            match signDigest E s o.digest (E.hash o.digest (hashed ++ t2)) with
            | .error _ => 0
            | .ok sg =>
              foldBSteps ((b64Encode sg).length + 1) 3 (b64Encode sg) +
                match foldB ((b64Encode sg).length + 1) 3 (b64Encode sg) with
                | .error _ => 0
                | .ok b => 2 + text.length + b.length

/-- All signatures, src/Signatory.cpp:141-265. -/
def allSignaturesSteps (E : Env) (lr : Bool) (o : Options E) (clock : Nat → Int) (hashed : Bytes)
    (names : List Bytes) (bh : Bytes) : Nat → List (SigOpts E) → Nat
  | _, [] => 0
  | k, s :: ss =>
    oneSignatureSteps E lr o s (clock k) hashed names bh +
      match oneSignature E o s (clock k) hashed names bh with
      | .error _ => 0
      | .ok _ => allSignaturesSteps E lr o clock hashed names bh (k + 1) ss

/-- `CreateSignature` after the message has been read, src/Signatory.cpp:60-267 (reading it: `Message.parseAllSteps`). -/
def Signatory.signSteps (E : Env) (lr : Bool) (o : Options E) (clock : Nat → Int) (msg : Message) (s1 : IStream) : Nat :=
  canonBodySteps s1 o.canonBody msg.bodyOffset o.bodySignLength o.bodyLength +
    match canonBody s1 o.canonBody msg.bodyOffset o.bodySignLength o.bodyLength with
    | .error _ => 0
    | .ok ((calls, ok), _) =>
      if !ok then 0
      else
        nameSteps o.headers + signLoopSteps lr o.canonHead o.headers msg.headers.reverse +
          match signLoop o.canonHead o.headers msg.headers.reverse with
          | .error _ => 0
          | .ok (hashed, names) =>
            nameSteps o.oversign +
              allSignaturesSteps E lr o clock hashed (names ++ o.oversign.map lower) (E.hash o.digest calls.flatten) 0 o.signatures.reverse

/-- The first call of `CreateSignature` on a new object. src/Signatory.cpp:55-267. -/
def Signatory.createSteps (E : Env) (lr : Bool) (o : Options E) (clock : Nat → Int) (file : IStream) : Nat :=
  Message.parseAllSteps {} file +
    match Message.parseAll {} file with
    | .error _ => 0
    | .ok (msg, s1) => Signatory.signSteps E lr o clock msg s1

end Dkim
