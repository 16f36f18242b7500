import Verif.Model.Steps
import Verif.Model.MailSteps
import Verif.Model.Validatory
/-!
# The work of a verification

Steps of `Validatory::GetSignature`, `GetPublicKey` and `CheckSignature`: calls on the parsers' streams
(`Model/Steps`), bytes of a field, a tag value or the body read, copied, compared or hashed. Not counted: base64
decoding, the lookup itself and the public key operation; operations on maps count one step (they take a
logarithmic number of comparisons).
-/

namespace Dkim

/-- The steps a tag's value costs with the function `cost`, if the tag is there. src/Signature.cpp:72-300. -/
def tagSteps (tags : TagList) (name : Bytes) (cost : Bytes → Nat) : Nat :=
  match tags.getTag name with
  | none => 0
  | some t => cost t.value

/-- `Signature::Parse`, src/Signature.cpp:72-300: the value is copied (74) and parsed, each tag value is copied and
compared or converted once; h= is split (193) and i= decoded (222). Simplification: also counted where an earlier
tag is already illegal. -/
def Signature.parseSteps (lr : Bool) (h : Header) : Nat :=
  h.header.length + h.name.length + (Steps.tagParse lr (h.header.drop h.valueOffset) []).1.2 +
    match TagList.parse (h.header.drop h.valueOffset) [] with
    | .error _ _ => 0
    | .ok () tags =>
      (tags.map (fun e => e.2.value.length)).sum + tagSteps tags b!"h" (fun v => (Steps.valueList lr v).2) +
        tagSteps tags b!"i" (fun v => (Steps.qpDecode lr v false).2)

/-- The read loop of `CanonicalizationBody`, src/Canonicalization.cpp:136-199: the test, the bytes read and the bytes
put into `buf` (each of them is passed to the digest at most once). -/
def bodyLoopSteps (blk : Nat) (mode : CanonMode) (limit : Bool) : Nat → IStream → BodyAcc → Nat
  | 0, _, _ => 0
  | n + 1, s, a =>
    if !s.good then 1
    else if limit ∧ a.size = 0 then 1
    else
      let (block, s') := s.read blk
      let (st', buf) := bodyBlock mode a.st block
      let a1 := ({ a with st := st' }).emit limit buf
      1 + block.length + buf.length + bodyLoopSteps blk mode limit n s' { a1 with empty := a1.empty && buf.isEmpty }

/-- `CanonicalizationBody`, src/Canonicalization.cpp:124-218, with the final CRLF. -/
def canonBodySteps (s : IStream) (mode : CanonMode) (bodyOffset : Int) (limit : Bool) (size : Nat) : Nat :=
  2 + if bodyOffset ≠ -1 then bodyLoopSteps 8096 mode limit (s.data.length + 2) (s.clear.seekg bodyOffset) { size := size } else 0

/-- Filling `headerCache`, src/Validatory.cpp:209-215: each name is copied and turned to lower case. -/
def fillSteps (hs : List Header) : Nat := (hs.map (fun h => h.name.length + 1)).sum

/-- The loop over the signed names, src/Validatory.cpp:218-238: the name is copied, a field found is canonicalized
and hashed. -/
def headLoopSteps (lr : Bool) (mode : CanonMode) : HeaderCache → List Bytes → Nat
  | _, [] => 0
  | cache, name :: names =>
    let k := lower name
    name.length + 1 +
      match (cache k).getLast? with
      | none => headLoopSteps lr mode cache names
      | some h =>
        (Steps.filterHeader lr mode h.header).2 +
          match filterHeader mode h.header with
          | .error _ => 0
          | .ok t => t.length + 2 + headLoopSteps lr mode (cache.put k (cache k).dropLast) names

/-- `CheckSignature`, src/Validatory.cpp:172-283: the cache, the signed fields, and the signature field, which is
copied without its b= value, canonicalized and hashed. -/
def checkSignatureSteps (lr : Bool) (msg : Message) (h : Header) (sig : Signature) : Nat :=
  fillSteps msg.headers + headLoopSteps lr sig.canonHeader (HeaderCache.fill msg.headers) sig.headers +
    match stripB h sig with
    | .error _ => h.header.length
    | .ok t =>
      h.header.length + (Steps.filterHeader lr sig.canonHeader t).2 +
        match filterHeader sig.canonHeader t with
        | .error _ => 0
        | .ok c => c.length

/-- Verification of one signature field, tools/src/main.cpp:178-183, see `Validatory.verifyOne`. -/
def Validatory.verifySteps (E : Env) (lr : Bool) (now : Int) (resolver : Bytes → Bool × Bytes) (v : Validatory)
    (h : Header) (erange : Bool) : Nat :=
  Signature.parseSteps lr h +
    match Signature.parse E now h { erange := erange } with
    | .error _ _ => 0
    | .ok () st =>
      canonBodySteps v.file st.sig.canonBody v.msg.bodyOffset st.sig.bodySizeLimit st.sig.bodySize +
        match v.checkBodyHash E st.sig with
        | (.error _, _) => 0
        | (.ok (), v') =>
          (keyQuery st.sig).length + (Steps.keyParse E lr (resolver (keyQuery st.sig)).2).2.2 +
            match getPublicKey resolver st.sig ({} : PublicKey E) with
            | .error _ _ => 0
            | .ok () _ => checkSignatureSteps lr v'.msg h st.sig

/-- Verification of all signatures of a message, one after the other, as tools/src/main.cpp:174-196 does: `clock k` is
the time and `errno k` the errno flag at the `k`th. The stream is passed on inside the object. -/
def Validatory.verifyAllSteps (E : Env) (lr : Bool) (clock : Nat → Int) (errno : Nat → Bool) (resolver : Bytes → Bool × Bytes) :
    Nat → Validatory → List Header → Nat
  | _, _, [] => 0
  | k, v, h :: hs =>
    v.verifySteps E lr (clock k) resolver h (errno k) +
      verifyAllSteps E lr clock errno resolver (k + 1) (v.verifyOne E (clock k) resolver h (errno k)).2.2.2 hs

end Dkim
