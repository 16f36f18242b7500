import Verif.Spec.RoundTrip
import Verif.Spec.Encodings
/-!
# Specification: the text of a generated signature field
-/

namespace Dkim.Spec

variable {E : Env}

/-- Nothing, or a line break followed by TAB and SP. -/
def IsFold (g : Bytes) : Prop := g = [] ∨ g = b!"\r\n\t "

/-- Names joined by colons, each of them possibly on a new line. -/
inductive FoldedList : List Bytes → Bytes → Prop
  | nil : FoldedList [] []
  | one (g n) : IsFold g → FoldedList [n] (g ++ n)
  | cons (g n m ns t) : IsFold g → FoldedList (m :: ns) t → FoldedList (n :: m :: ns) (g ++ n ++ COLON :: t)

/-- A text broken into lines, the later ones starting with TAB SP. -/
def FoldedText (v t : Bytes) : Prop := ∃ c cs, v = (c :: cs).flatten ∧ t = joinLines (c :: cs.map (b!"\t " ++ ·))

/-- The name of the key type and digest as written in a=. -/
def algName (a : SigAlg) (d : DigestAlg) : Bytes :=
  (match a with | .rsa => b!"rsa-" | .ed25519 => b!"ed25519-") ++ (match d with | .sha1 => b!"sha1" | .sha256 => b!"sha256")

/-- Field name and first tag. -/
inductive OpeningTag (o : Options E) : Bytes → Prop
  | dkim : o.arcInstance = 0 → OpeningTag o b!"DKIM-Signature: v=1"
  | arc (n) : o.arcInstance ≠ 0 → Decimal (o.arcInstance % 2 ^ 64) n →
      OpeningTag o (b!"ARC-Message-Signature: i=" ++ n)

/-- t= and x=: the times meant by the options, in decimal (modulo 2^64). -/
def TimeTags (o : Options E) (clock : Int) (text : Bytes) : Prop :=
  ∃ t x, text = (if o.timestampSign = true then b!" t=" ++ t ++ b!";" else []) ++
      (if o.expirationSign = true then b!" x=" ++ x ++ b!";" else []) ∧
    Decimal (signTime o clock % 2 ^ 64).toNat t ∧ Decimal (expiryTime o clock % 2 ^ 64).toNat x

/-- i= and l= of a DKIM signature. -/
def IdentityLength (o : Options E) (text : Bytes) : Prop :=
  ∃ l, text = (if o.identity = [] then [] else b!"; i=" ++ quotedPrintable o.identity) ++
      (if o.bodySignLength = true then b!"; l=" ++ l else []) ∧ Decimal (o.bodyLength % 2 ^ 64) l

/-- The text of the field for one signature, `head` being the part up to and including `b=`: key type
`alg` announced, names `names` listed, body hash `bh`, signature `sgn`. -/
def FieldText (o : Options E) (s : SigOpts E) (clock : Int) (alg : SigAlg) (names : List Bytes) (bh sgn head t : Bytes) : Prop :=
  ∃ op tx il h b,
    head = op ++ b!"; a=" ++ algName alg o.digest ++ b!"; c=" ++ canonName o.canonHead ++ b!"/" ++ canonName o.canonBody ++
      b!";" ++ tx ++ b!"\r\n\td=" ++ s.domain ++ b!"; s=" ++ s.selector ++ il ++ b!";\r\n\th=" ++ h ++
      b!";\r\n\tbh=" ++ base64 bh ++ b!";\r\n\tb=" ∧
    t = head ++ b ∧ OpeningTag o op ∧ TimeTags o clock tx ∧ IdentityLength o il ∧ FoldedList names h ∧
    FoldedText (base64 sgn) b

/-- `sgn` was made over the digest `md` with the key of signature `s` (the Ed25519 routine reads 64
bytes of the key string and the NUL after it; by C52 the key is 64 bytes long for all option
histories). -/
inductive SignedBy (E : Env) (o : Options E) (s : SigOpts E) (md sgn : Bytes) : Prop
  | rsa (k) : s.alg = .rsa → s.rsa = some k → E.rsaSign k o.digest md = some sgn → SignedBy E o s md sgn
  | ed : s.alg = .ed25519 → 64 ≤ s.ed.length + 1 → E.edSign ((s.ed ++ [0]).take 64) md = some sgn → SignedBy E o s md sgn

end Dkim.Spec
