import Verif.Proofs.GenText
import Verif.Props.RoundTrip
/-!
# Properties C45, C47, C48, C53, C55: what `CreateSignature` writes and signs

Spec: `Verif/Spec/SigText.lean` (text of a generated field), `Verif/Spec/Signing.lean` (fields signed).
-/

namespace Dkim
open Spec

variable {E : Env}

/-- C55: what `CreateSignature` returns, for every message and every option set: one field per
signature, the last one added first; each is the text described by `FieldText` (domain, selector,
canonicalizations, identity, length, times, names of the signed fields, hash of the canonical body cut
at the limit) and carries a signature made with that entry's key over the digest of the canonical signed
fields followed by the field itself up to `b=`. -/
theorem C55_generated (o : Options E) (clock : Nat → Int) (d H : Bytes) (ls : List Bytes) (off : Int)
    (hd : HeadText 0 d ls off)
    (hsign : (Signatory.createSignature E o clock { file := freshStream d }).1 = .ok H) :
    ∃ ts cs, H = joinLines ts ∧ ts.length = o.signatures.length ∧
      (o.bodySignLength = true → o.bodyLength ≤ (Spec.canonBody o.canonBody (bodyPart d off)).length) ∧
      CanonAll o.canonHead (signedFields o.headers ((groupLines ls).map mkField)) cs ∧
      ∀ (i : Nat) s, o.signatures.reverse[i]? = some s → ∃ t head t2 sgn, ts[i]? = some t ∧
        FieldText o s (clock i) o.first.alg (signedNames o.headers o.oversign ((groupLines ls).map mkField))
          (E.hash o.digest (cap o.bodySignLength o.bodyLength (Spec.canonBody o.canonBody (bodyPart d off)))) sgn head t ∧
        filterHeader o.canonHead head = .ok t2 ∧ SignedBy E o s (E.hash o.digest (lines cs ++ t2)) sgn := by
  obtain ⟨m, s1, cs, hp, hcap, hcs, hall⟩ := createSignature_ok o clock d H hsign
  obtain ⟨m2, s2, p1, p2, p3, _, _⟩ := parseAll_head hd (freshStream d) (at_fresh d)
  rw [hp] at p1; cases p1
  rw [p2] at hcs hall
  rw [p3] at hcap hall
  obtain ⟨ts, l1, l2, l3⟩ := allSignatures_ok o clock _ _ _ 0 [] _ H hall
  simp only [List.isEmpty_nil, if_true] at l2
  refine ⟨ts, cs, l2, by simpa using l1, hcap, hcs, ?_⟩
  intro i s hi
  obtain ⟨t, e1, e2⟩ := l3 i s hi
  rw [Nat.zero_add] at e2
  obtain ⟨head, t2, sgn, f1, f2, f3⟩ := oneSignature_text e2
  exact ⟨t, head, t2, sgn, e1, f1, f2, f3⟩

/-- C48: the h= list of every generated field names, in lower case, every field of the message that has
a name and is selected (all named fields if the selection is empty), once per instance, from the bottom
of the message up, followed by the oversign names; the same fields, in the same order, are what is
hashed. No condition on the message or the options. -/
theorem C48_signed_headers (o : Options E) (clock : Nat → Int) (d H : Bytes) (ls : List Bytes) (off : Int)
    (hd : HeadText 0 d ls off)
    (hsign : (Signatory.createSignature E o clock { file := freshStream d }).1 = .ok H) :
    ∃ ts cs, H = joinLines ts ∧ ts.length = o.signatures.length ∧
      CanonAll o.canonHead (((groupLines ls).map mkField).reverse.filter (Wanted o.headers)) cs ∧
      ∀ (i : Nat) s, o.signatures.reverse[i]? = some s → ∃ a h c b t2 sgn,
        ts[i]? = some (a ++ b!";\r\n\th=" ++ h ++ b!";\r\n\tbh=" ++ c ++ b) ∧
        filterHeader o.canonHead (a ++ b!";\r\n\th=" ++ h ++ b!";\r\n\tbh=" ++ c) = .ok t2 ∧
        FoldedList ((((groupLines ls).map mkField).reverse.filter (Wanted o.headers)).map (fun f => Spec.lower f.name) ++
          o.oversign.map Spec.lower) h ∧
        SignedBy E o s (E.hash o.digest (lines cs ++ t2)) sgn := by
  obtain ⟨ts, cs, h1, h2, _, h4, h5⟩ := C55_generated o clock d H ls off hd hsign
  refine ⟨ts, cs, h1, h2, h4, ?_⟩
  intro i s hi
  obtain ⟨t, head, t2, sgn, e1, ⟨op, tx, il, h, b, f1, f2, _, _, _, f6, _⟩, e3, e4⟩ := h5 i s hi
  refine ⟨op ++ b!"; a=" ++ algName o.first.alg o.digest ++ b!"; c=" ++ canonName o.canonHead ++ b!"/" ++ canonName o.canonBody ++
      b!";" ++ tx ++ b!"\r\n\td=" ++ s.domain ++ b!"; s=" ++ s.selector ++ il, h,
      Spec.base64 (E.hash o.digest (cap o.bodySignLength o.bodyLength (Spec.canonBody o.canonBody (bodyPart d off)))) ++
      b!";\r\n\tb=", b, t2, sgn, ?_, ?_, f6, e4⟩
  · rw [e1, f2, f1]
    simp only [List.append_assoc]
  · rw [← e3, f1]
    simp only [List.append_assoc]

/-- C48: and the reader gets exactly this list back from h=, if all names in it are legal field names. -/
theorem C48_read_back (o : Options E) (hsafe : SafeOptions o) (clock : Nat → Int) (d H : Bytes) (ls : List Bytes) (off : Int)
    (hd : HeadText 0 d ls off)
    (hsign : (Signatory.createSignature E o clock { file := freshStream d }).1 = .ok H)
    (hne : signedNames o.headers o.oversign ((groupLines ls).map mkField) ≠ [])
    (hn : ∀ n ∈ signedNames o.headers o.oversign ((groupLines ls).map mkField), IsFieldName n)
    (harc : o.arcInstance ≠ 0 → o.identity = []) :
    ∃ ts, H = joinLines ts ∧ ts.length = o.signatures.length ∧ ∀ t ∈ ts, ∃ v es hv,
      t = sigFieldName o ++ COLON :: v ∧ TagText 0 v es ∧ (es.map Prod.fst).Nodup ∧ tagVal es b!"h" = some hv ∧
      valueList hv = .ok (signedNames o.headers o.oversign ((groupLines ls).map mkField)) := by
  obtain ⟨m, s1, cs, hp, hcap, hcs, hall⟩ := createSignature_ok o clock d H hsign
  obtain ⟨m2, s2, p1, p2, p3, _, _⟩ := parseAll_head hd (freshStream d) (at_fresh d)
  rw [hp] at p1; cases p1
  rw [p2] at hall
  obtain ⟨ts, l1, l2, l3⟩ := allSignatures_ok o clock _ _ _ 0 [] _ H hall
  simp only [List.isEmpty_nil, if_true] at l2
  refine ⟨ts, l2, by simpa using l1, ?_⟩
  intro t ht
  obtain ⟨i, hi, e⟩ := List.mem_iff_getElem.1 ht
  have hi2 : i < o.signatures.reverse.length := by rw [← l1]; exact hi
  obtain ⟨t', e1, e2⟩ := l3 i _ (List.getElem?_eq_getElem hi2)
  rw [List.getElem?_eq_getElem hi, e] at e1
  cases e1
  have hs : o.signatures.reverse[i] ∈ o.signatures := List.mem_reverse.1 (List.getElem_mem hi2)
  obtain ⟨q1, q2⟩ := hsafe _ hs
  obtain ⟨before, bv, t2, sgn, es, _, _, g3, g4, g5, g6, _⟩ := oneSignature_tags e2 hne hn
    (fun c hc => letDig_val (C24_no_injection _ q1 c hc)) (fun c hc => letDig_val (C24_no_injection _ q2 c hc)) harc
  obtain ⟨hv, k1, k2⟩ := g6.headers
  exact ⟨_, es, hv, g3, g4, g5, k1, k2⟩

/-- The sample message: both To fields and From, from the bottom up, then the oversign names. -/
example : signedNames Samples.fullOpts.headers Samples.fullOpts.oversign
    ((groupLines [b!"To: x", b!"From: a@b.c", b!"To: y,", b!" z"]).map mkField) =
      [b!"to", b!"from", b!"to", b!"from", b!"subject"] := by decide
example : ∃ H, (Signatory.createSignature toyEnv Samples.fullOpts (fun _ => 0)
    { file := freshStream Samples.message }).1 = .ok H :=
  let ⟨H, h, _⟩ := Samples.fullOpts_signs; ⟨H, h⟩

/-! ### C53: times -/

/-- C53: every generated field carries t= exactly when a timestamp was requested and x= exactly when an
expiration was, with the values requested: the timestamp set (the clock's time if it is -1); the
expiration itself if absolute, and added to the signing time (the timestamp if requested, else the
clock's time) if relative; as decimal numbers modulo 2^64, so exactly that number unless it is
negative. -/
theorem C53_times (o : Options E) (clock : Nat → Int) (d H : Bytes)
    (hsign : (Signatory.createSignature E o clock { file := freshStream d }).1 = .ok H) :
    ∃ ts, H = joinLines ts ∧ ts.length = o.signatures.length ∧
      ∀ i < ts.length, ∃ a t x b,
        ts[i]? = some (a ++ (b!"/" ++ canonName o.canonBody ++ b!";") ++
          (if o.timestampSign = true then b!" t=" ++ t ++ b!";" else []) ++
          (if o.expirationSign = true then b!" x=" ++ x ++ b!";" else []) ++ b!"\r\n\td=" ++ b) ∧
        Decimal (signTime o (clock i) % 2 ^ 64).toNat t ∧ Decimal (expiryTime o (clock i) % 2 ^ 64).toNat x ∧
        (o.expirationSign = true → -(2 ^ 63) ≤ expiryTime o (clock i) ∧ expiryTime o (clock i) < 2 ^ 63) := by
  obtain ⟨m, s1, cs, hp, hcap, hcs, hall⟩ := createSignature_ok o clock d H hsign
  obtain ⟨ts, l1, l2, l3⟩ := allSignatures_ok o clock _ _ _ 0 [] _ H hall
  simp only [List.isEmpty_nil, if_true] at l2
  refine ⟨ts, l2, by simpa using l1, ?_⟩
  intro i hi
  obtain ⟨t, e1, e2⟩ := l3 i _ (List.getElem?_eq_getElem (by rw [← l1]; exact hi))
  rw [Nat.zero_add] at e2
  obtain ⟨head, t2, sgn, ⟨op, tx, il, h, b, f1, f2, _, ⟨tt, xx, q1, q2, q3⟩, _⟩, _, _⟩ := oneSignature_text e2
  obtain ⟨times, _, _, _, _, _, h1, _⟩ := oneSignature_ok e2
  refine ⟨op ++ b!"; a=" ++ algName o.first.alg o.digest ++ b!"; c=" ++ canonName o.canonHead, tt, xx,
    o.signatures.reverse[i].domain ++ (b!"; s=" ++ (o.signatures.reverse[i].selector ++ (il ++ (b!";\r\n\th=" ++ (h ++
      (b!";\r\n\tbh=" ++ (Spec.base64 (E.hash o.digest (cap o.bodySignLength o.bodyLength
        (Spec.canonBody o.canonBody (bodyPart d m.bodyOffset)))) ++ (b!";\r\n\tb=" ++ b)))))))), ?_, q2, q3, ?_⟩
  · rw [e1, f2, f1, q1]
    simp only [List.append_assoc]
  · intro hx
    have := expOf_expiry ((sigTimes_eq h1).2 hx)
    rw [this.1] at this
    exact ⟨this.2.2, this.2.1⟩

/-- For times from 0 on the number written is the time itself. -/
theorem C53_nonneg (v : Int) (h0 : 0 ≤ v) (h1 : v < 2 ^ 63) (t : Bytes) :
    Decimal (v % 2 ^ 64).toNat t ↔ Decimal v.toNat t := by
  rw [Int.emod_eq_of_lt h0 (by omega)]

end Dkim
