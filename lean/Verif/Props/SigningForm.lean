import Verif.Props.Signing
import Verif.Props.Repeat
/-!
# Properties C45, C47 and the failing cases of C53

Spec: `Verif/Spec/SigText.lean`, `Verif/Proofs/SigLines.lean` (`TabLine`).
-/

namespace Dkim
open Spec

variable {E : Env}

/-! ### C45: form of the generated text -/

/-- A generated field: the first line starts with the name and a colon, every further line with a TAB;
no line contains a line feed or is empty; the lines of the h= list are at most `max 81 (L + 3)` and those
of b= at most 80 bytes long. -/
def Spec.GoodField (name : Bytes) (L : Nat) (t : Bytes) : Prop :=
  ∃ first dl bl : Bytes, ∃ hl sl : List Bytes, t = joinLines (first :: dl :: (hl ++ bl :: sl)) ∧
    (∃ x, first = name ++ COLON :: x) ∧ LF ∉ first ∧
    (∀ l ∈ dl :: (hl ++ bl :: sl), TabLine l) ∧
    (∃ x r, hl = (b!"\th=" ++ x) :: r) ∧ (∀ l ∈ hl, l.length ≤ max 81 (L + 3)) ∧
    (∃ x r, sl = (b!"\tb=" ++ x) :: r) ∧ (∀ l ∈ sl, l.length ≤ 80)

theorem lower_LF {n : Bytes} : LF ∈ lower n ↔ LF ∈ n := by
  unfold lower
  simp only [List.mem_map]
  constructor
  · rintro ⟨c, h1, h2⟩
    have : c = LF := by
      unfold toLower at h2
      split at h2
      · rename_i hc
        have h3 : 65 ≤ c.toNat := hc.1
        have h4 : c.toNat ≤ 90 := hc.2
        have h5 := congrArg UInt8.toNat h2
        rw [UInt8.toNat_add] at h5
        have h6 : (32 : UInt8).toNat = 32 := rfl
        have h7 : LF.toNat = 10 := rfl
        omega
      · exact h2
    exact this ▸ h1
  · intro h; exact ⟨LF, h, by decide⟩

/-- C45 (for names without a line feed, see `C45_names`): the text `CreateSignature` returns is made of
well-formed folded fields, one per signature. -/
theorem C45_form_partial (o : Options E) (hsafe : SafeOptions o) (clock : Nat → Int) (d H : Bytes) (ls : List Bytes) (off : Int)
    (hd : HeadText 0 d ls off) (L : Nat)
    (hn : ∀ n ∈ signedNames o.headers o.oversign ((groupLines ls).map mkField), LF ∉ n ∧ n.length ≤ L)
    (hsign : (Signatory.createSignature E o clock { file := freshStream d }).1 = .ok H) :
    ∃ ts, H = joinLines ts ∧ ts.length = o.signatures.length ∧
      ∀ t ∈ ts, GoodField (if o.arcInstance = 0 then b!"DKIM-Signature" else b!"ARC-Message-Signature") L t := by
  obtain ⟨m, s1, cs, hp, hcap, hcs, hall⟩ := createSignature_ok o clock d H hsign
  obtain ⟨m2, s2, p1, p2, p3, _, _⟩ := parseAll_head hd (freshStream d) (at_fresh d)
  rw [hp] at p1; cases p1
  rw [p2] at hall
  obtain ⟨ts, l1, l2, l3⟩ := allSignatures_ok o clock _ _ _ 0 [] _ H hall
  simp only [List.isEmpty_nil, if_true] at l2
  refine ⟨ts, l2, by simpa using l1, ?_⟩
  intro t ht
  obtain ⟨i, hi, e⟩ := List.mem_iff_getElem.1 ht
  have hi2 : i < o.signatures.reverse.length := by rw [← l1]; exact hi
  obtain ⟨t', e1, e2⟩ := l3 i _ (List.getElem?_eq_getElem hi2)
  rw [List.getElem?_eq_getElem hi, e] at e1
  cases e1
  have hs : o.signatures.reverse[i] ∈ o.signatures := List.mem_reverse.1 (List.getElem_mem hi2)
  obtain ⟨q1, q2⟩ := hsafe _ hs
  obtain ⟨x0, x1, x2, x3, x4, hls, bls, g1, g2, g3, g4⟩ := oneSignature_lines L e2 hn
    (val_not_LF (fun c hc => letDig_val (C24_no_injection _ q1 c hc)))
    (val_not_LF (fun c hc => letDig_val (C24_no_injection _ q2 c hc)))
  have hname : (if o.arcInstance = 0 then b!"DKIM-Signature" else b!"ARC-Message-Signature") = sigFieldName o := by
    unfold sigFieldName
    by_cases h : o.arcInstance = 0 <;> simp [h]
  refine ⟨sigFieldName o ++ COLON :: x0, b!"\td=" ++ x1, b!"\tbh=" ++ x3, (b!"\th=" ++ x2) :: hls, (b!"\tb=" ++ x4) :: bls,
    ?_, ⟨x0, by rw [hname]⟩, ?_, ?_, ⟨x2, hls, rfl⟩, fun l hl => (g3 l hl).2, ⟨x4, bls, rfl⟩, fun l hl => (g4 l hl).2⟩
  · rw [g1]; congr 1; simp
  · simp only [List.mem_append, List.mem_cons, not_or]
    refine ⟨?_, by decide, g2 _ (by simp)⟩
    unfold sigFieldName; split <;> decide
  · have tab : ∀ (p x : Bytes), LF ∉ p → LF ∉ x → (∃ y, p = TAB :: y) → TabLine (p ++ x) := by
      rintro p x h1 h2 ⟨y, rfl⟩
      exact ⟨by simp only [List.mem_append, not_or]; exact ⟨h1, h2⟩, y ++ x, rfl⟩
    intro l hl
    rcases List.mem_cons.1 hl with rfl | hl
    · exact tab _ _ (by decide) (g2 _ (by simp)) ⟨_, rfl⟩
    · rcases List.mem_append.1 hl with hl | hl
      · exact (g3 l hl).1
      · rcases List.mem_cons.1 hl with rfl | hl
        · exact tab _ _ (by decide) (g2 _ (by simp)) ⟨_, rfl⟩
        · exact (g4 l hl).1

/-- C45: the condition on the names holds for every message if the selection is not empty and selection
and oversign list contain no line feed; the default selection is such a one (`C45_default_names`). -/
theorem C45_names (sel over : List Bytes) (hne : sel ≠ []) (h1 : ∀ n ∈ sel, LF ∉ n) (h2 : ∀ n ∈ over, LF ∉ n) (hs : List Header) :
    ∀ n ∈ signedNames sel over hs, LF ∉ n := by
  intro n hn
  unfold signedNames signedFields at hn
  rcases List.mem_append.1 hn with hn | hn
  · obtain ⟨f, hf, rfl⟩ := List.mem_map.1 hn
    have hw : Wanted sel f := by simpa using (List.mem_filter.1 hf).2
    rcases hw.2 with h | ⟨m, hm, e⟩
    · exact absurd h hne
    · rw [← e, Spec.lower_eq, lower_LF]; exact h1 m hm
  · obtain ⟨m, hm, rfl⟩ := List.mem_map.1 hn
    rw [Spec.lower_eq, lower_LF]; exact h2 m hm

theorem C45_default_names : defaultHeaders ≠ [] ∧ ∀ n ∈ defaultHeaders, LF ∉ n ∧ n.length ≤ 32 := by decide +kernel

/-- C45: with a non-empty selection of names of at most `L` bytes the bound on the length also holds for
every message. -/
theorem C45_name_length (sel over : List Bytes) (hne : sel ≠ []) (L : Nat) (h1 : ∀ n ∈ sel, n.length ≤ L)
    (h2 : ∀ n ∈ over, n.length ≤ L) (hs : List Header) : ∀ n ∈ signedNames sel over hs, n.length ≤ L := by
  have hl : ∀ x : Bytes, (lower x).length = x.length := by intro x; unfold lower; simp
  intro n hn
  unfold signedNames signedFields at hn
  rcases List.mem_append.1 hn with hn | hn
  · obtain ⟨f, hf, rfl⟩ := List.mem_map.1 hn
    have hw : Wanted sel f := by simpa using (List.mem_filter.1 hf).2
    rcases hw.2 with h | ⟨m, hm, e⟩
    · exact absurd h hne
    · rw [← e, Spec.lower_eq, hl]; exact h1 m hm
  · obtain ⟨m, hm, rfl⟩ := List.mem_map.1 hn
    rw [Spec.lower_eq, hl]; exact h2 m hm

/-- The theorem applies to the sample, with the bounds 81 and 80. -/
example : ∃ H ts, (Signatory.createSignature toyEnv Samples.fullOpts (fun _ => 0)
    { file := freshStream Samples.message }).1 = .ok H ∧ H = joinLines ts ∧ ts.length = 2 ∧
      ∀ t ∈ ts, GoodField b!"DKIM-Signature" 7 t := by
  obtain ⟨H, h, _⟩ := Samples.fullOpts_signs
  obtain ⟨ts, h1, h2, h3⟩ := C45_form_partial Samples.fullOpts Samples.fullOpts_safe (fun _ => 0) Samples.message H _ _
    Samples.headText_message 7 (by decide) h
  exact ⟨H, ts, h, h1, h2, h3⟩

/-- C45 is false in general: with the empty selection (sign all fields) a field whose name is folded
before the colon puts its line break into the h= list, and the generated text has a line that is
neither the start of a field nor a continuation. -/
theorem C45_folded_name_witness :
    ∃ H, Samples.sign { Samples.rsaOpts with headers := [] } b!"From: a\r\nFoo\r\n : x\r\n\r\n" = .ok H ∧
      b!"\th=foo\r\n:from;" <:+: H := by
  have h : (match Samples.sign { Samples.rsaOpts with headers := [] } b!"From: a\r\nFoo\r\n : x\r\n\r\n" with
    | .ok H => findText b!"\th=foo\r\n:from;" H
    | _ => false) = true := by decide +kernel
  split at h
  · rename_i H e
    exact ⟨H, e, findText_infix h⟩
  · cases h

/-! ### C47: the algorithm announced -/

/-- C47 (only for entries whose key type is that of the first one): every generated field announces in
a= the key type of the options object itself, so an entry of the same type is announced with its own
type. -/
theorem C47_own_type_partial (o : Options E) (clock : Nat → Int) (d H : Bytes)
    (hsign : (Signatory.createSignature E o clock { file := freshStream d }).1 = .ok H) :
    ∃ ts, H = joinLines ts ∧ ts.length = o.signatures.length ∧
      ∀ (i : Nat) s, o.signatures.reverse[i]? = some s → ∃ op rest, ts[i]? = some (op ++ b!"; a=" ++
          algName o.first.alg o.digest ++ b!"; c=" ++ rest) ∧ OpeningTag o op ∧
        (s.alg = o.first.alg ↔ ∃ rest, ts[i]? = some (op ++ b!"; a=" ++ algName s.alg o.digest ++ b!"; c=" ++ rest)) := by
  obtain ⟨ls, off, hd⟩ := HeadText.total d 0
  obtain ⟨ts, cs, h1, h2, _, _, h5⟩ := C55_generated o clock d H ls off hd hsign
  refine ⟨ts, h1, h2, ?_⟩
  intro i s hi
  obtain ⟨t, head, t2, sgn, e1, ⟨op, tx, il, h, b, f1, f2, f3, _⟩, _⟩ := h5 i s hi
  have key : ts[i]? = some (op ++ b!"; a=" ++ algName o.first.alg o.digest ++ b!"; c=" ++
      (canonName o.canonHead ++ (b!"/" ++ (canonName o.canonBody ++
      (b!";" ++ (tx ++ (b!"\r\n\td=" ++ (s.domain ++ (b!"; s=" ++ (s.selector ++ (il ++ (b!";\r\n\th=" ++ (h ++
      (b!";\r\n\tbh=" ++ (Spec.base64 (E.hash o.digest (cap o.bodySignLength o.bodyLength (Spec.canonBody o.canonBody (bodyPart d off))))
       ++ (b!";\r\n\tb=" ++ b)))))))))))))))) := by
    rw [e1, f2, f1]
    simp only [List.append_assoc]
  refine ⟨op, _, key, f3, fun ha => ⟨_, by rw [ha]; exact key⟩, ?_⟩
  rintro ⟨rest, hr⟩
  rw [key] at hr
  simp only [Option.some.injEq, List.append_assoc] at hr
  have h6 := List.append_cancel_left hr
  have h7 := List.append_cancel_left h6
  cases h8 : s.alg <;> cases h9 : o.first.alg
  · rfl
  · rw [h8, h9] at h7; cases o.digest <;> cases h7
  · rw [h8, h9] at h7; cases o.digest <;> cases h7
  · rfl

/-- C47: an entry of the other type is announced wrongly, and whatever verifies the field - any message,
any resolver - accepts it only with a key of the announced type, never with one of the entry's type. -/
theorem C47_wrong_type_rejected (o : Options E) (hsafe : SafeOptions o) (s : SigOpts E) (hs : s ∈ o.signatures) (now clk : Int)
    (hashed bh t : Bytes) (names : List Bytes) (hone : oneSignature E o s clk hashed names bh = .ok t) (hne : names ≠ [])
    (hn : ∀ n ∈ names, IsFieldName n) (harc : o.arcInstance ≠ 0 → o.identity = [])
    (v : Validatory) (resolver : Bytes → Bool × Bytes) (er : Bool) (st : SigSt) (pub : PublicKey E) (v' : Validatory)
    (h : v.verifyOne E now resolver (genHeader o t) er = (.ok (), st, pub, v')) : pub.alg = o.first.alg := by
  obtain ⟨q1, q2⟩ := hsafe _ hs
  obtain ⟨before, bv, t2, sgn, es, _, _, g3, g4, g5, G, _⟩ := oneSignature_tags hone hne hn
    (fun c hc => letDig_val (C24_no_injection _ q1 c hc)) (fun c hc => letDig_val (C24_no_injection _ q2 c hc)) harc
  unfold Validatory.verifyOne at h
  cases hg : v.getSignature E now (genHeader o t) { erange := er } with
  | mk a b =>
    obtain ⟨st1, v1⟩ := b
    rw [hg] at h
    cases a with
    | error e => simp at h
    | ok u =>
      simp only at h
      cases hkk : getPublicKey resolver st1.sig ({} : PublicKey E) with
      | error e p => rw [hkk] at h; simp at h
      | ok u p =>
        rw [hkk] at h
        simp only [Prod.mk.injEq] at h
        obtain ⟨hc, rfl, rfl, rfl⟩ := h
        have hu := ((C36_success_iff _ _ _ _).1 hc).1
        have hp : Signature.parse E now (genHeader o t) { erange := er } = .ok () st1 := by
          unfold Validatory.getSignature at hg
          cases hpp : Signature.parse E now (genHeader o t) { erange := er } with
          | error e s => rw [hpp] at hg; simp at hg
          | ok u s =>
            rw [hpp] at hg
            simp only [Prod.mk.injEq] at hg
            rw [hg.2.1]
        obtain ⟨es', k1, k2, k3, k4, _⟩ := (parse_ok_iff _ _ _ _ _).1 hp
        have hv : valueText (genHeader o t) = before ++ bv := by
          unfold valueText genHeader
          simp only
          rw [g3, List.drop_append]; simp
        rw [hv] at k1
        obtain ⟨a, ha1, ha2⟩ := k4.algorithm
        have : es' = es := g4.det k1 g5
        rw [this, G.algorithm] at ha1
        cases ha1
        have hlen : ∀ sa da x y, AlgTag (algText sa da) x y → x = sa := by
          intro sa da x y h
          generalize hz : algText sa da = z at h
          cases h <;> cases sa <;> cases da <;> first | rfl | (revert hz; decide)
        have := hlen _ _ _ _ ha2
        rw [← this]
        exact hu.alg.symm

/-- C47 is false: with an RSA key in the options and an additional Ed25519 signature, the additional
field says a=rsa-sha256, and does not verify with its own published key. -/
theorem C47_witness :
    ∃ H, Samples.sign { Samples.rsaOpts with more := [Samples.edOpts.first] } Samples.message = .ok H ∧
      b!"DKIM-Signature: v=1; a=rsa-sha256;" <+: H ∧
      (Samples.edOpts.first).alg = .ed25519 ∧
      Samples.verify Samples.edRec (H ++ CRLF ++ Samples.message) = some (.error (.p .algMismatch)) := by
  have h : (match Samples.sign { Samples.rsaOpts with more := [Samples.edOpts.first] } Samples.message with
    | .ok H => (b!"DKIM-Signature: v=1; a=rsa-sha256;").isPrefixOf H &&
      decide (Samples.verify Samples.edRec (H ++ CRLF ++ Samples.message) = some (.error (.p .algMismatch)))
    | _ => false) = true := by decide +kernel
  split at h
  · rename_i H e
    simp only [Bool.and_eq_true, decide_eq_true_eq] at h
    exact ⟨H, e, List.isPrefixOf_iff_prefix.1 h.1, rfl, h.2⟩
  · cases h

/-! ### C53: negative times -/

/-- C53: a negative expiration time (here 5 seconds before the epoch, absolute) is written as a huge
number, and the verifier takes the signature as valid long after. -/
theorem C53_negative_witness :
    ∃ H, Samples.sign { Samples.rsaOpts with expirationSign := true, expirationAbsolute := true, expiration := -5 }
        Samples.message = .ok H ∧ b!" x=18446744073709551611;" <:+: H ∧
      Samples.verify Samples.rsaRec (H ++ CRLF ++ Samples.message) = some (.ok ()) := by
  have h : (match Samples.sign { Samples.rsaOpts with expirationSign := true, expirationAbsolute := true, expiration := -5 }
        Samples.message with
    | .ok H => findText b!" x=18446744073709551611;" H &&
      decide (Samples.verify Samples.rsaRec (H ++ CRLF ++ Samples.message) = some (.ok ()))
    | _ => false) = true := by decide +kernel
  split at h
  · rename_i H e
    simp only [Bool.and_eq_true, decide_eq_true_eq] at h
    exact ⟨H, e, findText_infix h.1, h.2⟩
  · cases h

end Dkim
