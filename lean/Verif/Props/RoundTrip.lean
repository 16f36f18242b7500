import Verif.Proofs.RoundTrip
import Verif.Props.Base64
import Verif.Tests.Samples
/-!
# Property C44: what was signed verifies

Spec: `Verif/Spec/RoundTrip.lean` (well-formed option sets, key pairs), `Verif/Spec/Signing.lean`.
-/

namespace Dkim
open Spec

variable {E : Env}

/-- The kind of verification for the generated fields. -/
def Spec.kindOf (o : Options E) : ValidatorType := if o.arcInstance ≠ 0 then .arc else .dkim

/-- Each generated field has the shape of a header field and is read back as such. -/
theorem one_field {o : Options E} {s : SigOpts E} {now : Int} {hashed bh t : Bytes} {names : List Bytes}
    (h : oneSignature E o s now hashed names bh = .ok t) (hn : ∀ n ∈ names, LF ∉ n)
    (hd : LF ∉ s.domain) (hs : LF ∉ s.selector) :
    ∃ g, t = joinLines g ∧ FieldLines g ∧ mkField g = genHeader o t := by
  obtain ⟨x0, x1, x2, x3, x4, hls, bls, e, a1, a2, a3⟩ := oneSignature_lines names.flatten.length h
    (fun n hm => ⟨hn n hm, (List.sublist_flatten_of_mem hm).length_le⟩) hd hs
  have tab : ∀ l : Bytes, (∃ y, l = TAB :: y) → isCont l = true ∧ l ≠ [] := by
    rintro l ⟨y, rfl⟩; exact ⟨by unfold isCont; rfl, by simp⟩
  have hrest : ∀ x ∈ (b!"\td=" ++ x1) :: ((b!"\th=" ++ x2) :: (hls ++ ((b!"\tbh=" ++ x3) :: (b!"\tb=" ++ x4) :: bls))),
      isCont x = true ∧ x ≠ [] ∧ LF ∉ x := by
    intro x hx
    simp only [List.mem_cons, List.mem_append] at hx
    rcases hx with rfl | rfl | hx | rfl | rfl | hx
    · refine ⟨rfl, by simp, ?_⟩
      simp only [List.mem_append, not_or]
      exact ⟨by decide, a1 _ (by simp)⟩
    · obtain ⟨h1, h2⟩ := a2 _ (List.mem_cons_self ..)
      exact ⟨(tab _ h1.2).1, (tab _ h1.2).2, h1.1⟩
    · obtain ⟨h1, h2⟩ := a2 x (List.mem_cons_of_mem _ hx)
      exact ⟨(tab _ h1.2).1, (tab _ h1.2).2, h1.1⟩
    · refine ⟨rfl, by simp, ?_⟩
      simp only [List.mem_append, not_or]
      exact ⟨by decide, a1 _ (by simp)⟩
    · obtain ⟨h1, h2⟩ := a3 _ (List.mem_cons_self ..)
      exact ⟨(tab _ h1.2).1, (tab _ h1.2).2, h1.1⟩
    · obtain ⟨h1, h2⟩ := a3 x (List.mem_cons_of_mem _ hx)
      exact ⟨(tab _ h1.2).1, (tab _ h1.2).2, h1.1⟩
  have e' : t = joinLines ((sigFieldName o ++ COLON :: x0) :: ((b!"\td=" ++ x1) :: ((b!"\th=" ++ x2) ::
      (hls ++ ((b!"\tbh=" ++ x3) :: (b!"\tb=" ++ x4) :: bls))))) := by
    rw [e]; congr 1; simp
  refine ⟨_, e', ⟨_, _, rfl, ?_, fun x hx => (hrest x hx).1, ?_⟩, ?_⟩
  · unfold sigFieldName; split <;> rfl
  · intro x hx
    rcases List.mem_cons.1 hx with rfl | hx
    · refine ⟨by simp, ?_⟩
      simp only [List.mem_append, List.mem_cons, not_or]
      refine ⟨?_, by decide, a1 _ (by simp)⟩
      unfold sigFieldName; split <;> decide
    · exact (hrest x hx).2
  · rw [e']
    rw [joinLines_cons_ne _ (by simp)]
    rw [List.append_assoc, List.append_assoc, List.cons_append]
    refine (mkField_gen o _ (x0 ++ (CRLF ++ joinLines ((b!"\td=" ++ x1) :: ((b!"\th=" ++ x2) ::
      (hls ++ ((b!"\tbh=" ++ x3) :: (b!"\tb=" ++ x4) :: bls)))))) ?_).trans ?_
    · rw [joinLines_cons_ne _ (by simp)]; simp
    · congr 1
      rw [joinLines_cons_ne _ (by simp)]; simp

theorem all_fields (o : Options E) (ts : List Bytes)
    (h : ∀ t ∈ ts, ∃ g, t = joinLines g ∧ FieldLines g ∧ mkField g = genHeader o t) :
    ∃ fs : List (List Bytes), fs.map joinLines = ts ∧ (∀ g ∈ fs, FieldLines g) ∧ fs.map mkField = ts.map (genHeader o) := by
  induction ts with
  | nil => exact ⟨[], rfl, by simp, rfl⟩
  | cons t ts ih =>
    obtain ⟨g, h1, h2, h3⟩ := h t (by simp)
    obtain ⟨fs, k1, k2, k3⟩ := ih (fun t ht => h t (by simp [ht]))
    refine ⟨g :: fs, by simp [← h1, k1], ?_, by simp [h3, k3]⟩
    intro x hx
    rcases List.mem_cons.1 hx with rfl | hx
    · exact h2
    · exact k2 x hx

theorem joinLines_mem_length {ts : List Bytes} {t : Bytes} (h : t ∈ ts) : t.length ≤ (joinLines ts).length := by
  induction ts with
  | nil => cases h
  | cons x ts ih =>
    cases ts with
    | nil => simp at h; subst h; exact Nat.le_refl _
    | cons y ts =>
      rw [joinLines_cons_ne _ (by simp)]
      rcases List.mem_cons.1 h with rfl | h
      · simp
      · have := ih h; simp only [List.length_append]; omega

/-- C44: for every message and option set that are well-formed (`WellFormed`), with options reached by
any history of setter calls (`SafeOptions`, C24) and matching keys published (`Published`): if
`CreateSignature` returns `H`, then the message `H CRLF message` has, as its first signature fields,
one field per signature, and each of them verifies: `GetSignature` (parse and body hash), key lookup
and `CheckSignature` all succeed, with fresh objects, in any order and any number of times
(`SameMessage`), and what is read in the field is what the options say (`ReadsBack`). -/
theorem C44_round_trip (hB : E.B64Law) (o : Options E) (hsafe : SafeOptions o) (clock : Nat → Int) (now : Int)
    (d H : Bytes) (ls : List Bytes) (off : Int) (hd : HeadText 0 d ls off)
    (wf : WellFormed o clock now d ((groupLines ls).map mkField))
    (resolver : Bytes → Bool × Bytes) (hk : ∀ s ∈ o.signatures, ∃ k, Published o resolver s k)
    (hsign : (Signatory.createSignature E o clock { file := freshStream d }).1 = .ok H) (hlen : H.length < 2 ^ 31) :
    ∃ v, Validatory.mk' (freshStream (H ++ CRLF ++ d)) (kindOf o) = .ok v ∧
      ∀ (i : Nat) s, o.signatures.reverse[i]? = some s → ∃ h, v.sigs[i]? = some h ∧
        ∀ w er, SameMessage w v → (er = true → o.bodySignLength = false) →
          ∃ st pub w', w.verifyOne E now resolver h er = (.ok (), st, pub, w') ∧ SameMessage w' v ∧
            ReadsBack o s (signedNames o.headers o.oversign ((groupLines ls).map mkField)) st.sig := by
  obtain ⟨m, s1, cs, hp, hcap, hcs, hall⟩ := createSignature_ok o clock d H hsign
  obtain ⟨m2, s2, p1, p2, p3, _, _⟩ := parseAll_head hd (freshStream d) (at_fresh d)
  rw [hp] at p1; cases p1
  rw [← p2] at wf
  obtain ⟨ts, l1, l2, l3⟩ := allSignatures_ok o clock _ _ _ 0 [] _ H hall
  simp only [List.isEmpty_nil, if_true] at l2
  have tsof : ∀ t ∈ ts, ∃ k s, s ∈ o.signatures ∧ oneSignature E o s (clock k) (lines cs)
      (signedNames o.headers o.oversign m.headers)
      (E.hash o.digest (cap o.bodySignLength o.bodyLength (Spec.canonBody o.canonBody (bodyPart d m.bodyOffset)))) = .ok t := by
    intro t ht
    obtain ⟨i, hi, e⟩ := List.mem_iff_getElem.1 ht
    have hi2 : i < o.signatures.reverse.length := by rw [← l1]; exact hi
    obtain ⟨t', e1, e2⟩ := l3 i _ (List.getElem?_eq_getElem hi2)
    rw [List.getElem?_eq_getElem hi, e] at e1
    cases e1
    exact ⟨0 + i, _, List.mem_reverse.1 (List.getElem_mem hi2), e2⟩
  have noLF : ∀ s ∈ o.signatures, LF ∉ s.domain ∧ LF ∉ s.selector := by
    intro s hs
    obtain ⟨q1, q2⟩ := hsafe s hs
    exact ⟨val_not_LF (fun c hc => letDig_val (C24_no_injection _ q1 c hc)),
      val_not_LF (fun c hc => letDig_val (C24_no_injection _ q2 c hc))⟩
  obtain ⟨fs, f1, f2, f3⟩ := all_fields o ts (by
    intro t ht
    obtain ⟨k, s, hs, e⟩ := tsof t ht
    exact one_field e (fun n hn => val_not_LF (fun c hc => (fieldName_val (wf.names n hn) hc).1))
      (noLF s hs).1 (noLF s hs).2)
  have hne : fs ≠ [] := by
    rintro rfl
    simp at f1
    rw [f1] at l1
    simp [Options.signatures] at l1
  obtain ⟨m', s', g1, g2, g3⟩ := parse_prepended fs hne f2 d wf.start m s1 hp
  rw [f1, ← l2] at g1 g3
  rw [f3] at g2
  have hmk : Validatory.mk' (freshStream (H ++ CRLF ++ d)) (kindOf o) =
      .ok { file := s', msg := m', sigs := m'.headers.filter (isSigHeader (kindOf o)) } := by
    unfold Validatory.mk'
    rw [g1]
  refine ⟨_, hmk, ?_⟩
  intro i s hi
  obtain ⟨t, e1, e2⟩ := l3 i s hi
  have ht : t ∈ ts := List.mem_of_getElem? e1
  have hs : s ∈ o.signatures := List.mem_reverse.1 (List.mem_of_getElem? hi)
  have hgen : ∀ x, isSigHeader (kindOf o) (genHeader o x) = true := by
    intro x
    unfold isSigHeader kindOf
    have hl := sigFieldName_lower o
    show (match (if o.arcInstance ≠ 0 then ValidatorType.arc else .dkim) with
      | .dkim => decide (lower (sigFieldName o) = b!"dkim-signature")
      | .arc => decide (lower (sigFieldName o) = b!"arc-message-signature")
      | .none => false) = true
    rw [hl]
    by_cases h0 : o.arcInstance ≠ 0
    · simp only [if_pos h0, decide_true]
    · simp only [if_neg h0, decide_true]
  refine ⟨genHeader o t, ?_, ?_⟩
  · simp only [g2, List.filter_append]
    have : (ts.map (genHeader o)).filter (isSigHeader (kindOf o)) = ts.map (genHeader o) := by
      rw [List.filter_eq_self]
      intro x hx
      obtain ⟨y, _, rfl⟩ := List.mem_map.1 hx
      exact hgen y
    rw [this, List.getElem?_append_left, List.getElem?_map, e1]
    · rfl
    · rw [List.length_map]
      exact (List.getElem?_eq_some_iff.1 e1).1
  · intro w er hw her
    have hw' := hw
    obtain ⟨w1, w2, w3, w4⟩ := hw'
    obtain ⟨hb, s'', hb2, hb3⟩ := mk'_built _ _ _ hmk
    obtain ⟨loc, dom, hid⟩ := wf.identity s hs
    obtain ⟨k, hk⟩ := hk s hs
    have hdata : w.file.data = H ++ CRLF ++ d := w1.trans hb.data
    have hbody : bodyPart w.file.data w.msg.bodyOffset = bodyPart d m.bodyOffset := by
      rw [hdata, w2]; exact g3
    have hsel : selected w.msg.headers (signedNames o.headers o.oversign m.headers) = signedFields o.headers m.headers := by
      rw [w2]
      simp only [g2]
      refine selected_signed _ _ _ _ ?_
      intro n hn
      refine ⟨(wf.oversign n hn).1, ?_⟩
      intro x hx
      obtain ⟨y, _, rfl⟩ := List.mem_map.1 hx
      show lower (sigFieldName o) ≠ lower n
      rw [sigFieldName_lower]
      exact fun hh => (wf.oversign n hn).2 hh.symm
    obtain ⟨st, pub, w', r1, r2⟩ := gen_verifies hB (v := w) (by rw [hbody]) _ e2 hcs hsel w4 wf.names
      wf.from_signed (hsafe s hs) wf.arcRange hid wf.length (wf.algs s hs) wf.algName
      (fun he => ⟨(wf.expiry he).1, (wf.expiry he).2 _⟩) resolver k hk
      (by have := joinLines_mem_length ht; rw [← l2] at this; omega) er her
    refine ⟨st, pub, w', r1, ?_, by rw [← p2]; exact r2⟩
    · have hstep : w' = (w.getSignature E now (genHeader o t) { erange := er }).2.2 := by
        unfold Validatory.verifyOne at r1
        cases hg : w.getSignature E now (genHeader o t) { erange := er } with
        | mk a b =>
          obtain ⟨b1, b2⟩ := b
          rw [hg] at r1
          cases a with
          | error e => simp at r1
          | ok u =>
            simp only at r1 ⊢
            cases hkk : getPublicKey resolver b1.sig ({} : PublicKey E) with
            | error e p => rw [hkk] at r1; simp at r1
            | ok u p => rw [hkk] at r1; simp at r1; exact r1.2.2.2.symm
      have := (run_same hw (Check.getSignature now (genHeader o t) { erange := er } : Check E)).2
      rw [hstep]
      simpa [Check.run] using this

/-! ### The hypotheses can be met: both kinds of key, all options at once -/

namespace Samples

/-- A key record parsed in the toy environment. -/
theorem rsaRecord : PublicKey.parse b!"h=sha256; t=y; p=Bw==" ({} : PublicKey toyEnv) = .ok ()
    { tags := [(b!"h", ⟨b!"sha256", 2⟩), (b!"t", ⟨b!"y", 12⟩), (b!"p", ⟨b!"Bw==", 17⟩)], digests := [.sha256],
      rsa := some (7 : Nat), flags := [b!"y"] } := by rfl

/-- Two RSA signatures with identity, length limit, timestamp, relative expiration, oversigning. -/
def fullOpts : Options toyEnv :=
  { first := { rsa := some (7 : Nat), domain := b!"d.E", selector := b!"s" }
    more := [{ rsa := some (7 : Nat), domain := b!"x.d.e", selector := b!"t" }]
    headers := [b!"from", b!"To"], oversign := [b!"From", b!"subject"], bodyLength := 3, bodySignLength := true
    canonHead := .relaxed, canonBody := .relaxed, timestampSign := true, timestamp := 100
    expirationSign := true, expirationAbsolute := false, expiration := 50, identity := b!"u;v@X.d.e" }

/-- The DNS. -/
def dns (q : Bytes) : Bool × Bytes :=
  if q = b!"s._domainkey.d.e" ∨ q = b!"t._domainkey.x.d.e" then (true, b!"h=sha256; t=y; p=Bw==") else (false, [])

theorem headText_message : HeadText 0 message [b!"To: x", b!"From: a@b.c", b!"To: y,", b!" z"] 34 :=
  .lineCRLF 0 b!"To: x" _ _ _ (by decide) (by decide)
    (.lineCRLF _ b!"From: a@b.c" _ _ _ (by decide) (by decide)
      (.lineCRLF _ b!"To: y," _ _ _ (by decide) (by decide)
        (.lineCRLF _ b!" z" _ _ _ (by decide) (by decide) (.blankCRLF 32 _))))

theorem fullOpts_wf : WellFormed fullOpts (fun _ => 0) 120 message
    ((groupLines [b!"To: x", b!"From: a@b.c", b!"To: y,", b!" z"]).map mkField) where
  start := by decide
  names := by unfold IsFieldName; decide
  from_signed := by decide
  oversign := by decide
  arcRange := by decide
  identity := by
    intro s hs
    simp only [Options.signatures, fullOpts, List.mem_cons, List.not_mem_nil, or_false] at hs
    rcases hs with rfl | rfl
    · exact ⟨b!"u;v", lower b!"X.d.e", .user b!"u;v" b!"X.d.e" rfl rfl (by decide) (.inr ⟨b!"x", rfl⟩)⟩
    · exact ⟨b!"u;v", lower b!"X.d.e", .user b!"u;v" b!"X.d.e" rfl rfl (by decide) (.inl rfl)⟩
  length := by decide
  algs := by
    intro s hs
    simp only [Options.signatures, fullOpts, List.mem_cons, List.not_mem_nil, or_false] at hs
    rcases hs with rfl | rfl <;> rfl
  algName := by decide
  expiry := by intro _; exact ⟨by decide, fun k => by decide⟩

theorem fullOpts_published : ∀ s ∈ fullOpts.signatures, ∃ k, Published fullOpts dns s k := by
  intro s hs
  simp only [Options.signatures, fullOpts, List.mem_cons, List.not_mem_nil, or_false] at hs
  have pair : ∀ (s : SigOpts toyEnv) (k : PublicKey toyEnv), s.alg = .rsa → s.rsa = some (7 : Nat) → k.alg = .rsa →
      k.rsa = some (7 : Nat) → KeyPair fullOpts s k := by
    intro s k h1 h2 h3 h4
    refine .rsa (7 : Nat) (7 : Nat) h1 h2 h3 h4 ?_
    intro md sg h
    have h : some (UInt8.ofNat 7 :: md) = some sg := h
    cases h
    exact ⟨by simp, by show (_ == _) = true; simp⟩
  rcases hs with rfl | rfl
  · exact ⟨_, ⟨_, rfl, by decide, rsaRecord⟩, pair _ _ rfl rfl rfl rfl, .inr (by decide), fun _ h => absurd h (by decide)⟩
  · exact ⟨_, ⟨_, rfl, by decide, rsaRecord⟩, pair _ _ rfl rfl rfl rfl, .inr (by decide), fun _ h => absurd h (by decide)⟩

theorem fullOpts_safe : SafeOptions fullOpts := by
  intro s hs
  simp only [Options.signatures, fullOpts, List.mem_cons, List.not_mem_nil, or_false] at hs
  rcases hs with rfl | rfl
  · exact ⟨.inr ((C23_validateDomain _).1 (by decide)), .inr ((C23_validateDomain _).1 (by decide))⟩
  · exact ⟨.inr ((C23_validateDomain _).1 (by decide)), .inr ((C23_validateDomain _).1 (by decide))⟩

theorem toyLaw : toyEnv.B64Law := C18_law_satisfiable

theorem fullOpts_signs : ∃ H, (Signatory.createSignature toyEnv fullOpts (fun _ => 0) { file := freshStream message }).1 = .ok H ∧
    H.length < 2 ^ 31 := by
  have : (match (Signatory.createSignature toyEnv fullOpts (fun _ => 0) { file := freshStream message }).1 with
    | .ok H => decide (H.length < 2 ^ 31) | .error _ => false) = true := by decide +kernel
  cases h : (Signatory.createSignature toyEnv fullOpts (fun _ => 0) { file := freshStream message }).1 with
  | error e => rw [h] at this; cases this
  | ok H => rw [h] at this; exact ⟨H, rfl, of_decide_eq_true this⟩

/-- The theorem applies to the sample. -/
example : ∃ H v, (Signatory.createSignature toyEnv fullOpts (fun _ => 0) { file := freshStream message }).1 = .ok H ∧
    Validatory.mk' (freshStream (H ++ CRLF ++ message)) .dkim = .ok v ∧
    ∃ h0 h1, v.sigs[0]? = some h0 ∧ v.sigs[1]? = some h1 ∧ (v.verifyOne toyEnv 120 dns h0 false).1 = .ok () ∧
      (v.verifyOne toyEnv 120 dns h1 false).1 = .ok () := by
  obtain ⟨H, h1, h2⟩ := fullOpts_signs
  obtain ⟨v, h3, h4⟩ := C44_round_trip toyLaw fullOpts fullOpts_safe (fun _ => 0) 120 message H _ _ headText_message
    fullOpts_wf dns fullOpts_published h1 h2
  have hv : SameMessage v v := by
    have := (mk'_built _ _ _ h3).1
    exact ⟨rfl, rfl, rfl, this.off⟩
  obtain ⟨a, a1, a2⟩ := h4 0 _ rfl
  obtain ⟨b, b1, b2⟩ := h4 1 _ rfl
  obtain ⟨_, _, _, a3, _⟩ := a2 v false hv (by simp)
  obtain ⟨_, _, _, b3, _⟩ := b2 v false hv (by simp)
  exact ⟨H, v, h1, h3, a, b, a1, b1, by rw [a3], by rw [b3]⟩

/-- The same with Ed25519 and ARC (instance 3), simple canonicalization. -/
def arcOpts : Options toyEnv :=
  { first := { ed := List.replicate 64 5, alg := .ed25519, domain := b!"d.e", selector := b!"s" }
    headers := [b!"from"], arcInstance := 3 }

theorem arcOpts_wf : WellFormed arcOpts (fun _ => 0) 120 message
    ((groupLines [b!"To: x", b!"From: a@b.c", b!"To: y,", b!" z"]).map mkField) where
  start := by decide
  names := by unfold IsFieldName; decide
  from_signed := by decide
  oversign := by decide
  arcRange := by decide
  identity := by
    intro s hs
    exact ⟨[], [], .arc (by decide) rfl⟩
  length := by decide
  algs := by
    intro s hs
    simp only [Options.signatures, arcOpts, List.mem_cons, List.not_mem_nil, or_false] at hs
    rcases hs with rfl; rfl
  algName := by decide
  expiry := by intro h; cases h

theorem arcOpts_published : ∀ s ∈ arcOpts.signatures, ∃ k, Published arcOpts (fun _ => (true, edRec)) s k := by
  intro s hs
  simp only [Options.signatures, arcOpts, List.mem_cons, List.not_mem_nil, or_false] at hs
  subst hs
  refine ⟨{ tags := [(b!"k", ⟨b!"ed25519", 2⟩), (b!"p", ⟨b!"BQUFBQUFBQUFBQUFBQUFBQUFBQUFBQUFBQUFBQUFBQU=", 13⟩)]
            ed := (List.replicate 32 5), alg := .ed25519 }, ⟨_, rfl, by decide, by rfl⟩, ?_, .inl rfl, fun h => absurd h (by decide)⟩
  refine .ed rfl (by decide) rfl (by decide) ?_
  intro md sg h
  have h : some (fit 64 ((List.replicate 64 5).drop 32 ++ md)) = some sg := h
  cases h
  refine ⟨?_, ?_⟩
  · unfold fit; simp
  · show ((List.replicate 32 (5 : Byte)).length == 32 && _ == fit 64 (List.replicate 32 5 ++ md)) = true
    simp

/-! ### Outside `WellFormed` a generated signature can fail to verify -/

/-- Oversigning a field that is present but not selected: the verifier hashes it, the signer did not. -/
def oversignOpts : Options toyEnv := { rsaOpts with headers := [b!"from"], oversign := [b!"to"] }
end Samples

/-- C44: an oversigned name that is present but not selected breaks the signature. -/
theorem C44_oversign_witness :
    Samples.verify Samples.rsaRec (Samples.signed Samples.oversignOpts Samples.message) =
      some (.error (.perm .sigMismatch .fail)) := by decide +kernel

/-- C44: a signed field whose name contains `;` breaks the h= list (here with the empty selection,
which signs every field). -/
theorem C44_field_name_witness :
    Samples.verify Samples.rsaRec (Samples.signed { Samples.rsaOpts with headers := [] }
      b!"From: a\r\nX;y: z\r\n\r\n") = some (.error (.p .expectedEq)) := by decide +kernel

/-- C44: a message that begins with a continuation line becomes part of the generated field. -/
theorem C44_leading_space_witness :
    Samples.verify Samples.rsaRec (Samples.signed Samples.rsaOpts b!" ;x\r\nFrom: a\r\n\r\n") = some (.error (.p .expectedEq)) := by
  decide +kernel

/-- C44: "ed25519-sha1" is generated and then not recognized. -/
theorem C44_ed25519_sha1_witness :
    Samples.verify Samples.edRec (Samples.signed { Samples.edOpts with digest := .sha1 } Samples.message) =
      some (.error (.p (.badA b!"ed25519-sha1"))) := by decide +kernel

end Dkim
