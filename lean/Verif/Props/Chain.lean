import Verif.Spec.Chain
import Verif.Props.RoundTrip
import Verif.Props.Verify
import Verif.Props.VerifyBody
/-!
# Property C74: signatures of successive signers all stay valid

Spec: `Verif/Spec/Chain.lean`.
-/

namespace Dkim
open Spec

variable {E : Env}

theorem isSig_gen (o : Options E) (type : ValidatorType) (h : Header) (hn : h.name = sigFieldName o) :
    isSigHeader type h = decide (type = kindOf o) := by
  unfold isSigHeader kindOf
  rw [hn, sigFieldName_lower]
  by_cases h0 : o.arcInstance ≠ 0
  · rw [if_pos h0]
    cases type <;> simp [h0] <;> decide
  · rw [if_neg h0]
    cases type <;> simp [h0] <;> decide

/-- What signing does to the message: fields of the signature's name are put on top, everything else is as before. -/
theorem signed_parse (o : Options E) (hsafe : SafeOptions o) (clock : Nat → Int) (t H : Bytes) (ls : List Bytes) (off : Int)
    (hd : HeadText 0 t ls off) (start : ∀ c ∈ t.head?, Spec.isWSP c = false)
    (hnames : ∀ n ∈ signedNames o.headers o.oversign ((groupLines ls).map mkField), LF ∉ n)
    (hsign : (Signatory.createSignature E o clock { file := freshStream t }).1 = .ok H) :
    ∃ m s m' s' new, Message.parseAll {} (freshStream t) = .ok (m, s) ∧ m.headers = (groupLines ls).map mkField ∧
      Message.parseAll {} (freshStream (H ++ CRLF ++ t)) = .ok (m', s') ∧ m'.headers = new ++ m.headers ∧
      bodyPart (H ++ CRLF ++ t) m'.bodyOffset = bodyPart t m.bodyOffset ∧ new.length = o.signatures.length ∧
      ∀ h ∈ new, h.name = sigFieldName o := by
  obtain ⟨m, s1, cs, hp, hcap, hcs, hall⟩ := createSignature_ok o clock t H hsign
  obtain ⟨m2, s2, p1, p2, p3, _, _⟩ := parseAll_head hd (freshStream t) (at_fresh t)
  rw [hp] at p1; cases p1
  obtain ⟨ts, l1, l2, l3⟩ := allSignatures_ok o clock _ _ _ 0 [] _ H hall
  simp only [List.isEmpty_nil, if_true] at l2
  obtain ⟨fs, f1, f2, f3⟩ := all_fields o ts (by
    intro x ht
    obtain ⟨i, hi, e⟩ := List.mem_iff_getElem.1 ht
    have hi2 : i < o.signatures.reverse.length := by rw [← l1]; exact hi
    obtain ⟨t', e1, e2⟩ := l3 i _ (List.getElem?_eq_getElem hi2)
    rw [List.getElem?_eq_getElem hi, e] at e1
    cases e1
    obtain ⟨q1, q2⟩ := hsafe _ (List.mem_reverse.1 (List.getElem_mem hi2))
    exact one_field e2 (fun n hn => hnames n (by rw [← p2]; exact hn))
      (val_not_LF (fun c hc => letDig_val (C24_no_injection _ q1 c hc)))
      (val_not_LF (fun c hc => letDig_val (C24_no_injection _ q2 c hc))))
  have hne : fs ≠ [] := by
    rintro rfl
    simp at f1
    rw [f1] at l1
    simp [Options.signatures] at l1
  obtain ⟨m', s', g1, g2, g3⟩ := parse_prepended fs hne f2 t start m s1 hp
  rw [f1, ← l2] at g1 g3
  rw [f3] at g2
  refine ⟨m, s1, m', s', ts.map (genHeader o), hp, p2, g1, g2, g3, ?_, ?_⟩
  · rw [List.length_map, l1, List.length_reverse]
  · intro h hh
    obtain ⟨y, _, rfl⟩ := List.mem_map.1 hh
    rfl

/-- C74: signing a message again changes nothing for the fields already there: they are found in the same order, below the
new ones, and any field `h` that does not cover more fields of the new name than there were gives the same result,
signature object and key object. -/
theorem C74_signing_again (o : Options E) (hsafe : SafeOptions o) (clock : Nat → Int) (t H : Bytes) (ls : List Bytes) (off : Int)
    (hd : HeadText 0 t ls off) (start : ∀ c ∈ t.head?, Spec.isWSP c = false)
    (hnames : ∀ n ∈ signedNames o.headers o.oversign ((groupLines ls).map mkField), LF ∉ n)
    (hsign : (Signatory.createSignature E o clock { file := freshStream t }).1 = .ok H) (type : ValidatorType) :
    ∃ v v', Validatory.mk' (freshStream t) type = .ok v ∧ Validatory.mk' (freshStream (H ++ CRLF ++ t)) type = .ok v' ∧
      (∃ new, v'.sigs = new ++ v.sigs ∧ new.length = if kindOf o = type then o.signatures.length else 0) ∧
      ∀ now resolver h er, (∀ st, Signature.parse E now h { erange := er } = .ok () st →
          mentions st.sig.headers (sigFieldName o) ≤ (fieldsNamed ((groupLines ls).map mkField) (sigFieldName o)).length) →
        (v.verifyOne E now resolver h er).1 = (v'.verifyOne E now resolver h er).1 ∧
        (v.verifyOne E now resolver h er).2.1 = (v'.verifyOne E now resolver h er).2.1 ∧
        (v.verifyOne E now resolver h er).2.2.1 = (v'.verifyOne E now resolver h er).2.2.1 := by
  obtain ⟨m, s, m', s', new, h1, h2, h3, h4, h5, h6, h7⟩ := signed_parse o hsafe clock t H ls off hd start hnames hsign
  have hv : Validatory.mk' (freshStream t) type = .ok { file := s, msg := m, sigs := m.headers.filter (isSigHeader type) } := by
    unfold Validatory.mk'; rw [h1]
  have hv' : Validatory.mk' (freshStream (H ++ CRLF ++ t)) type =
      .ok { file := s', msg := m', sigs := m'.headers.filter (isSigHeader type) } := by
    unfold Validatory.mk'; rw [h3]
  refine ⟨_, _, hv, hv', ?_, ?_⟩
  · refine ⟨new.filter (isSigHeader type), by simp only [h4, List.filter_append], ?_⟩
    by_cases hk : kindOf o = type
    · rw [if_pos hk, ← h6]
      congr 1
      rw [List.filter_eq_self]
      intro x hx
      rw [isSig_gen o type x (h7 x hx)]
      simp [hk]
    · rw [if_neg hk]
      rw [List.length_eq_zero_iff, List.filter_eq_nil_iff]
      intro x hx
      rw [isSig_gen o type x (h7 x hx)]
      simpa using fun e : type = kindOf o => hk e.symm
  · intro now resolver h er hm
    generalize hV : ({ file := s, msg := m, sigs := m.headers.filter (isSigHeader type) } : Validatory) = v at *
    generalize hV' : ({ file := s', msg := m', sigs := m'.headers.filter (isSigHeader type) } : Validatory) = v' at *
    have em : v.msg = m := by rw [← hV]
    have em' : v'.msg = m' := by rw [← hV']
    unfold Validatory.verifyOne Validatory.getSignature
    cases hp : Signature.parse E now h { erange := er } with
    | error e st => exact ⟨rfl, rfl, rfl⟩
    | ok u st =>
      obtain ⟨hb, _⟩ := mk'_built _ type v hv
      obtain ⟨hb', _⟩ := mk'_built _ type v' hv'
      obtain ⟨w, hw, hc⟩ := checkBodyHash_eq (E := E) v hb.off st.sig
      obtain ⟨w', hw', hc'⟩ := checkBodyHash_eq (E := E) v' hb'.off st.sig
      have hbody : hashedBody st.sig v = hashedBody st.sig v' := by
        unfold hashedBody
        rw [hb.data, hb'.data, em, em', h5]
      have hsig : ∀ pub, checkSignature E v.msg h st.sig pub = checkSignature E v'.msg h st.sig pub := by
        intro pub
        refine C37_covered_only _ _ _ _ _ ?_
        intro n _
        rw [em, em', h4]
        by_cases hn : Spec.lower n = Spec.lower (sigFieldName o)
        · have e1 : ∀ l, fieldsNamed l n = fieldsNamed l (sigFieldName o) := by
            intro l; unfold fieldsNamed; rw [hn]
          have e2 : mentions st.sig.headers n = mentions st.sig.headers (sigFieldName o) := by
            unfold mentions; rw [hn]
          rw [e1, e1, e2]
          have hle := hm st hp
          rw [← h2] at hle
          unfold fieldsNamed at hle ⊢
          rw [List.filter_append, List.reverse_append, List.take_append_of_le_length (by rw [List.length_reverse]; exact hle)]
        · have : fieldsNamed new n = [] := by
            unfold fieldsNamed
            rw [List.filter_eq_nil_iff]
            intro x hx
            rw [h7 x hx]
            exact fun e => hn (of_decide_eq_true e).symm
          unfold fieldsNamed at this ⊢
          rw [List.filter_append, this, List.nil_append]
      simp only
      rw [hc, hc', hbody]
      by_cases hbh : st.sig.bh = E.hash st.sig.digest (hashedBody st.sig v')
      · simp only [if_pos hbh]
        cases getPublicKey resolver st.sig ({} : PublicKey E) with
        | error e pub => exact ⟨rfl, rfl, rfl⟩
        | ok u pub => exact ⟨hsig pub, rfl, rfl⟩
      · simp only [if_neg hbh]
        exact ⟨trivial, trivial, trivial⟩

theorem mentions_signed (sel over : List Bytes) (hs : List Header) (n : Bytes) (h : ∀ x ∈ over, Spec.lower x ≠ Spec.lower n) :
    mentions (signedNames sel over hs) n ≤ (fieldsNamed hs n).length := by
  unfold mentions signedNames signedFields fieldsNamed
  rw [List.countP_append]
  have h0 : (over.map Spec.lower).countP (fun m => Spec.lower m = Spec.lower n) = 0 := by
    rw [List.countP_eq_zero]
    intro x hx
    obtain ⟨y, hy, rfl⟩ := List.mem_map.1 hx
    simp only [decide_eq_true_eq, Spec.lower_eq, lower_lower]
    have := h y hy
    rwa [Spec.lower_eq] at this
  rw [h0, Nat.add_zero, List.countP_map, List.countP_eq_length_filter, List.filter_filter]
  refine Nat.le_trans (?_ : _ ≤ ((hs.reverse).filter (fun h => Spec.lower h.name = Spec.lower n)).length) ?_
  · rw [← List.countP_eq_length_filter, ← List.countP_eq_length_filter]
    refine List.countP_mono_left ?_
    intro x _ hx
    simp only [Function.comp, Bool.and_eq_true, decide_eq_true_eq, Spec.lower_eq, lower_lower] at hx ⊢
    exact decide_eq_true hx.1
  · rw [List.filter_reverse, List.length_reverse]
    exact Nat.le_refl _

theorem verifyOne_parsed {v : Validatory} {now : Int} {resolver : Bytes → Bool × Bytes} {h : Header} {er : Bool} {st : SigSt}
    (hp : Signature.parse E now h { erange := er } = .ok () st) : (v.verifyOne E now resolver h er).2.1 = st := by
  unfold Validatory.verifyOne Validatory.getSignature
  rw [hp]
  simp only
  cases v.checkBodyHash E st.sig with
  | mk r v' =>
    cases r with
    | error e => rfl
    | ok u =>
      simp only
      cases getPublicKey resolver st.sig ({} : PublicKey E) with
      | error e pub => rfl
      | ok u pub => rfl

/-- A field found and verified, with the number of fields it covers. -/
def FoundValid (now : Int) (resolver : Bytes → Bool × Bytes) (t : Bytes) (v : Validatory) (o : Options E) (s : SigOpts E) (i : Nat) : Prop :=
  ∃ h names, v.sigs[i]? = some h ∧
    (∀ n ls off, (∀ x ∈ o.oversign, Spec.lower x ≠ Spec.lower n) → HeadText 0 t ls off →
      mentions names n ≤ (fieldsNamed ((groupLines ls).map mkField) n).length) ∧
    ∀ er, (er = true → o.bodySignLength = false) →
      ∃ st pub w', v.verifyOne E now resolver h er = (.ok (), st, pub, w') ∧ ReadsBack o s names st.sig

theorem chain_valid (hB : E.B64Law) (now : Int) (resolver : Bytes → Bool × Bytes) (d : Bytes) (ss : List (Signer E)) (t : Bytes)
    (hc : Chain now resolver d ss t) :
    ∀ newer step older, ss = newer ++ step :: older →
      ∃ v, Validatory.mk' (freshStream t) (kindOf step.opts) = .ok v ∧
        ∀ (i : Nat) s, step.opts.signatures.reverse[i]? = some s →
          FoundValid now resolver t v step.opts s (added (kindOf step.opts) newer + i) := by
  induction hc with
  | start => intro newer step older h; simp at h
  | sign ss t ls off o clock H hch hd hsafe wf hpub hover hsign hlen ih =>
    intro newer step older hss
    have hnames : ∀ n ∈ signedNames o.headers o.oversign ((groupLines ls).map mkField), LF ∉ n :=
      fun n hn => val_not_LF (fun c hc => (fieldName_val (wf.names n hn) hc).1)
    obtain ⟨m, s0, m', s0', new, h1, h2, h3, h4, _, _, _⟩ := signed_parse o hsafe clock t H ls off hd wf.start hnames hsign
    have hgrow : ∀ n ls' off', HeadText 0 (H ++ CRLF ++ t) ls' off' →
        (fieldsNamed ((groupLines ls).map mkField) n).length ≤ (fieldsNamed ((groupLines ls').map mkField) n).length := by
      intro n ls' off' hd'
      obtain ⟨m2, s2, p1, p2, _⟩ := parseAll_head hd' (freshStream _) (at_fresh _)
      rw [h3] at p1; cases p1
      rw [← p2, h4, h2]
      unfold fieldsNamed
      rw [List.filter_append, List.length_append]
      exact Nat.le_add_left _ _
    cases newer with
    | nil =>
      simp only [List.nil_append, List.cons.injEq] at hss
      obtain ⟨e1, e2⟩ := hss
      subst e1
      obtain ⟨v, hv, hall⟩ := C44_round_trip hB o hsafe clock now t H ls off hd wf resolver hpub hsign hlen
      refine ⟨v, hv, ?_⟩
      intro i s hi
      obtain ⟨h, k1, k2⟩ := hall i s hi
      refine ⟨h, signedNames o.headers o.oversign ((groupLines ls).map mkField), ?_, ?_, ?_⟩
      · simpa [added] using k1
      · intro n ls' off' hn hd'
        exact Nat.le_trans (mentions_signed _ _ _ _ hn) (hgrow n ls' off' hd')
      · intro er her
        obtain ⟨st, pub, w', r1, _, r2⟩ := k2 v er ⟨rfl, rfl, rfl, (mk'_built _ _ _ hv).1.off⟩ her
        exact ⟨st, pub, w', r1, r2⟩
    | cons top newer =>
      simp only [List.cons_append, List.cons.injEq] at hss
      obtain ⟨e1, e2⟩ := hss
      obtain ⟨v, hv, hall⟩ := ih newer step older e2
      obtain ⟨v2, v', g1, g2, ⟨nw, g3, g4⟩, g5⟩ :=
        C74_signing_again o hsafe clock t H ls off hd wf.start hnames hsign (kindOf step.opts)
      rw [hv] at g1; cases g1
      refine ⟨v', g2, ?_⟩
      intro i s hi
      obtain ⟨h, names, k1, k2, k3⟩ := hall i s hi
      have hno : ∀ x ∈ step.opts.oversign, Spec.lower x ≠ Spec.lower (sigFieldName o) :=
        hover step (by rw [e2]; simp)
      refine ⟨h, names, ?_, ?_, ?_⟩
      · have : added (kindOf step.opts) (top :: newer) + i = nw.length + (added (kindOf step.opts) newer + i) := by
          rw [g4, ← e1]; simp only [added, List.map_cons, List.sum_cons]; omega
        rw [this, g3, List.getElem?_append_right (by omega)]
        have : nw.length + (added (kindOf step.opts) newer + i) - nw.length = added (kindOf step.opts) newer + i := by omega
        rw [this]
        exact k1
      · intro n ls' off' hn hd'
        exact Nat.le_trans (k2 n ls off hn hd) (hgrow n ls' off' hd')
      · intro er her
        obtain ⟨st, pub, w', r1, r2⟩ := k3 er her
        obtain ⟨q1, q2, q3⟩ := g5 now resolver h er (by
          intro st' hp
          have := verifyOne_parsed (v := v) (resolver := resolver) hp
          rw [r1] at this
          rw [← this, r2.headers]
          exact k2 _ ls off hno hd)
        refine ⟨st, pub, (v'.verifyOne E now resolver h er).2.2.2, ?_, r2⟩
        rw [r1] at q1 q2 q3
        simp only at q1 q2 q3
        rw [q1, q2, q3]

/-- C74: however many signers have signed the message one after the other (each over what it received, earlier signature
fields included or not), in the end every signature of every signer is found, in the expected place, and verifies with fresh
objects, showing the data of its signer. -/
theorem C74_chain (hB : E.B64Law) (now : Int) (resolver : Bytes → Bool × Bytes) (d : Bytes) (ss : List (Signer E)) (t : Bytes)
    (hc : Chain now resolver d ss t) (newer : List (Signer E)) (step : Signer E) (older : List (Signer E))
    (hss : ss = newer ++ step :: older) :
    ∃ v, Validatory.mk' (freshStream t) (kindOf step.opts) = .ok v ∧
      ∀ (i : Nat) s, step.opts.signatures.reverse[i]? = some s →
        ∃ h, v.sigs[added (kindOf step.opts) newer + i]? = some h ∧
          ∀ er, (er = true → step.opts.bodySignLength = false) →
            ∃ st pub w', v.verifyOne E now resolver h er = (.ok (), st, pub, w') ∧ ReadsBack step.opts s st.sig.headers st.sig := by
  obtain ⟨v, hv, hall⟩ := chain_valid hB now resolver d ss t hc newer step older hss
  refine ⟨v, hv, ?_⟩
  intro i s hi
  obtain ⟨h, names, k1, _, k3⟩ := hall i s hi
  refine ⟨h, k1, ?_⟩
  intro er her
  obtain ⟨st, pub, w', r1, r2⟩ := k3 er her
  exact ⟨st, pub, w', r1, by rw [r2.headers]; exact r2⟩

/-! ### non-vacuity: the sample message signed by two signers, the second one signing every field it finds -/

namespace Samples

/-- The second signer: all fields, RSA. -/
def allOpts : Options toyEnv :=
  { first := { rsa := some (7 : Nat), domain := b!"d.e", selector := b!"s" }, headers := [] }

theorem allOpts_names : (match Message.parseAll {} (freshStream (signed fullOpts message)) with
    | .ok (m, _) => signedNames allOpts.headers allOpts.oversign m.headers | .error _ => []) =
    [b!"to", b!"from", b!"to", b!"dkim-signature", b!"dkim-signature"] := by decide +kernel

theorem allOpts_signs : ∃ H, (Signatory.createSignature toyEnv allOpts (fun _ => 0) { file := freshStream (signed fullOpts message) }).1 = .ok H ∧
    H.length < 2 ^ 31 := by
  have : (match (Signatory.createSignature toyEnv allOpts (fun _ => 0) { file := freshStream (signed fullOpts message) }).1 with
    | .ok H => decide (H.length < 2 ^ 31) | .error _ => false) = true := by decide +kernel
  cases h : (Signatory.createSignature toyEnv allOpts (fun _ => 0) { file := freshStream (signed fullOpts message) }).1 with
  | error e => rw [h] at this; cases this
  | ok H => rw [h] at this; exact ⟨H, rfl, of_decide_eq_true this⟩

theorem allOpts_published : ∀ s ∈ allOpts.signatures, ∃ k, Published allOpts dns s k := by
  intro s hs
  simp only [Options.signatures, allOpts, List.mem_cons, List.not_mem_nil, or_false] at hs
  subst hs
  refine ⟨_, ⟨_, rfl, by decide, rsaRecord⟩, ?_, .inr (by decide), fun _ h => absurd h (by decide)⟩
  refine .rsa (7 : Nat) (7 : Nat) rfl rfl rfl rfl ?_
  intro md sg h
  have h : some (UInt8.ofNat 7 :: md) = some sg := h
  cases h
  exact ⟨by simp, by show (_ == _) = true; simp⟩

theorem allOpts_chain : ∃ t, Chain 120 dns message [⟨allOpts, fun _ => 0⟩, ⟨fullOpts, fun _ => 0⟩] t := by
  obtain ⟨H, h1, h2⟩ := fullOpts_signs
  have c1 : Chain 120 dns message [⟨fullOpts, fun _ => 0⟩] (H ++ CRLF ++ message) :=
    .sign [] message _ _ fullOpts (fun _ => 0) H .start headText_message fullOpts_safe fullOpts_wf fullOpts_published
      (by simp) h1 h2
  have e : signed fullOpts message = H ++ CRLF ++ message := by
    have h1' : sign fullOpts message = .ok H := h1
    unfold signed; rw [h1']
  rw [← e] at c1
  obtain ⟨H2, k1, k2⟩ := allOpts_signs
  obtain ⟨ls, off, hd⟩ := HeadText.total (signed fullOpts message) 0
  obtain ⟨m, s, p1, p2, _⟩ := parseAll_head hd (freshStream _) (at_fresh _)
  have names := allOpts_names
  rw [p1] at names
  simp only at names
  rw [p2] at names
  refine ⟨_, .sign _ _ ls off allOpts (fun _ => 0) H2 c1 hd ?_ ?_ allOpts_published ?_ k1 k2⟩
  · intro s hs
    simp only [Options.signatures, allOpts, List.mem_cons, List.not_mem_nil, or_false] at hs
    subst hs
    exact ⟨.inr ((C23_validateDomain _).1 (by decide)), .inr ((C23_validateDomain _).1 (by decide))⟩
  · exact {
      start := by
        intro c hc
        have : (signed fullOpts message).head? = some 68 := by decide +kernel
        rw [this] at hc
        cases hc
        decide
      names := by rw [names]; unfold IsFieldName; decide
      from_signed := by rw [names]; decide
      oversign := by intro n hn; cases hn
      arcRange := by decide
      identity := by
        intro s hs
        exact ⟨[], _, .domain rfl rfl⟩
      length := by decide
      algs := by
        intro s hs
        simp only [Options.signatures, allOpts, List.mem_cons, List.not_mem_nil, or_false] at hs
        rw [hs]; rfl
      algName := by decide
      expiry := by intro h; cases h }
  · intro e he n hn
    simp only [List.mem_cons, List.not_mem_nil, or_false] at he
    subst he
    revert n
    decide

/-- The theorem applies: the first signer's second field is the third in the final message, and verifies. -/
example : ∃ t v h, Validatory.mk' (freshStream t) .dkim = .ok v ∧ v.sigs[2]? = some h ∧
    (v.verifyOne toyEnv 120 dns h false).1 = .ok () := by
  obtain ⟨t, hc⟩ := allOpts_chain
  obtain ⟨v, hv, hall⟩ := C74_chain toyLaw 120 dns message _ t hc [⟨allOpts, fun _ => 0⟩] ⟨fullOpts, fun _ => 0⟩ [] rfl
  obtain ⟨h, k1, k2⟩ := hall 1 _ rfl
  obtain ⟨_, _, _, r, _⟩ := k2 false (by simp)
  exact ⟨t, v, h, hv, k1, by rw [r]⟩

/-- A signer that forbids ARC fields to be added. -/
def noArc : Options toyEnv := { rsaOpts with oversign := [b!"arc-message-signature"] }

theorem noArc_alone : verify rsaRec (signed noArc message) = some (.ok ()) := by decide +kernel

theorem noArc_broken : verify rsaRec (signed arcOpts (signed noArc message)) = some (.error (.perm .sigMismatch .fail)) := by
  decide +kernel

end Samples

/-- C74: the condition on oversigned names is needed: a DKIM signer that oversigns ARC-Message-Signature is broken, as it
asked for, by an ARC signer after it. -/
theorem C74_oversigned_witness : Samples.verify Samples.rsaRec (Samples.signed Samples.noArc Samples.message) = some (.ok ()) ∧
    Samples.verify Samples.rsaRec (Samples.signed Samples.arcOpts (Samples.signed Samples.noArc Samples.message)) =
      some (.error (.perm .sigMismatch .fail)) :=
  ⟨Samples.noArc_alone, Samples.noArc_broken⟩

end Dkim
