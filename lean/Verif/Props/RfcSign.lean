import Verif.Proofs.RfcSign
import Verif.Props.RfcCases
import Verif.Proofs.GenText
/-!
# Property C89: signatures the library makes are valid by the RFCs

Spec: `Verif/Spec/RfcSign.lean` (option sets, messages and keys), `Verif/Spec/Rfc.lean` (what the RFCs say).
-/

namespace Dkim
open Spec

variable {E : Env}

theorem digit_spec {c : Byte} (h : isDigit c = true) : IsDigit c := by
  unfold isDigit at h
  simpa [IsDigit] using h

theorem decimal_digits {n : Nat} {t : Bytes} (h : Decimal n t) : IsDigits t ∧ Spec.digitsVal t = n := by
  obtain ⟨h1, h2, h3⟩ := h.facts
  refine ⟨⟨h1, fun c hc => digit_spec (h2 c hc)⟩, ?_⟩
  rw [← h3]
  unfold decVal
  rw [decVal_foldl]
  simp

theorem qpEncode_plain {x : Bytes} (h : ∀ c ∈ x, qpPlain c = true) : qpEncode x = x := by
  unfold qpEncode
  induction x with
  | nil => rfl
  | cons c x ih =>
    rw [List.flatMap_cons, if_pos (h c (by simp)), ih fun y hy => h y (by simp [hy])]
    rfl

theorem letDig_plain {c : Byte} (h : IsLetDig c ∨ c = 45 ∨ c = 46) : qpPlain c = true := by
  revert h
  revert c
  have : ∀ c : Byte, (IsLetDig c ∨ c = 45 ∨ c = 46) → qpPlain c = true := by
    apply byte_forall
    unfold IsLetDig qpPlain
    decide +kernel
  exact fun {c} => this c

theorem base64_self {x : Bytes} (h : x ≠ []) : Rfc.Base64String x (b64Encode x) := by
  unfold Rfc.Base64String
  rw [← C18_rfc4648]
  exact spread_self (b64Encode_ne h)

theorem unset_domain {x : Bytes} (h : UnsetOrDomain x) (hne : x ≠ []) : IsDomain x := by
  rcases h with h | h
  · exact absurd h hne
  · exact h

/-- What a generated field says. -/
theorem gen_rfcSignature {o : Options E} {s : SigOpts E} {clk now : Int} {names : List Bytes} {bh sgn hv bv loc dom : Bytes}
    {tag : Bytes → Option Bytes} (G : GenTags o s clk names bh sgn tag) (hh : tag b!"h" = some hv)
    (hcl : Rfc.ColonList Rfc.FieldName hv names) (hb : tag b!"b" = some bv) (hbs : Rfc.Base64String sgn bv) (hbh : bh ≠ [])
    (hfrom : b!"from" ∈ names) (harc : o.arcInstance ≤ 50) (hid : Rfc.SetIdentity o s loc dom) (hl : o.bodyLength < 2 ^ 64)
    (ha : o.first.alg = .ed25519 → o.digest = .sha256) (hd : IsDomain s.domain) (hs : IsDomain s.selector)
    (ht : o.timestampSign = true → 0 ≤ signTime o clk ∧ signTime o clk < 10 ^ 12)
    (hx : o.expirationSign = true → sigExpiration o clk = .ok (expOf o clk))
    (hexp : o.expirationSign = true → 0 ≤ expiryTime o clk ∧ expiryTime o clk < 10 ^ 12 ∧ now ≤ expiryTime o clk) :
    Rfc.Signature (decide (o.arcInstance ≠ 0)) now tag (genSig o s names bh sgn [] loc dom) where
  version h := G.version (by simpa using h)
  algorithm := ⟨_, G.algorithm, algText_tag ha⟩
  signature := ⟨_, hb, hbs⟩
  bodyHash := ⟨_, G.bodyHash, base64_self hbh⟩
  canon := by rw [G.canon]; exact canonText_tag _ _
  domain := ⟨_, G.domain, hd, by simp [genSig]⟩
  headers := ⟨_, hh, hcl⟩
  from_signed := ⟨_, hfrom, by decide⟩
  identity := by
    intro h
    have h0 : o.arcInstance = 0 := by simpa using h
    refine ⟨?_, h0⟩
    rw [G.identity h0]
    have e1 : (genSig o s names bh sgn [] loc dom).domain = Spec.lower s.domain := by simp [genSig]
    show Rfc.Identity (genSig o s names bh sgn [] loc dom).domain _ loc dom
    rw [e1]
    cases hid with
    | arc hh _ => exact absurd h0 hh
    | domain _ hi => rw [hi]; exact .absent
    | user _ dm _ hi hat hdm hin =>
      rw [hi]
      have : (loc ++ 64 :: dm).isEmpty = false := by simp
      rw [this]
      have e : qpEncode (loc ++ 64 :: dm) = qpEncode loc ++ 64 :: dm := by
        have h1 : qpEncode (loc ++ 64 :: dm) = qpEncode loc ++ qpEncode (64 :: dm) := by
          unfold qpEncode; rw [List.flatMap_append]
        rw [h1, qpEncode_plain (x := 64 :: dm)]
        intro c hc
        rcases List.mem_cons.1 hc with rfl | hc
        · decide
        · exact letDig_plain (C24_no_injection _ (.inr hdm) c hc)
      rw [if_neg (by simp), e]
      exact .present _ loc dm ((C64_decode_iff _ _ _).1 (C16_decode_encode _)) hat hdm hin
  arcInstance := by
    intro h
    have h0 : o.arcInstance ≠ 0 := by simpa using h
    obtain ⟨d1, d2⟩ := decimal_digits (fmtLu_nat (n := o.arcInstance) (by omega))
    refine ⟨⟨_, G.instance_ h0, d1, decimal_length (fmtLu_nat (by omega)) 2 (by omega) (by omega), d2.symm, ?_, harc⟩, ?_⟩
    · show 1 ≤ o.arcInstance
      omega
    · cases hid with
      | arc => exact ⟨rfl, rfl⟩
      | domain hh _ => exact absurd hh h0
      | user _ _ hh => exact absurd hh h0
  length := by
    rw [G.length]
    cases hb : o.bodySignLength with
    | false => simp only [genSig, hb]; exact .absent
    | true =>
      simp only [genSig, hb, if_true]
      obtain ⟨d1, d2⟩ := decimal_digits (fmtLu_nat hl)
      have := Rfc.Length.present _ d1 (by have := fmtLu_length o.bodyLength; omega)
      rwa [d2] at this
  query := by
    intro q hq
    rw [G.query] at hq
    cases hq
  selector := ⟨G.selector, hs⟩
  time := by
    intro t he
    rw [G.time] at he
    split at he
    · rename_i h1
      cases he
      rw [sigTimestamp_sign h1]
      obtain ⟨h2, h3⟩ := ht h1
      have hdec := fmtLu_nonneg h2 (by omega)
      exact ⟨(decimal_digits hdec).1, decimal_length hdec 12 (by omega) (by omega)⟩
    · cases he
  notExpired := by
    intro x he
    rw [G.expires] at he
    split at he
    · rename_i h1
      cases he
      obtain ⟨k1, k2, k3⟩ := expOf_expiry (hx h1)
      obtain ⟨h2, h3, h4⟩ := hexp h1
      rw [k1]
      have hdec := fmtLu_nonneg h2 (by omega)
      obtain ⟨d1, d2⟩ := decimal_digits hdec
      refine ⟨d1, decimal_length hdec 12 (by omega) (by omega), ?_⟩
      rw [d2]
      omega
    · cases he

theorem field_of_folded {o : Options E} {x : Bytes} (h : Folded x) : Rfc.Field (sigFieldName o ++ COLON :: x) ∧
    WellFolded (sigFieldName o ++ COLON :: x) := by
  have hf : Folded (sigFieldName o ++ COLON :: x) := by
    refine (folded_plain ?_).append (.char COLON x (by decide) (by decide) h)
    unfold sigFieldName; split <;> decide
  obtain ⟨h1, h2⟩ := hf.wellFolded
  refine ⟨⟨⟨sigFieldName o, [], x, by simp [COLON], ?_, by intro c hc; cases hc⟩, ?_⟩, h1⟩
  · unfold sigFieldName Rfc.FieldName; split <;> decide
  · intro a b e
    exact Classical.byContradiction fun hx => h2 ⟨a, b, e, hx⟩

theorem canonAll_rfc {mode : CanonMode} {fs : List Header} {cs : List Bytes} (h : CanonAll mode fs cs)
    (hf : ∀ f ∈ fs, Rfc.Field f.header ∧ WellFolded f.header) : cs = fs.map (fun f => Rfc.canon mode f.header) := by
  induction fs generalizing cs with
  | nil => rw [CanonAll_nil] at h; simp [h]
  | cons f fs ih =>
    obtain ⟨c, cs', rfl, h1, h2⟩ := CanonAll_cons.1 h
    rw [List.map_cons, ← ih h2 fun x hx => hf x (by simp [hx])]
    congr 1
    obtain ⟨k1, k2⟩ := hf f (by simp)
    have := (canonField_iff k2).1 (rfc_canonField (mode := mode) k1)
    rw [this] at h1
    exact (Except.ok.inj h1).symm

/-- The primitive accepts what was signed. -/
theorem gen_primitive {o : Options E} {s : SigOpts E} {dat md sgn : Bytes} (hk : Rfc.KeyPair o s dat)
    (hs : signDigest E s o.digest md = .ok sgn) (sig : Signature) (ha : sig.alg = s.alg) (hd : sig.digest = o.digest)
    (hb : sig.b = sgn) : sgn ≠ [] ∧ Rfc.Primitive E dat md sig := by
  unfold signDigest at hs
  cases hk with
  | rsa priv pub h1 h2 h3 h5 =>
    rw [h1, h2] at hs
    simp only at hs
    cases hg : E.rsaSign priv o.digest md with
    | none => rw [hg] at hs; cases hs
    | some sg =>
      rw [hg] at hs; cases hs
      obtain ⟨p1, p2⟩ := h5 _ _ hg
      exact ⟨p1, .rsa pub (ha.trans h1) h3 (by rw [hd, hb]; exact p2)⟩
  | ed h1 h2 h4 h5 =>
    rw [h1] at hs
    simp only at hs
    rw [readBuf_ok.2 ⟨by omega, rfl⟩] at hs
    have e : (s.ed ++ [0]).take 64 = s.ed := by rw [← h2]; simp
    rw [e] at hs
    simp only at hs
    cases hg : E.edSign s.ed md with
    | none => rw [hg] at hs; cases hs
    | some sg =>
      rw [hg] at hs; cases hs
      obtain ⟨p1, p2⟩ := h5 _ _ hg
      refine ⟨?_, .ed (ha.trans h1) h4 (by rw [hb]; exact p1) (by rw [hb]; exact p2)⟩
      rintro rfl; simp at p1

/-- C89: for every message and option set meeting `Rfc.Signable`, with options reached by any history of setter calls, and a hash function
without empty results: if `CreateSignature` returns `H`, then in the message `H CRLF message` each of the first fields, one per signature, is
a signature that verifies by the RFCs (`Rfc.Verifies`) with every conforming key record that holds the public key, and says what the options
say. -/
theorem C89_valid_by_rfc (o : Options E) (hsafe : SafeOptions o) (hhash : ∀ a m, E.hash a m ≠ []) (clock : Nat → Int) (now : Int)
    (d H : Bytes) (ls : List Bytes) (off : Int) (hd : HeadText 0 d ls off)
    (wf : Rfc.Signable o clock now d ((groupLines ls).map mkField))
    (hsign : (Signatory.createSignature E o clock { file := freshStream d }).1 = .ok H)
    (i : Nat) (s : SigOpts E) (hi : o.signatures.reverse[i]? = some s) (record : Bytes) (key : List TagItem) (dat : Bytes)
    (hashes services flags : List Bytes) (hk : Rfc.Published o s record key dat hashes services flags) :
    ∃ f sig p, p.above.length = i ∧ Rfc.Verifies E now (H ++ CRLF ++ d) f record sig p ∧
      Rfc.Says o s (signedNames o.headers o.oversign ((groupLines ls).map mkField)) sig := by
  obtain ⟨m, s1, cs, hp, hcap, hcs, hall⟩ := createSignature_ok o clock d H hsign
  obtain ⟨m2, s2, p1, p2, p3, _, _⟩ := parseAll_head hd (freshStream d) (at_fresh d)
  rw [hp] at p1; cases p1
  rw [← p2] at wf ⊢
  obtain ⟨ts, l1, l2, l3⟩ := allSignatures_ok o clock _ _ _ 0 [] _ H hall
  simp only [List.isEmpty_nil, if_true] at l2
  have hval : ∀ s ∈ o.signatures, (∀ c ∈ s.domain, IsValByte c) ∧ (∀ c ∈ s.selector, IsValByte c) := by
    intro s hs
    obtain ⟨q1, q2⟩ := hsafe s hs
    exact ⟨fun c hc => letDig_val (C24_no_injection _ q1 c hc), fun c hc => letDig_val (C24_no_injection _ q2 c hc)⟩
  have hnames : signedNames o.headers o.oversign m.headers ≠ [] := List.ne_nil_of_mem wf.from_signed
  have harc : o.arcInstance ≠ 0 → o.identity = [] := by
    intro h0
    obtain ⟨loc, dom, hid⟩ := wf.identity o.first (by simp [Options.signatures])
    cases hid with
    | arc _ hi => exact hi
    | domain hh _ => exact absurd hh h0
    | user _ _ hh => exact absurd hh h0
  -- every generated field
  have tsof : ∀ t ∈ ts, ∃ k s, s ∈ o.signatures ∧ oneSignature E o s (clock k) (lines cs)
      (signedNames o.headers o.oversign m.headers)
      (E.hash o.digest (cap o.bodySignLength o.bodyLength (Spec.canonBody o.canonBody (bodyPart d m.bodyOffset)))) = .ok t := by
    intro t ht
    obtain ⟨i, hi, e⟩ := List.mem_iff_getElem.1 ht
    have hi2 : i < o.signatures.reverse.length := by rw [← l1]; exact hi
    obtain ⟨t', e1, e2⟩ := l3 i _ (List.getElem?_eq_getElem hi2)
    rw [List.getElem?_eq_getElem hi, e] at e1
    cases e1
    exact ⟨0 + i, _, List.mem_reverse.1 (List.getElem_mem hi2), e2⟩
  obtain ⟨fs, f1, f2, f3⟩ := all_fields o ts (by
    intro t ht
    obtain ⟨k, s, hs, e⟩ := tsof t ht
    exact one_field e (fun n hn => val_not_LF (fun c hc => (fieldName_val (wf.names n hn) hc).1))
      (val_not_LF (hval s hs).1) (val_not_LF (hval s hs).2))
  have hne : fs ≠ [] := by
    rintro rfl
    simp at f1
    rw [f1] at l1
    simp [Options.signatures] at l1
  obtain ⟨m', s', g1, g2, g3⟩ := parse_prepended fs hne f2 d wf.start m s1 hp
  rw [f1, ← l2] at g1 g3
  rw [f3] at g2
  obtain ⟨ls', off', hd'⟩ := HeadText.total (H ++ CRLF ++ d) 0
  obtain ⟨m3, s3, r1, r2, r3, _, _⟩ := parseAll_head hd' (freshStream (H ++ CRLF ++ d)) (at_fresh _)
  rw [g1] at r1; cases r1
  -- this field
  obtain ⟨t, e1, e2⟩ := l3 i s hi
  have hs : s ∈ o.signatures := List.mem_reverse.1 (List.mem_of_getElem? hi)
  obtain ⟨items, bv, hv, t2, sgn, a1, a2, a3, a4, G, a6, a7, a8, a9, a10, a11⟩ :=
    one_rfc e2 hnames wf.names (hval s hs).1 (hval s hs).2 harc
  obtain ⟨loc, dom, hid⟩ := wf.identity s hs
  obtain ⟨d1, d2⟩ := wf.domains s hs
  have hdom := unset_domain (hsafe s hs).1 d1
  have hsel := unset_domain (hsafe s hs).2 d2
  generalize hbi : mkItem b!"\r\n\t" b!"b" bv = bi at *
  generalize hN : signedNames o.headers o.oversign m.headers = names at *
  generalize hBH : E.hash o.digest (cap o.bodySignLength o.bodyLength (Spec.canonBody o.canonBody (bodyPart d m.bodyOffset))) = bh at *
  obtain ⟨hsgn, hprim⟩ := gen_primitive hk.pair a2 (genSig o s names bh sgn [] loc dom) (wf.algs s hs).symm rfl rfl
  have hspecs : ∀ (items : List TagItem) (bv : Bytes), (∀ i ∈ items, Rfc.TagSpec i) → Rfc.TagValue bv →
      ∀ i ∈ items ++ [mkItem b!"\r\n\t" b!"b" bv], Rfc.TagSpec i := by
    intro items bv a10 hbval i hi
    rcases List.mem_append.1 hi with hi | hi
    · exact a10 i hi
    · simp only [List.mem_singleton] at hi
      subst hi
      exact spec_mkItem nl_fws ⟨98, [], rfl, .inr (by decide), by simp⟩ (.inl rfl) hbval
  have hspec : ∀ i ∈ items ++ [bi], Rfc.TagSpec i := by rw [← hbi]; exact hspecs items bv a10 a11.2
  have hfolded : ∀ l : List TagItem, (∀ i ∈ l, Rfc.TagSpec i) → Folded (Rfc.joinSemi (l.map TagItem.text)) := by
    intro l hl
    refine joinSemi_folded ?_
    intro x hx
    obtain ⟨i, hi, rfl⟩ := List.mem_map.1 hx
    exact (hl i hi).folded
  have hfield : ∀ x ∈ ts, Rfc.Field x := by
    intro x hx
    obtain ⟨k, s', hs', e⟩ := tsof x hx
    obtain ⟨items, bv, _, _, _, _, _, a3, _, _, _, _, _, _, a10, a11⟩ :=
      one_rfc e hnames (by rw [← hN]; exact wf.names) (hval s' hs').1 (hval s' hs').2 harc
    rw [a3]
    exact (field_of_folded (hfolded _ (hspecs items bv a10 a11.2))).1
  have hfields : ∀ x ∈ ts.map (genHeader o) ++ m.headers, Rfc.Field x.header := by
    intro x hx
    rcases List.mem_append.1 hx with hx | hx
    · obtain ⟨y, hy, rfl⟩ := List.mem_map.1 hx
      exact hfield y hy
    · exact wf.fields x hx
  have hvt : valueText (genHeader o t) = Rfc.joinSemi ((items ++ [bi]).map TagItem.text) := by
    rw [a3]
    unfold valueText genHeader
    simp only
    rw [List.drop_append]; simp
  have hbname : bi.name = b!"b" := by rw [← hbi]; rfl
  obtain ⟨hlt, het⟩ := List.getElem?_eq_some_iff.1 e1
  have hcut : ts = ts.take i ++ t :: ts.drop (i + 1) := by
    rw [← het, List.getElem_cons_drop, List.take_append_drop]
  have hcut2 : ts.map (genHeader o) ++ m.headers = (ts.take i).map (genHeader o) ++ genHeader o t ::
      ((ts.drop (i + 1)).map (genHeader o) ++ m.headers) := by
    have := congrArg (fun l => l.map (genHeader o) ++ m.headers) hcut
    simp only [List.map_append, List.map_cons, List.append_assoc, List.cons_append] at this
    exact this
  refine ⟨genHeader o t, genSig o s names bh sgn [] loc dom,
    { above := (ts.take i).map (genHeader o), below := (ts.drop (i + 1)).map (genHeader o) ++ m.headers, off := off', before := items,
      bi := bi, after := [], tail := [], key := key, dat := dat, hashes := hashes, services := services, flags := flags },
    by simp; omega, ?_, ?_⟩
  · refine {
      message := ⟨ls', hd', by rw [← r2, g2, hcut2]⟩
      fields := by rw [← hcut2]; exact hfields
      tags := ⟨by simp [Rfc.Parts.items], hspec, ⟨[], by rw [hvt]; simp [Rfc.Parts.items], .inl rfl⟩, a9⟩
      text := by rw [hvt]; simp [Rfc.Parts.items]
      isB := hbname
      signature := ?_
      body := ?_
      keyTags := hk.tags
      key := ?_
      hashAllowed := hk.hashAllowed
      service := hk.service
      strict := ?_
      primitive := ?_ }
    · have : isArcName (genHeader o t).name = decide (o.arcInstance ≠ 0) := sigFieldName_arc o
      rw [this]
      exact gen_rfcSignature G a6 a7 a8 (a11.1 hsgn) (by rw [← hBH]; exact hhash _ _) (by rw [← hN]; exact wf.from_signed) wf.arcRange hid
        wf.length wf.algName hdom hsel (fun h => wf.time h _) a4 (fun h => wf.expiry h _)
    · show bh = E.hash o.digest (cap o.bodySignLength (if o.bodySignLength then o.bodyLength else 0)
        (Spec.canonBody o.canonBody (bodyPart (H ++ CRLF ++ d) off')))
      rw [← r3, g3, ← hBH]
      cases o.bodySignLength <;> rfl
    · show Rfc.KeyRecord (Rfc.value key) o.first.alg dat hashes services flags
      rw [← wf.algs s hs]
      exact hk.claims
    · intro h1 h2
      have h0 : o.arcInstance = 0 := by
        have : isArcName (genHeader o t).name = decide (o.arcInstance ≠ 0) := sigFieldName_arc o
        rw [this] at h1
        simpa using h1
      have := hk.strict h0 h2 loc dom hid
      simpa [genSig] using this
    · have hsel' : selected ((ts.take i).map (genHeader o) ++ ((ts.drop (i + 1)).map (genHeader o) ++ m.headers)) names =
          signedFields o.headers m.headers := by
        rw [← List.append_assoc, ← hN]
        refine selected_signed _ _ _ _ ?_
        intro n hn
        obtain ⟨w1, w2⟩ := wf.oversign n hn
        refine ⟨w1, ?_⟩
        intro x hx
        rcases w2 with w2 | w2
        · exfalso
          have h1 : ts.length = 1 := by rw [l1]; simp [Options.signatures, w2]
          have hi0 : i = 0 := by omega
          subst hi0
          have : ts.drop 1 = [] := List.drop_eq_nil_of_le (by omega)
          simp [this] at hx
        · rw [← List.map_append] at hx
          obtain ⟨y, _, rfl⟩ := List.mem_map.1 hx
          show lower (sigFieldName o) ≠ lower n
          rw [sigFieldName_lower]
          simpa using Ne.symm w2
      have hcs' := canonAll_rfc hcs (by
        intro f hf
        have hm : f ∈ m.headers := by
          unfold signedFields at hf
          exact List.mem_reverse.1 (List.mem_filter.1 hf).1
        exact ⟨wf.fields f hm, (C22_fields d m s1 hp f hm).1⟩)
      have hlead : Folded (Rfc.joinSemi (items.map TagItem.text ++ [b!"\r\n\tb="])) := by
        refine joinSemi_folded ?_
        intro x hx
        rcases List.mem_append.1 hx with hx | hx
        · obtain ⟨i, hi, rfl⟩ := List.mem_map.1 hx
          exact (a10 i hi).folded
        · simp only [List.mem_singleton] at hx
          subst hx
          exact .fold TAB _ (by decide) (folded_plain (by decide))
      obtain ⟨q1, q2⟩ := field_of_folded (o := o) hlead
      have ht2 : t2 = Rfc.canon o.canonHead (sigFieldName o ++ COLON :: Rfc.joinSemi (items.map TagItem.text ++ [b!"\r\n\tb="])) := by
        have := (canonField_iff q2).1 (rfc_canonField (mode := o.canonHead) q1)
        rw [this] at a1
        exact (Except.ok.inj a1).symm
      have hdata : Rfc.headerData o.canonHead ((ts.take i).map (genHeader o) ++ ((ts.drop (i + 1)).map (genHeader o) ++ m.headers)) names
          ((genHeader o t).header.take (genHeader o t).valueOffset) items bi [] [] = lines cs ++ t2 := by
        unfold Rfc.headerData
        rw [hsel', ← hcs', ht2]
        congr 2
        have e3 : (genHeader o t).header.take (genHeader o t).valueOffset = sigFieldName o ++ [COLON] := by
          rw [a3]
          unfold genHeader
          simp only
          rw [List.take_append, List.take_of_length_le (by omega)]
          simp
        rw [e3, ← hbi]
        simp [Rfc.emptied, mkItem, TagItem.text, TagItem.lead, EQ]
      rw [← hdata] at hprim
      exact hprim
  · exact ⟨by simp [genSig], rfl, hid, rfl, rfl, (wf.algs s hs).symm, rfl, rfl, rfl, fun h => by simp [genSig, h], rfl⟩

/-! ### The hypotheses can be met -/

namespace Samples

/-- Two RSA signatures with identity, length limit, time, expiration and oversigning. -/
def rfcOpts : Options toyEnv := { fullOpts with identity := b!"u.v@X.d.e" }

theorem rfcOpts_safe : SafeOptions rfcOpts := fullOpts_safe

theorem dom_xde : IsDomain b!"X.d.e" := (C23_validateDomain _).1 (by decide)

theorem rfcOpts_identity : ∀ s ∈ rfcOpts.signatures, Rfc.SetIdentity rfcOpts s b!"u.v" (Spec.lower b!"X.d.e") := by
  intro s hs
  simp only [Options.signatures, rfcOpts, fullOpts, List.mem_cons, List.not_mem_nil, or_false] at hs
  have hl : Rfc.LocalPart b!"u.v" := .dots [b!"u", b!"v"] (by simp) (by
    intro a ha
    simp only [List.mem_cons, List.not_mem_nil, or_false] at ha
    unfold Rfc.Atext Rfc.Alpha IsDigit
    rcases ha with rfl | rfl <;> decide)
  rcases hs with rfl | rfl
  · exact .user b!"u.v" b!"X.d.e" rfl rfl (.inr hl) dom_xde (.inr ⟨b!"x", rfl⟩)
  · exact .user b!"u.v" b!"X.d.e" rfl rfl (.inr hl) dom_xde (.inl rfl)

theorem message_fields : ∀ h ∈ (groupLines [b!"To: x", b!"From: a@b.c", b!"To: y,", b!" z"]).map mkField, Rfc.Field h.header := by
  have fold : ∀ x : Bytes, Folded x → ∀ a b, x = a ++ CR :: b → b.head? = some LF := by
    intro x hx a b e
    exact Classical.byContradiction fun hn => hx.wellFolded.2 ⟨a, b, e, hn⟩
  have e : (groupLines [b!"To: x", b!"From: a@b.c", b!"To: y,", b!" z"]).map mkField =
    [⟨b!"To", b!"To: x", 3⟩, ⟨b!"From", b!"From: a@b.c", 5⟩, ⟨b!"To", b!"To: y,\r\n z", 3⟩] := by decide
  rw [e]
  intro h hh
  simp only [List.mem_cons, List.not_mem_nil, or_false] at hh
  have nm : Rfc.FieldName b!"To" ∧ Rfc.FieldName b!"From" := by unfold Rfc.FieldName; decide
  have nw : AllWSP [] := by intro c hc; cases hc
  rcases hh with rfl | rfl | rfl
  · exact ⟨⟨b!"To", [], b!" x", rfl, nm.1, nw⟩, fold _ (folded_plain (by decide))⟩
  · exact ⟨⟨b!"From", [], b!" a@b.c", rfl, nm.2, nw⟩, fold _ (folded_plain (by decide))⟩
  · exact ⟨⟨b!"To", [], b!" y,\r\n z", rfl, nm.1, nw⟩, fold _ ((folded_plain (a := b!"To: y,") (by decide)).append
      (.fold SP _ (by decide) (folded_plain (by decide))))⟩

theorem rfcOpts_signable : Rfc.Signable rfcOpts (fun _ => 0) 120 message
    ((groupLines [b!"To: x", b!"From: a@b.c", b!"To: y,", b!" z"]).map mkField) where
  start := by decide
  fields := message_fields
  names := by unfold IsFieldName; decide
  from_signed := by decide
  oversign := by decide
  domains := by
    intro s hs
    simp only [Options.signatures, rfcOpts, fullOpts, List.mem_cons, List.not_mem_nil, or_false] at hs
    rcases hs with rfl | rfl <;> exact ⟨by simp, by simp⟩
  arcRange := by decide
  identity := fun s hs => ⟨_, _, rfcOpts_identity s hs⟩
  length := by decide
  algs := by
    intro s hs
    simp only [Options.signatures, rfcOpts, fullOpts, List.mem_cons, List.not_mem_nil, or_false] at hs
    rcases hs with rfl | rfl <;> rfl
  algName := by decide
  time := by intro _ k; decide
  expiry := by intro _ k; decide

theorem rfcOpts_published : ∀ s ∈ rfcOpts.signatures, Rfc.Published rfcOpts s rsaRec
    [⟨[], b!"v", [], [], b!"DKIM1", []⟩, RfcCases.tag b!"p" b!"Bw=="] [7] [] [] [] := by
  intro s hs
  simp only [Options.signatures, rfcOpts, fullOpts, List.mem_cons, List.not_mem_nil, or_false] at hs
  have pair : ∀ s : SigOpts toyEnv, s.alg = .rsa → s.rsa = some (7 : Nat) → Rfc.KeyPair rfcOpts s [7] := by
    intro s h1 h2
    refine .rsa (7 : Nat) (7 : Nat) h1 h2 rfl ?_
    intro md sg h
    have h : some (UInt8.ofNat 7 :: md) = some sg := h
    cases h
    exact ⟨by simp, by show (_ == _) = true; simp⟩
  have claims : Rfc.KeyRecord (Rfc.value [⟨[], b!"v", [], [], b!"DKIM1", []⟩, RfcCases.tag b!"p" b!"Bw=="]) .rsa [7] [] [] [] :=
    ⟨.inr rfl, .absent, .absent, ⟨b!"Bw==", rfl, RfcCases.b7⟩, .absent, .absent⟩
  rcases hs with rfl | rfl
  · exact ⟨RfcCases.keyTags, claims, .inl rfl, .inl rfl, fun _ h => (by cases h), pair _ rfl rfl⟩
  · exact ⟨RfcCases.keyTags, claims, .inl rfl, .inl rfl, fun _ h => (by cases h), pair _ rfl rfl⟩

theorem rfcOpts_signs : ∃ H, (Signatory.createSignature toyEnv rfcOpts (fun _ => 0) { file := freshStream message }).1 = .ok H := by
  obtain ⟨H, h, _⟩ := ok_of (Signatory.createSignature toyEnv rfcOpts (fun _ => 0) { file := freshStream message }).1 (fun _ => true)
    (by decide +kernel)
  exact ⟨H, h⟩

/-- The theorem applies to the sample: both signatures are valid by the RFCs, and say what the options say. -/
example : ∃ H, (Signatory.createSignature toyEnv rfcOpts (fun _ => 0) { file := freshStream message }).1 = .ok H ∧
    ∀ (i : Nat) s, rfcOpts.signatures.reverse[i]? = some s → ∃ f sig p, p.above.length = i ∧
      Rfc.Verifies toyEnv 120 (H ++ CRLF ++ message) f rsaRec sig p ∧ sig.mailLocal = b!"u.v" ∧ sig.bodySize = 3 := by
  obtain ⟨H, hH⟩ := rfcOpts_signs
  refine ⟨H, hH, fun i s hi => ?_⟩
  have hs : s ∈ rfcOpts.signatures := List.mem_reverse.1 (List.mem_of_getElem? hi)
  obtain ⟨f, sig, p, h1, h2, h3⟩ := C89_valid_by_rfc rfcOpts rfcOpts_safe (by intro a m; simp [toyEnv]) (fun _ => 0) 120 message H _ 34
    headText_message rfcOpts_signable hH i s hi rsaRec _ [7] [] [] [] (rfcOpts_published s hs)
  refine ⟨f, sig, p, h1, h2, ?_, h3.limit rfl⟩
  have := h3.identity
  generalize sig.mailLocal = l at this
  generalize sig.mailDomain = m at this
  cases this with
  | arc h => exact absurd rfl h
  | domain _ h => cases h
  | user _ dm _ h hl hdom =>
    have h : b!"u.v" ++ 64 :: b!"X.d.e" = l ++ 64 :: dm := h
    have hn : (64 : Byte) ∉ dm := by
      intro hm
      rcases C24_no_injection _ (.inr hdom) 64 hm with hx | hx | hx
      · revert hx; unfold IsLetDig; decide
      · cases hx
      · cases hx
    have e := congrArg List.reverse h
    simp only [List.reverse_append, List.reverse_cons, List.append_assoc, List.singleton_append] at e
    have := split_at (a := b!"X.d.e".reverse) (b := dm.reverse) (x := b!"u.v".reverse) (y := l.reverse) (by decide) (by simpa using hn)
      (by simpa using e)
    have := congrArg List.reverse this.2
    simpa using this.symm

/-- Ed25519 and ARC: the second set of options. -/
theorem arcOpts_signable : Rfc.Signable arcOpts (fun _ => 0) 120 message
    ((groupLines [b!"To: x", b!"From: a@b.c", b!"To: y,", b!" z"]).map mkField) where
  start := by decide
  fields := message_fields
  names := by unfold IsFieldName; decide
  from_signed := by decide
  oversign := by decide
  domains := by
    intro s hs
    simp only [Options.signatures, arcOpts, List.mem_cons, List.not_mem_nil, or_false] at hs
    subst hs
    exact ⟨by simp, by simp⟩
  arcRange := by decide
  identity := fun s _ => ⟨[], [], .arc (by decide) rfl⟩
  length := by decide
  algs := by
    intro s hs
    simp only [Options.signatures, arcOpts, List.mem_cons, List.not_mem_nil, or_false] at hs
    subst hs; rfl
  algName := by decide
  time := by intro h; cases h
  expiry := by intro h; cases h

theorem arcOpts_safe : SafeOptions arcOpts := by
  intro s hs
  simp only [Options.signatures, arcOpts, List.mem_cons, List.not_mem_nil, or_false] at hs
  subst hs
  exact ⟨.inr ((C23_validateDomain _).1 (by decide)), .inr ((C23_validateDomain _).1 (by decide))⟩

/-- The tags of `edRec`. -/
def edItems : List TagItem :=
  [⟨[], b!"k", [], [], b!"ed25519", []⟩, RfcCases.tag b!"p" b!"BQUFBQUFBQUFBQUFBQUFBQUFBQUFBQUFBQUFBQUFBQU="]

theorem arcOpts_rfcPublished : ∀ s ∈ arcOpts.signatures, Rfc.Published arcOpts s edRec edItems (List.replicate 32 5) [] [] [] := by
  intro s hs
  simp only [Options.signatures, arcOpts, List.mem_cons, List.not_mem_nil, or_false] at hs
  subst hs
  refine ⟨⟨by simp [edItems], ?_, ⟨[], by decide, .inl rfl⟩, by decide⟩,
    ⟨.inl rfl, .absent, .ed, ⟨_, rfl, ?_⟩, .absent, .absent⟩, .inl rfl, .inl rfl, fun h => absurd h (by decide), .ed rfl (by decide) (by decide) ?_⟩
  · intro i hi
    have : edItems.all RfcCases.okItem = true := by decide +kernel
    exact RfcCases.okItem_spec (List.all_eq_true.1 this i hi)
  · have : base64 (List.replicate 32 5) = b!"BQUFBQUFBQUFBQUFBQUFBQUFBQUFBQUFBQUFBQUFBQU=" := by decide +kernel
    unfold Rfc.Base64String
    rw [this]
    exact spread_self (by simp)
  · intro md sg h
    have h : some (fit 64 ((List.replicate 64 5).drop 32 ++ md)) = some sg := h
    cases h
    refine ⟨by unfold fit; simp, ?_⟩
    show ((List.replicate 32 (5 : Byte)).length == 32 && _ == fit 64 (List.replicate 32 5 ++ md)) = true
    simp

/-- The theorem applies: the ARC-Message-Signature is valid by RFC 8617 and has the instance 3. -/
example : ∃ H f sig p, (Signatory.createSignature toyEnv arcOpts (fun _ => 0) { file := freshStream message }).1 = .ok H ∧
    Rfc.Verifies toyEnv 120 (H ++ CRLF ++ message) f edRec sig p ∧ sig.arcInstance = 3 ∧ sig.alg = .ed25519 := by
  obtain ⟨H, hH, _⟩ := ok_of (Signatory.createSignature toyEnv arcOpts (fun _ => 0) { file := freshStream message }).1 (fun _ => true)
    (by decide +kernel)
  obtain ⟨f, sig, p, h1, h2, h3⟩ := C89_valid_by_rfc arcOpts arcOpts_safe (by intro a m; simp [toyEnv]) (fun _ => 0) 120 message H _ 34
    headText_message arcOpts_signable hH 0 arcOpts.first rfl edRec _ _ [] [] [] (arcOpts_rfcPublished _ (by simp [Options.signatures]))
  exact ⟨H, f, sig, p, hH, h2, h3.instance_, h3.alg⟩

end Samples

end Dkim
