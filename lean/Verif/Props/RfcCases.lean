import Verif.Props.Rfc
import Verif.Tests.Samples
/-!
# C87, the cases left out

Signatures that verify by the RFCs (`Rfc.Verifies`) and that the library rejects; the environment is the toy one.
-/

namespace Dkim.RfcCases
open Spec

/-- A tag-spec without white space, or with a space before it. -/
def tag (n v : Bytes) : TagItem := ⟨[SP], n, [], [], v, []⟩

/-- The tags before b=: the required ones, h= with a given value, and further ones. -/
def before (h : Bytes) (extra : List TagItem) : List TagItem :=
  [tag b!"v" b!"1", tag b!"a" b!"rsa-sha256", tag b!"d" b!"d.e", tag b!"s" b!"s", tag b!"h" h, tag b!"bh" b!"Ag0K"] ++ extra

/-- The field below the signature field. -/
def fromField : Header := ⟨b!"From", b!"From: a@b.c", 5⟩

def lead : Bytes := b!"DKIM-Signature:"

/-- The signature data: the key 7 and the digest (a 2 and the text) of what the RFC hashes. -/
def sigData (h : Bytes) (names : List Bytes) (extra : List TagItem) : Bytes :=
  7 :: 2 :: Rfc.headerData .simple [fromField] names lead (before h extra) (tag b!"b" []) [] []

/-- The tag-spec of b=, with white space before and after the value. -/
def bItem (h : Bytes) (names : List Bytes) (extra : List TagItem) (g p : Bytes) : TagItem :=
  ⟨[SP], b!"b", [], g, base64 (sigData h names extra), p⟩

/-- The signature field. -/
def field (h : Bytes) (names : List Bytes) (extra : List TagItem) (g p : Bytes) : Header :=
  ⟨b!"DKIM-Signature", lead ++ Rfc.joinSemi ((before h extra ++ [bItem h names extra g p]).map TagItem.text), lead.length⟩

/-- The message: signature field, From, no body. -/
def msg (h : Bytes) (names : List Bytes) (extra : List TagItem) (g p : Bytes) : Bytes :=
  (field h names extra g p).header ++ CRLF ++ fromField.header ++ CRLF ++ CRLF

def parts (h : Bytes) (names : List Bytes) (extra : List TagItem) (g p : Bytes) : Rfc.Parts where
  above := []
  below := [fromField]
  off := (msg h names extra g p).length
  before := before h extra
  bi := bItem h names extra g p
  after := []
  tail := []
  key := [⟨[], b!"v", [], [], b!"DKIM1", []⟩, tag b!"p" b!"Bw=="]
  dat := [7]
  hashes := []
  services := []
  flags := []

/-- What the tags say. -/
def sig (h : Bytes) (names : List Bytes) (extra : List TagItem) (loc dom : Bytes) (size : Nat) (limit : Bool) : Signature :=
  { b := sigData h names extra, bh := [2, 13, 10], domain := b!"d.e", headers := names, mailLocal := loc, mailDomain := dom,
    bodySize := size, bodySizeLimit := limit, selector := b!"s" }

/-! ### checks -/

def okItem (i : TagItem) : Bool :=
  i.pre.all isWSP && i.gap1.all isWSP && i.gap2.all isWSP && i.post.all isWSP && i.name.all (fun c => decide (97 ≤ c) && decide (c ≤ 122)) &&
    !i.name.isEmpty && i.value.all (fun c => decide (0x21 ≤ c) && decide (c ≤ 0x7E) && decide (c ≠ 59))

theorem wsp_opt {w : Bytes} (h : w.all Dkim.isWSP = true) : Rfc.OptFWS w := by
  cases w with
  | nil => exact .inl rfl
  | cons c w =>
    refine .inr (.plain _ ?_ (by simp))
    intro x hx
    have := List.all_eq_true.1 h x hx
    simpa using this

theorem okItem_spec {i : TagItem} (h : okItem i = true) : Rfc.TagSpec i := by
  unfold okItem at h
  simp only [Bool.and_eq_true] at h
  obtain ⟨⟨⟨⟨⟨⟨h1, h2⟩, h3⟩, h4⟩, h5⟩, h6⟩, h7⟩ := h
  refine ⟨wsp_opt h1, ?_, wsp_opt h2, wsp_opt h3, ?_, wsp_opt h4⟩
  · have h5 := List.all_eq_true.1 h5
    generalize i.name = n at *
    cases n with
    | nil => cases h6
    | cons c r =>
      refine ⟨c, r, rfl, ?_, ?_⟩
      · have := h5 c (by simp)
        simp only [Bool.and_eq_true, decide_eq_true_eq] at this
        exact .inr this
      · intro x hx
        have := h5 x (by simp [hx])
        simp only [Bool.and_eq_true, decide_eq_true_eq] at this
        exact .inl (.inr this)
  · have h7 := List.all_eq_true.1 h7
    generalize i.value = v at *
    cases v with
    | nil => exact .empty
    | cons c r =>
      refine .one _ ⟨by simp, ?_⟩
      intro x hx
      have := h7 x hx
      simp only [Bool.and_eq_true, decide_eq_true_eq] at this
      exact ⟨this.1.1, this.1.2, this.2⟩

theorem spread_refl {p : Bytes} (h : p ≠ []) : Rfc.Spread p p := by
  induction p with
  | nil => exact absurd rfl h
  | cons c p ih =>
    cases p with
    | nil => exact .one c
    | cons x p => exact .cons c [] _ _ (.inl rfl) (ih (by simp))

/-- No CR in the text. -/
theorem no_cr {t : Bytes} (h : CR ∉ t) : ∀ a b, t = a ++ CR :: b → b.head? = some LF := by
  intro a b e
  exact absurd (by rw [e]; simp) h

/-- Everything about a case that evaluation can check. -/
def checks (h : Bytes) (names : List Bytes) (extra : List TagItem) (g p : Bytes) (size : Nat) (limit : Bool) : Bool :=
  let ps := parts h names extra g p
  ps.items.all okItem && decide ((ps.items.map TagItem.name).Nodup) &&
  (match Message.parseAll {} (freshStream (msg h names extra g p)) with
   | .ok (m, _) => decide (m.headers = [field h names extra g p, fromField]) && decide (m.bodyOffset = ps.off)
   | .error _ => false) &&
  !(field h names extra g p).header.contains CR &&
  decide ([2, 13, 10] = toyEnv.hash .sha256 (cap limit size (Spec.canonBody .simple (bodyPart (msg h names extra g p) ps.off))))

theorem b7 : Rfc.Base64String [7] b!"Bw==" := by
  have : base64 [7] = b!"Bw==" := by decide +kernel
  unfold Rfc.Base64String
  rw [this]
  exact spread_refl (by simp)

theorem keyTags : Rfc.TagList Samples.rsaRec [⟨[], b!"v", [], [], b!"DKIM1", []⟩, tag b!"p" b!"Bw=="] where
  nonempty := by simp
  spec := by
    intro i hi
    have : ([⟨[], b!"v", [], [], b!"DKIM1", []⟩, tag b!"p" b!"Bw=="] : List TagItem).all okItem = true := by decide +kernel
    exact okItem_spec (List.all_eq_true.1 this i hi)
  text := ⟨[], by decide, .inl rfl⟩
  distinct := by decide

theorem verifies {h : Bytes} {names : List Bytes} {extra : List TagItem} {g p loc dom : Bytes} {size : Nat} {limit : Bool}
    (hc : checks h names extra g p size limit = true)
    (hs : Rfc.Signature false 0 (Rfc.value (parts h names extra g p).items) (sig h names extra loc dom size limit)) :
    Rfc.Verifies toyEnv 0 (msg h names extra g p) (field h names extra g p) Samples.rsaRec (sig h names extra loc dom size limit)
      (parts h names extra g p) := by
  unfold checks at hc
  simp only [Bool.and_eq_true, decide_eq_true_eq] at hc
  obtain ⟨⟨⟨⟨h1, h2⟩, h3⟩, h4⟩, h5⟩ := hc
  have hval : valueText (field h names extra g p) = Rfc.joinSemi ((parts h names extra g p).items.map TagItem.text) := by
    unfold valueText field
    exact List.drop_left ..
  have hfl : ∀ x ∈ (parts h names extra g p).above ++ field h names extra g p :: (parts h names extra g p).below, Rfc.Field x.header := by
    intro x hx
    have hx : x = field h names extra g p ∨ x = fromField := by simpa [parts] using hx
    rcases hx with rfl | rfl
    · refine ⟨⟨b!"DKIM-Signature", [], Rfc.joinSemi ((before h extra ++ [bItem h names extra g p]).map TagItem.text), ?_,
        ⟨by decide, by decide⟩, by intro c hc; cases hc⟩, no_cr ?_⟩
      · unfold field lead
        simp
      · intro hx
        rw [List.contains_iff_mem.2 hx] at h4
        cases h4
    · exact ⟨⟨b!"From", [], b!" a@b.c", rfl, ⟨by decide, by decide⟩, by intro c hc; cases hc⟩, no_cr (by decide)⟩
  exact {
    message := by
      obtain ⟨m, s', ls, q1, q2, q3, _⟩ := C20_parse (msg h names extra g p)
      rw [q1] at h3
      simp only [Bool.and_eq_true, decide_eq_true_eq] at h3
      refine ⟨ls, ?_, ?_⟩
      · rw [← h3.2]; exact q2
      · rw [← q3, h3.1]; rfl
    fields := hfl
    tags := ⟨by simp [Rfc.Parts.items], fun i hi => okItem_spec (List.all_eq_true.1 h1 i hi), ⟨[], by rw [hval]; simp, .inl rfl⟩, h2⟩
    text := by rw [hval]; exact (List.append_nil _).symm
    isB := rfl
    signature := hs
    body := h5
    keyTags := keyTags
    key := ⟨.inr rfl, .absent, .absent, ⟨b!"Bw==", rfl, b7⟩, .absent, .absent⟩
    hashAllowed := .inl rfl
    service := .inl rfl
    strict := fun _ hx => by cases hx
    primitive := by
      refine .rsa (7 : Nat) rfl rfl ?_
      exact beq_self_eq_true _ }

/-- The tags every case has. -/
def lookups (h : Bytes) (names : List Bytes) (extra : List TagItem) (g p : Bytes) : Bool :=
  let t := Rfc.value (parts h names extra g p).items
  decide (t b!"v" = some b!"1") && decide (t b!"a" = some b!"rsa-sha256") && decide (t b!"b" = some (base64 (sigData h names extra))) &&
    decide (t b!"bh" = some b!"Ag0K") && decide (t b!"c" = none) && decide (t b!"d" = some b!"d.e") && decide (t b!"h" = some h) &&
    decide (t b!"s" = some b!"s") && decide (t b!"t" = none) && decide (t b!"x" = none) &&
    decide (base64 (sigData h names extra) ≠ [])

theorem label {c : Byte} (h : IsLetDig c) : IsLabel [c] :=
  ⟨fun x hx => by rw [List.mem_singleton.1 hx]; exact .inl h, ⟨c, rfl, h⟩, ⟨c, rfl, h⟩⟩

theorem dom_de : IsDomain b!"d.e" := by
  refine ⟨[b!"d", b!"e"], by simp, ?_, rfl⟩
  intro l hl
  simp only [List.mem_cons, List.not_mem_nil, or_false] at hl
  rcases hl with rfl | rfl <;> exact label (.inr (.inl (by decide)))

theorem dom_s : IsDomain b!"s" := by
  refine ⟨[b!"s"], by simp, ?_, rfl⟩
  intro l hl
  rw [List.mem_singleton.1 hl]
  exact label (.inr (.inl (by decide)))

theorem signature {h : Bytes} {names : List Bytes} {extra : List TagItem} {g p loc dom : Bytes} {size : Nat} {limit : Bool}
    (hc : lookups h names extra g p = true) (hh : Rfc.ColonList Rfc.FieldName h names) (hf : b!"from" ∈ names)
    (hi : Rfc.Identity b!"d.e" (Rfc.value (parts h names extra g p).items b!"i") loc dom)
    (hl : Rfc.Length (Rfc.value (parts h names extra g p).items b!"l") size limit)
    (hq : ∀ q, Rfc.value (parts h names extra g p).items b!"q" = some q → ∃ ms, Rfc.ColonList Rfc.FieldName q ms ∧ b!"dns/txt" ∈ ms) :
    Rfc.Signature false 0 (Rfc.value (parts h names extra g p).items) (sig h names extra loc dom size limit) := by
  unfold lookups at hc
  simp only [Bool.and_eq_true, decide_eq_true_eq] at hc
  obtain ⟨⟨⟨⟨⟨⟨⟨⟨⟨⟨v, a⟩, b⟩, bh⟩, c⟩, d⟩, hd⟩, s⟩, t⟩, x⟩, ne⟩ := hc
  exact {
    version := fun _ => v
    algorithm := ⟨_, a, .rsa256⟩
    signature := ⟨_, b, spread_refl ne⟩
    bodyHash := ⟨_, bh, by
      have : base64 [2, 13, 10] = b!"Ag0K" := by decide +kernel
      show Rfc.Spread (base64 [2, 13, 10]) b!"Ag0K"
      rw [this]
      exact spread_refl (by simp)⟩
    canon := by rw [c]; exact .absent
    domain := ⟨_, d, dom_de, (by decide : b!"d.e" = Spec.lower b!"d.e")⟩
    headers := ⟨_, hd, hh⟩
    from_signed := ⟨_, hf, by decide⟩
    identity := fun _ => ⟨hi, rfl⟩
    arcInstance := fun h => by cases h
    length := hl
    query := hq
    selector := ⟨s, dom_s⟩
    time := fun t' h => by rw [t] at h; cases h
    notExpired := fun x' h => by rw [x] at h; cases h }

/-- The library rejects the only signature of the message with `e`, although it verifies by the RFCs. -/
def Rejected (d : Bytes) (e : Err) : Prop :=
  ∃ v f s p, Validatory.mk' (freshStream d) .dkim = .ok v ∧ v.sigs = [f] ∧ Rfc.Verifies toyEnv 0 d f Samples.rsaRec s p ∧
    (v.verifyOne toyEnv 0 (fun _ => (true, Samples.rsaRec)) f false).1 = .error e

/-- The library verifies the only signature of a message, by evaluation. -/
def outcome (d : Bytes) (f : Header) : Option (Except Err Unit) :=
  match Validatory.mk' (freshStream d) .dkim with
  | .ok v => if v.sigs = [f] then some (v.verifyOne toyEnv 0 (fun _ => (true, Samples.rsaRec)) f false).1 else none
  | .error _ => none

theorem rejected {d : Bytes} {f : Header} {s : Signature} {p : Rfc.Parts} {e : Err} (h : Rfc.Verifies toyEnv 0 d f Samples.rsaRec s p)
    (ho : outcome d f = some (.error e)) : Rejected d e := by
  unfold outcome at ho
  split at ho
  · rename_i v hv
    split at ho
    · rename_i hs
      exact ⟨v, f, s, p, hv, hs, h, Option.some.inj ho⟩
    · cases ho
  · cases ho

theorem names_from : Rfc.ColonList Rfc.FieldName b!"from" [b!"from"] := .one _ ⟨by decide, by decide⟩

/-- The plain case, without further tags and white space. -/
theorem plain : Rfc.Verifies toyEnv 0 (msg b!"from" [b!"from"] [] [] []) (field b!"from" [b!"from"] [] [] []) Samples.rsaRec
    (sig b!"from" [b!"from"] [] [] b!"d.e" 0 false) (parts b!"from" [b!"from"] [] [] []) := by
  refine verifies (by decide +kernel) (signature (by decide +kernel) names_from (by simp) ?_ ?_ ?_)
  · exact .absent
  · exact .absent
  · intro q hq; cases hq

/-- The hypotheses of `C87_verifies_partial` are met; its conclusion for this message. -/
example : ∃ v, Validatory.mk' (freshStream (msg b!"from" [b!"from"] [] [] [])) .dkim = .ok v ∧
    (v.verifyOne toyEnv 0 (fun _ => (true, Samples.rsaRec)) (field b!"from" [b!"from"] [] [] []) false).1 = .ok () := by
  obtain ⟨v, hv, hs⟩ := ok_of (Validatory.mk' (freshStream (msg b!"from" [b!"from"] [] [] [])) .dkim)
    (fun v => decide (v.sigs = [field b!"from" [b!"from"] [] [] []])) (by decide +kernel)
  refine ⟨v, hv, C87_verifies_partial (E := toyEnv) C18_law_satisfiable _ .dkim v hv _ ?_ ?_ 0 _ Samples.rsaRec _ _ plain rfl ?_ ?_ ?_ ⟨rfl, rfl⟩ ?_ false ?_⟩
  · rw [of_decide_eq_true hs]; simp
  · decide +kernel
  · intro q hq; cases hq
  · decide
  · intro _; simp [sig]
  · decide +kernel
  · simp

/-- Likewise for the field alone. -/
example : ∃ st, Signature.parse toyEnv 0 (field b!"from" [b!"from"] [] [] []) {} = .ok () st ∧ st.sig.domain = b!"d.e" := by
  obtain ⟨st, h1, h2⟩ := C87_field_partial (E := toyEnv) C18_law_satisfiable 0 (field b!"from" [b!"from"] [] [] []) _ plain.tags _ plain.signature
    (by intro q hq; cases hq) (by decide) (by intro _; simp [sig])
  exact ⟨st, h1, by rw [h2]; rfl⟩

/-- And for a key record. -/
example : ∃ k, PublicKey.parse Samples.rsaRec ({} : PublicKey toyEnv) = .ok () k ∧ k.rsa = some (7 : Nat) := by
  obtain ⟨k, h1, _, h2, _⟩ := C88_key_record (E := toyEnv) C18_law_satisfiable _ _ keyTags .rsa [7] [] [] [] plain.key (some (7 : Nat)) []
    (.rsa _ _ rfl)
  exact ⟨k, h1, h2⟩

end Dkim.RfcCases

namespace Dkim
open Spec RfcCases

/-- q= lists methods in order of preference; a verifier skips those it does not know. The library rejects every list. -/
theorem C87_query_methods : ∃ d q, Rejected d (.p (.badQ q)) := by
  refine ⟨msg b!"from" [b!"from"] [tag b!"q" b!"dns/txt:foo"] [] [], b!"dns/txt:foo", rejected
    (verifies (loc := []) (dom := b!"d.e") (size := 0) (limit := false) (by decide +kernel)
      (signature (by decide +kernel) names_from (by simp) ?_ ?_ ?_)) (by decide +kernel)⟩
  · exact .absent
  · exact .absent
  · intro q hq
    cases hq
    exact ⟨[b!"dns/txt", b!"foo"], .cons b!"dns/txt" [] [] b!"foo" _ ⟨by decide, by decide⟩ (.inl rfl) (.inl rfl)
      (.one _ ⟨by decide, by decide⟩), by simp⟩

/-- l= may have 76 digits, and a length beyond the body counts the whole body in the code; from 2^63 on the field is rejected. -/
theorem C87_length : ∃ d, Rejected d (.p .lNegative) := by
  refine ⟨msg b!"from" [b!"from"] [tag b!"l" b!"9223372036854775808"] [] [], rejected
    (verifies (loc := []) (dom := b!"d.e") (size := 9223372036854775808) (limit := true) (by decide +kernel)
      (signature (by decide +kernel) names_from (by simp) ?_ ?_ ?_)) (by decide +kernel)⟩
  · exact .absent
  · exact .present b!"9223372036854775808" ⟨by decide, by unfold IsDigit; decide⟩ (by decide)
  · intro q hq; cases hq

/-- i= is split at the first at-sign, also inside a quoted local part. -/
theorem C87_quoted_identity : ∃ d a b, Rejected d (.p (.badI a b)) := by
  refine ⟨msg b!"from" [b!"from"] [tag b!"i" b!"\"a@b\"@d.e"] [] [], b!"b\"@d.e", b!"d.e", rejected
    (verifies (loc := b!"\"a@b\"") (dom := b!"d.e") (size := 0) (limit := false) (by decide +kernel)
      (signature (by decide +kernel) names_from (by simp) ?_ ?_ ?_)) (by decide +kernel)⟩
  · refine .present b!"\"a@b\"" b!"\"a@b\"" b!"d.e" ?_ (.inr (.quoted b!"a@b" ?_)) dom_de (.inl (by decide))
    · refine .safe _ _ _ ?_ (by simp) (.safe _ _ _ ?_ (by simp) (.safe _ _ _ ?_ (by simp) (.safe _ _ _ ?_ (by simp)
        (.safe _ _ _ ?_ (by simp) .nil)))) <;> decide
    · refine .text _ _ ?_ ?_ ?_ ?_ (.text _ _ ?_ ?_ ?_ ?_ (.text _ _ ?_ ?_ ?_ ?_ .nil)) <;> decide
  · exact .absent
  · intro q hq; cases hq

/-- RFC 6376, 3.7 deletes the value of b= with the white space around it before hashing; the library leaves the white space, so a signature
over a field with `b= ...` does not verify. -/
theorem C87_space_before_value : ∃ d, Rejected d (.perm .sigMismatch .fail) := by
  refine ⟨msg b!"from" [b!"from"] [] [SP] [], rejected
    (verifies (loc := []) (dom := b!"d.e") (size := 0) (limit := false) (by decide +kernel)
      (signature (by decide +kernel) names_from (by simp) ?_ ?_ ?_)) (by decide +kernel)⟩
  · exact .absent
  · exact .absent
  · intro q hq; cases hq

/-- Likewise after the value. -/
theorem C87_space_after_value : ∃ d, Rejected d (.perm .sigMismatch .fail) := by
  refine ⟨msg b!"from" [b!"from"] [] [] [SP], rejected
    (verifies (loc := []) (dom := b!"d.e") (size := 0) (limit := false) (by decide +kernel)
      (signature (by decide +kernel) names_from (by simp) ?_ ?_ ?_)) (by decide +kernel)⟩
  · exact .absent
  · exact .absent
  · intro q hq; cases hq

/-- h= never means the signature field that is verified (RFC 6376, 3.5); the library hashes it, with its b=, when the name is mentioned more
often than there are such fields below. -/
theorem C87_signature_hashes_itself : ∃ d, Rejected d (.perm .sigMismatch .fail) := by
  refine ⟨msg b!"from:dkim-signature" [b!"from", b!"dkim-signature"] [] [] [], rejected
    (verifies (loc := []) (dom := b!"d.e") (size := 0) (limit := false) (by decide +kernel)
      (signature (by decide +kernel) ?_ (by simp) ?_ ?_ ?_)) (by decide +kernel)⟩
  · exact .cons b!"from" [] [] b!"dkim-signature" _ ⟨by decide, by decide⟩ (.inl rfl) (.inl rfl) (.one _ ⟨by decide, by decide⟩)
  · exact .absent
  · exact .absent
  · intro q hq; cases hq

end Dkim
