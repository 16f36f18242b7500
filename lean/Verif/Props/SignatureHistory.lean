import Verif.Props.Signature
import Verif.Model.PublicKey
/-!
# Properties C25–C30: examples, expiry, errno and repeated parsing
-/

namespace Dkim
open Spec

/-! ## Concrete headers -/

/-- A complete DKIM signature header with the given extra tags. -/
def Spec.sampleHeader (extra : Bytes) : Header :=
  { name := b!"DKIM-Signature"
    header := b!"DKIM-Signature: v=1; a=rsa-sha256; d=Example.org; s=sel; i=@mail.example.org; h=from : to;\r\n\tbh=TWFu; b=TW\r\n\tFu" ++ extra
    valueOffset := 15 }

/-- An ARC message signature header. -/
def Spec.sampleArc : Header :=
  { name := b!"ARC-Message-Signature"
    header := b!"ARC-Message-Signature: i=2; a=ed25519-sha256; c=relaxed/simple; d=example.org; s=sel; h=From; bh=TWFu; b=TWFu"
    valueOffset := 22 }

/-- The values some getters return: signing domain, identity domain, signature data and names signed. -/
def Spec.sigView (r : EStateM.Result Err SigSt Unit) : Option (Bytes × Bytes × Bytes × List Bytes) :=
  match r with
  | .ok () st => some (st.sig.domain, st.sig.mailDomain, st.sig.b, st.sig.headers)
  | .error _ _ => none

/-- The body length limit. -/
def Spec.lenView (r : EStateM.Result Err SigSt Unit) : Option (Bool × Nat) :=
  match r with
  | .ok () st => some (st.sig.bodySizeLimit, st.sig.bodySize)
  | .error _ _ => none

/-- Did the call succeed? -/
def Spec.accepted {σ α : Type} (r : EStateM.Result Err σ α) : Bool :=
  match r with
  | .ok _ _ => true
  | .error _ _ => false

theorem accepted_iff {σ : Type} {r : EStateM.Result Err σ Unit} : accepted r = true ↔ ∃ st, r = .ok () st := by
  cases r <;> simp [accepted]

theorem accepted_state {σ : Type} {r : EStateM.Result Err σ Unit} (h : accepted r = true) : r = .ok () (esState r) := by
  cases r <;> simp [accepted] at *

example : sigView (Signature.parse toyEnv 5 (sampleHeader b!"; x=5; l=7") {}) =
    some (b!"example.org", b!"mail.example.org", b!"Man", [b!"from", b!"to"]) := by decide +kernel
example : sigView (Signature.parse toyEnv 5 sampleArc {}) =
    some (b!"example.org", [], b!"Man", [b!"From"]) := by decide +kernel
/-- A foreign identity is rejected. -/
example : accepted (Signature.parse toyEnv 5 { name := b!"DKIM-Signature", header := b!"v=1; a=rsa-sha256; d=example.org; s=sel; i=@notexample.org; h=from; bh=TWFu; b=TWFu", valueOffset := 0 } {}) = false := by decide +kernel

/-- C25, C26 and C27 apply: the tags of an accepted header, and its getters. -/
example : ∃ st, Signature.parse toyEnv 5 (sampleHeader b!"; x=5; l=7") { erange := false } = .ok () st ∧
    (∃ es, TagText 0 (valueText (sampleHeader b!"; x=5; l=7")) es ∧ Legal toyEnv false 5 (tagVal es) st.sig) ∧
    InDomain st.sig.mailDomain b!"example.org" ∧ st.sig.bodySizeLimit = true ∧ st.sig.bodySize = 7 := by
  obtain ⟨_, st, h, hv⟩ := res_of (Signature.parse toyEnv 5 (sampleHeader b!"; x=5; l=7") { erange := false })
    (fun _ st => st.sig.domain == b!"example.org" && st.sig.bodySizeLimit && st.sig.bodySize == 7) (by decide +kernel)
  simp only [Bool.and_eq_true, beq_iff_eq] at hv
  obtain ⟨es, h1, _, h2⟩ := C25_getters toyEnv 5 _ false st h
  obtain ⟨_, d, _, _, h3, h4, _⟩ := C26_identity toyEnv 5 _ false st h (by decide)
  rw [hv.1.1] at h3
  rw [← h3] at h4
  exact ⟨st, h, ⟨es, h1, h2⟩, h4, hv.1.2, hv.2⟩

/-- C25: a header without d=. -/
example : ∃ r st', Signature.parse toyEnv 0
    { name := b!"DKIM-Signature", header := b!"v=1; a=rsa-sha256; s=sel; h=from; bh=TWFu; b=TWFu", valueOffset := 0 } { erange := false } =
      .error (.perm r .permerror) st' := by
  obtain ⟨_, m, h, hv⟩ := res_of (TagList.parse b!"v=1; a=rsa-sha256; s=sel; h=from; bh=TWFu; b=TWFu" [])
    (fun _ m => decide (b!"d" ∉ m.map Prod.fst)) (by decide +kernel)
  obtain ⟨es, h1, _, _, h2⟩ := (C11_parse_iff _ _ _).1 h
  have : m = es := h2
  subst this
  exact C25_mandatory toyEnv 0 _ false m h1 b!"d" (by decide) (of_decide_eq_true hv)

/-! ## C27: accepted texts that are not plain decimal numbers -/

/-- C27 is false of the code: an empty l= is accepted as 0, `-18446744073709551615` as 1, `+5` as 5. -/
theorem C27_not_decimal_witness :
    lenView (Signature.parse toyEnv 0 (sampleHeader b!"; l=") {}) = some (true, 0) ∧
    lenView (Signature.parse toyEnv 0 (sampleHeader b!"; l=-18446744073709551615") {}) = some (true, 1) ∧
    lenView (Signature.parse toyEnv 0 (sampleHeader b!"; l=+5") {}) = some (true, 5) := by
  decide +kernel

/-! ## C28: expiry -/

/-- The tags of a text are determined by the text. -/
theorem Spec.TagText.det {s : Bytes} {es es' : List (Bytes × TagEntry)} (h : TagText 0 s es) (h' : TagText 0 s es')
    (hnd : (es.map Prod.fst).Nodup) : es' = es := by
  have h3 := (C11_parse_iff s [] es).2 ⟨es, h, hnd, by simp, by simp⟩
  rcases tagLoop_text h' (s.length + 1) (by omega) s.length (by omega) [] with ⟨_, _, h4⟩ | ⟨_, _, m', h4⟩
  · have : (EStateM.Result.ok () es : EStateM.Result Err TagList Unit) = .ok () ([] ++ es') := h3.symm.trans h4
    simp at this
    exact this.symm
  · have : (EStateM.Result.ok () es : EStateM.Result Err TagList Unit) = .error _ m' := h3.symm.trans h4
    cases this

/-- Only the expiry depends on the clock. -/
theorem Spec.Legal.clock {E : Env} {arc : Bool} {now now' : Int} {tag : Bytes → Option Bytes} {s : Signature}
    (L : Legal E arc now tag s) (h : ∀ x, tag b!"x" = some x → ∃ time o, SLong x time o ∧ now' ≤ time) : Legal E arc now' tag s := by
  obtain ⟨h1, h2, h3, h4, h5, h6, h7, h8, h9, h10, h11, h12, h13, h14, h15⟩ := L
  exact ⟨h1, h2, h3, h4, h5, h6, h7, h8, h9, h10, h11, h12, h13, h14, h⟩

/-- C28: for a header whose x= is a decimal number, `Parse` succeeds at time `now` iff the number is not less
than `now` and the header is acceptable at some time at all. (`now` is a 64-bit clock value.) -/
theorem C28_expiry (E : Env) (now : Int) (h : Header) (e0 : Bool) (es : List (Bytes × TagEntry)) (ds : Bytes)
    (ht : TagText 0 (valueText h) es) (hx : tagVal es b!"x" = some ds) (hd : IsDigits ds) (hnow : now < 2 ^ 63) :
    (∃ st', Signature.parse E now h { erange := e0 } = .ok () st') ↔
      now ≤ (digitsVal ds : Int) ∧ ∃ t0 st', Signature.parse E t0 h { erange := e0 } = .ok () st' := by
  have hval : (∃ time o, SLong ds time o ∧ now ≤ time) ↔ now ≤ (digitsVal ds : Int) := by
    rw [sLong_value, digitsVal_eq]
    rw [strtol_digits hd]
    split
    · rename_i hbig
      constructor <;> intro _
      · have : (2 : Int) ^ 63 ≤ decVal ds := by exact_mod_cast hbig
        omega
      · show now ≤ 2 ^ 63 - 1
        omega
    · exact Iff.rfl
  constructor
  · rintro ⟨st', hp⟩
    refine ⟨?_, now, st', hp⟩
    obtain ⟨es', h1, h2, _, L, _⟩ := (parse_ok_iff E now h e0 st').1 hp
    have : es = es' := h1.det ht h2
    subst this
    exact hval.1 (L.notExpired ds hx)
  · rintro ⟨hle, t0, st', hp⟩
    obtain ⟨es', h1, h2, h3, L, h4, h5⟩ := (parse_ok_iff E t0 h e0 st').1 hp
    have : es = es' := h1.det ht h2
    subst this
    refine ⟨st', (parse_ok_iff E now h e0 st').2 ⟨es, h1, h2, h3, L.clock ?_, h4, h5⟩⟩
    intro x hx'
    rw [hx] at hx'
    cases hx'
    exact hval.2 hle

/-- C28: an expired signature is rejected with a permanent error. -/
theorem C28_expired_rejected (E : Env) (now : Int) (h : Header) (e0 : Bool) (es : List (Bytes × TagEntry)) (ds : Bytes)
    (ht : TagText 0 (valueText h) es) (hx : tagVal es b!"x" = some ds) (hd : IsDigits ds) (hnow : now < 2 ^ 63)
    (hexp : (digitsVal ds : Int) < now) :
    ∃ r st', Signature.parse E now h { erange := e0 } = .error (.perm r .permerror) st' := by
  cases hp : Signature.parse E now h { erange := e0 } with
  | error e st' => obtain ⟨r, rfl⟩ := C25_fails_permanently E now h _ e st' hp; exact ⟨r, st', rfl⟩
  | ok u st' =>
    have := ((C28_expiry E now h e0 es ds ht hx hd hnow).1 ⟨st', hp⟩).1
    omega

example : accepted (Signature.parse toyEnv 5 (sampleHeader b!"; x=5") {}) = true ∧
    accepted (Signature.parse toyEnv 6 (sampleHeader b!"; x=5") {}) = false := by decide +kernel

/-! ## C29: errno -/

/-- C29 is false of the code: parsing `h1` (successfully) makes the following `Parse` of `h2` on a fresh object
fail, although `h2` alone is accepted. The state carried over is the thread's errno. -/
theorem C29_stale_errno_witness :
    ∃ (h1 h2 : Header) (st1 : SigSt), Signature.parse toyEnv 0 h1 {} = .ok () st1 ∧
      accepted (Signature.parse toyEnv 0 h2 {}) = true ∧
      accepted (Signature.parse toyEnv 0 h2 { sig := {}, erange := st1.erange }) = false := by
  exact ⟨sampleHeader b!"; x=99999999999999999999", sampleHeader b!"; l=7", esState (Signature.parse toyEnv 0 (sampleHeader b!"; x=99999999999999999999") {}),
    accepted_state (by decide +kernel), by decide +kernel, by decide +kernel⟩

/-- C29 (for headers without l=): whatever errno an earlier call left behind, the same headers are accepted, with
the same object as result. Missing: headers with l=, see `C29_stale_errno_witness`. -/
theorem C29_no_length_tag_partial (E : Env) (now : Int) (h : Header) (e0 : Bool) (es : List (Bytes × TagEntry))
    (ht : TagText 0 (valueText h) es) (hl : b!"l" ∉ es.map Prod.fst) (s : Signature) :
    (∃ e', Signature.parse E now h { erange := e0 } = .ok () ⟨s, e'⟩) ↔
      ∃ e', Signature.parse E now h {} = .ok () ⟨s, e'⟩ := by
  have nol : tagVal es b!"l" = none := by
    cases hv : tagVal es b!"l" with
    | none => rfl
    | some v =>
      obtain ⟨t, h1, _⟩ := tagVal_some.1 hv
      exact absurd ((getTag_isSome_iff es b!"l").1 (by rw [h1]; rfl)) hl
  constructor
  · rintro ⟨e', hp⟩
    obtain ⟨es', h1, h2, h3, L, h4, h5⟩ := (parse_ok_iff E now h e0 _).1 hp
    exact ⟨xRange es', (parse_ok_iff E now h false _).2 ⟨es', h1, h2, h3, L, by simp, by simp⟩⟩
  · rintro ⟨e', hp⟩
    obtain ⟨es', h1, h2, h3, L, h4, h5⟩ := (parse_ok_iff E now h false _).1 hp
    have : es = es' := h1.det ht h2
    subst this
    exact ⟨e0 || xRange es, (parse_ok_iff E now h e0 _).2 ⟨es, h1, h2, h3, L, fun _ => nol, rfl⟩⟩

/-- C29: stale errno can only turn acceptance into rejection, never the reverse, and never changes what the
accepted object holds. -/
theorem C29_errno_only_rejects (E : Env) (now : Int) (h : Header) (e0 : Bool) (s : Signature) (e' : Bool)
    (hp : Signature.parse E now h { erange := e0 } = .ok () ⟨s, e'⟩) :
    ∃ e'', Signature.parse E now h {} = .ok () ⟨s, e''⟩ := by
  obtain ⟨es', h1, h2, h3, L, h4, h5⟩ := (parse_ok_iff E now h e0 _).1 hp
  exact ⟨xRange es', (parse_ok_iff E now h false _).2 ⟨es', h1, h2, h3, L, by simp, by simp⟩⟩

/-- C29, the exact influence of errno: with ERANGE left behind, a header is accepted iff it is accepted with a clean errno and has
no l= tag; what the object holds is then the same. -/
theorem C29_exact (E : Env) (now : Int) (h : Header) (es : List (Bytes × TagEntry)) (ht : TagText 0 (valueText h) es) (s : Signature) :
    (∃ e', Signature.parse E now h { erange := true } = .ok () ⟨s, e'⟩) ↔
      (∃ e', Signature.parse E now h {} = .ok () ⟨s, e'⟩) ∧ b!"l" ∉ es.map Prod.fst := by
  constructor
  · rintro ⟨e', hp⟩
    obtain ⟨es', h1, h2, h3, L, h4, h5⟩ := (parse_ok_iff E now h true _).1 hp
    have : es = es' := h1.det ht h2
    subst this
    refine ⟨⟨xRange es, (parse_ok_iff E now h false _).2 ⟨es, h1, h2, h3, L, by simp, by simp⟩⟩, ?_⟩
    intro hl
    have := (getTag_isSome_iff es b!"l").2 hl
    have hn := h4 rfl
    unfold tagVal at hn
    rw [Option.map_eq_none_iff] at hn
    rw [show TagList.getTag es b!"l" = none from hn] at this
    cases this
  · rintro ⟨h, hl⟩
    exact (C29_no_length_tag_partial E now _ true es ht hl s).2 h

/-- C29: so with ERANGE left behind every header with l= is refused, with a permanent error. -/
theorem C29_stale_rejects_length (E : Env) (now : Int) (h : Header) (es : List (Bytes × TagEntry)) (ht : TagText 0 (valueText h) es)
    (hl : b!"l" ∈ es.map Prod.fst) : ∃ r st', Signature.parse E now h { erange := true } = .error (.perm r .permerror) st' := by
  cases hp : Signature.parse E now h { erange := true } with
  | error e st' => obtain ⟨r, rfl⟩ := C25_fails_permanently E now h _ e st' hp; exact ⟨r, st', rfl⟩
  | ok u st' =>
    obtain ⟨s, e'⟩ := st'
    exact absurd hl ((C29_exact E now h es ht s).1 ⟨e', hp⟩).2

/-! ## C30: repeated use of one object -/

/-- The first step of `Signature::Parse`. -/
theorem Signature.parse_tagError (E : Env) (now : Int) (h : Header) (st : SigSt) (e : Err) (m : TagList)
    (hp : TagList.parse (valueText h) st.sig.tags = .error e m) :
    Signature.parse E now h st = .error e { st with sig := { st.sig with tags := m } } := by
  unfold Signature.parse
  rw [es_bind]
  have : sigTagList (h.header.drop h.valueOffset) st = .error e { st with sig := { st.sig with tags := m } } := by
    unfold sigTagList
    unfold valueText at hp
    rw [hp]
  rw [this, esBind_error]

/-- Errors of the tag list parser keep what was stored. -/
theorem tagError_keeps {s : Bytes} {m m' : TagList} {e : Err} (hp : TagList.parse s m = .error e m') (n : Bytes)
    (t : TagEntry) (h : m.getTag n = some t) : m'.getTag n = some t := by
  have := afterParse_keeps m s n t h
  unfold afterParse at this
  rw [hp] at this
  exact this

/-- C30: on an object holding tags, `Parse` of a header that repeats one of them fails with a permanent error and
keeps every stored tag. -/
theorem C30_repeated_tag (E : Env) (now : Int) (h : Header) (st : SigSt) (es : List (Bytes × TagEntry))
    (ht : TagText 0 (valueText h) es) (k : Bytes) (hk : k ∈ es.map Prod.fst) (hs : k ∈ st.sig.tags.map Prod.fst) :
    ∃ r st', Signature.parse E now h st = .error (.perm r .permerror) st' ∧
      ∀ n t, st.sig.tags.getTag n = some t → st'.sig.tags.getTag n = some t := by
  obtain ⟨_, m', hm⟩ := C13_duplicate_rejected (valueText h) es ht st.sig.tags (Or.inr ⟨k, hk, hs⟩)
  refine ⟨_, _, Signature.parse_tagError E now h st _ m' hm, ?_⟩
  intro n t hg
  exact tagError_keeps hm n t hg

/-- C30: after a successful `Parse` (on a fresh object), a further `Parse` without `Reset` of any header that a
fresh object would accept fails with a permanent error and keeps every stored tag. -/
theorem C30_second_parse_fails (E : Env) (now now' t0 : Int) (h h2 : Header) (e0 e1 : Bool) (st st2 : SigSt)
    (hp : Signature.parse E now h { erange := e0 } = .ok () st)
    (hok : Signature.parse E t0 h2 { erange := e1 } = .ok () st2) (e2 : Bool) :
    ∃ r st', Signature.parse E now' h2 { st with erange := e2 } = .error (.perm r .permerror) st' ∧
      ∀ n t, st.sig.tags.getTag n = some t → st'.sig.tags.getTag n = some t := by
  obtain ⟨es, h1, h2', h3, L, _⟩ := (parse_ok_iff E now h e0 st).1 hp
  obtain ⟨es2, g1, g2, g3, L2, _⟩ := (parse_ok_iff E t0 h2 e1 st2).1 hok
  obtain ⟨d, hd, _⟩ := L.domain
  obtain ⟨d2, hd2, _⟩ := L2.domain
  obtain ⟨t, ht, _⟩ := tagVal_some.1 hd
  obtain ⟨t2, ht2, _⟩ := tagVal_some.1 hd2
  refine C30_repeated_tag E now' h2 _ es2 g1 b!"d" ((getTag_isSome_iff es2 _).1 (by rw [ht2]; rfl)) ?_
  show b!"d" ∈ st.sig.tags.map Prod.fst
  rw [h3]
  exact (getTag_isSome_iff es _).1 (by rw [ht]; rfl)

/-- Calls on one `Signature` object. -/
inductive Spec.SigCall
  | parse (now : Int) (h : Header)
  | reset

/-- Run one call; the object keeps the state an exception left it in. -/
def Spec.sigCall (E : Env) (st : SigSt) : SigCall → SigSt
  | .parse now h => esState (Signature.parse E now h st)
  | .reset => esState (Signature.reset st)

/-- C30: any history ending in `Reset` leaves a fresh object: `Parse` behaves as on a new one
(with whatever errno the thread has). -/
theorem C30_reset_fresh (E : Env) (hist : List SigCall) (st : SigSt) (now : Int) (h : Header) :
    ∃ e, Signature.parse E now h ((hist ++ [SigCall.reset]).foldl (sigCall E) st) =
      Signature.parse E now h { sig := {}, erange := e } := by
  rw [List.foldl_append]
  exact ⟨_, rfl⟩

/-- The rewritten claim excludes this case: after success, a header without any tags is accepted again (the stored
tags still satisfy every requirement), so "at most once" holds only for headers that repeat a tag. -/
theorem C30_disjoint_merge_witness :
    ∃ st, Signature.parse toyEnv 0 (sampleHeader b!"") {} = .ok () st ∧
      accepted (Signature.parse toyEnv 0 { name := b!"DKIM-Signature", header := b!"DKIM-Signature: x=5", valueOffset := 15 } st) = true := by
  exact ⟨_, accepted_state (by decide +kernel), by decide +kernel⟩

/-! The same for `PublicKey`. -/

theorem PublicKey.parse_tagError {E : Env} (txt : Bytes) (k : PublicKey E) (e : Err) (m : TagList)
    (hp : TagList.parse txt k.tags = .error e m) : PublicKey.parse txt k = .error e { k with tags := m } := by
  unfold PublicKey.parse
  rw [es_bind]
  have : keyTagList txt k = .error e { k with tags := m } := by unfold keyTagList; rw [hp]
  rw [this, esBind_error]

/-- C30: a `PublicKey` holding tags rejects a record that repeats one of them. -/
theorem C30_key_repeated_tag {E : Env} (txt : Bytes) (k : PublicKey E) (es : List (Bytes × TagEntry))
    (ht : TagText 0 txt es) (n : Bytes) (hk : n ∈ es.map Prod.fst) (hs : n ∈ k.tags.map Prod.fst) :
    ∃ r k', PublicKey.parse txt k = .error (.perm r .permerror) k' ∧
      ∀ n t, k.tags.getTag n = some t → k'.tags.getTag n = some t := by
  obtain ⟨_, m', hm⟩ := C13_duplicate_rejected txt es ht k.tags (Or.inr ⟨n, hk, hs⟩)
  exact ⟨_, _, PublicKey.parse_tagError txt k _ m' hm, fun n t hg => tagError_keeps hm n t hg⟩

/-- Calls on one `PublicKey` object. -/
inductive Spec.KeyCall
  | parse (txt : Bytes)
  | reset

/-- Run one call. -/
def Spec.keyCall {E : Env} (k : PublicKey E) : KeyCall → PublicKey E
  | .parse txt => esState (PublicKey.parse txt k)
  | .reset => esState (PublicKey.reset k)

/-- C30: any history of a `PublicKey` ending in `Reset` leaves a fresh object. -/
theorem C30_key_reset_fresh {E : Env} (hist : List KeyCall) (k : PublicKey E) :
    (hist ++ [KeyCall.reset]).foldl keyCall k = ({} : PublicKey E) := by
  rw [List.foldl_append]
  rfl

end Dkim
