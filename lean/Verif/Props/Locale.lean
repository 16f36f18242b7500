import Verif.Spec.Locale
import Verif.Proofs.Signature
import Verif.Proofs.EState
import Verif.Proofs.HeaderClean
import Verif.Props.TagList
import Verif.Props.ListText
import Verif.Props.QpDecode
import Verif.Props.VerifyBody
import Verif.Props.Verdict
import Verif.Tests.Samples
/-!
# C92: the program's locale
-/

namespace Dkim
open Spec

/-! ## Functions on texts -/

theorem loc_lower {L : Locale} (_ : AsciiLocale L) {s : Bytes} (h : SameIn L s) : Loc.lower L s = lower s := by
  unfold Loc.lower lower
  apply List.map_congr_left
  intro c hc
  rw [(h c hc).1]; rfl

theorem same_ascii {L : Locale} (hL : AsciiLocale L) {s : Bytes} (h : Ascii s) : SameIn L s :=
  fun c hc => ⟨hL.lower c (h c hc), hL.space c (h c hc)⟩

theorem Spec.SameIn.sub {L : Locale} {s t : Bytes} (h : SameIn L s) (ht : ∀ c ∈ t, c ∈ s) : SameIn L t := fun c hc => h c (ht c hc)

theorem loc_stripSpace {L : Locale} (_ : AsciiLocale L) {s : Bytes} (h : SameIn L s) : Loc.stripSpace L s = stripSpace s := by
  unfold Loc.stripSpace stripSpace
  apply List.filter_congr
  intro c hc
  rw [(h c hc).2]; rfl

theorem dropWhile_congr_mem {p q : Byte → Bool} : ∀ {s : Bytes}, (∀ c ∈ s, p c = q c) → s.dropWhile p = s.dropWhile q
  | [], _ => rfl
  | c :: r, h => by
    simp only [List.dropWhile_cons]
    rw [h c (by simp), dropWhile_congr_mem (s := r) (fun x hx => h x (by simp [hx]))]

theorem loc_scanNum {L : Locale} (_ : AsciiLocale L) {s : Bytes} (h : SameIn L s) : Loc.scanNum L s = scanNum s := by
  unfold Loc.scanNum scanNum
  rw [dropWhile_congr_mem (p := L.space) (q := isSpace) (fun c hc => by rw [(h c hc).2]; rfl)]

theorem loc_strtoul {L : Locale} (hL : AsciiLocale L) {s : Bytes} (h : SameIn L s) : Loc.strtoul L s = strtoul s := by
  unfold Loc.strtoul strtoul; rw [loc_scanNum hL h]; rfl

theorem loc_strtol {L : Locale} (hL : AsciiLocale L) {s : Bytes} (h : SameIn L s) : Loc.strtol L s = strtol s := by
  unfold Loc.strtol strtol; rw [loc_scanNum hL h]; rfl

theorem cstr_ascii {L : Locale} {s : Bytes} (h : SameIn L s) : SameIn L (cstr s) :=
  h.sub (fun _ hc => (List.takeWhile_sublist _).subset hc)

theorem take_fieldName {s : Bytes} {k : Nat} (h : s.findIdx? (· == COLON) = some k) : COLON ∈ s ∧ s.take k = fieldName s := by
  rcases findIdx_split (· == COLON) s with ⟨h1, _⟩ | ⟨a, x, b, hj, hx, ha, hi⟩
  · rw [h1] at h; cases h
  · rw [hi] at h; cases h
    have hx' : x = COLON := by simpa using hx
    subst hx'
    refine ⟨by rw [hj]; simp, ?_⟩
    rw [hj]
    unfold fieldName
    rw [List.take_left']
    · rw [List.takeWhile_append_of_pos (fun c hc => by have := ha c hc; simpa using this)]
      simp
    · rfl

theorem loc_filterHeader {L : Locale} (hL : AsciiLocale L) (m : CanonMode) {f : Bytes} (h : SameName L f) :
    Loc.filterHeader L m f = filterHeader m f := by
  unfold Loc.filterHeader filterHeader
  cases m with
  | simple => rfl
  | relaxed =>
    cases hk : f.findIdx? (· == COLON) with
    | none => rfl
    | some k =>
      obtain ⟨hc, hn⟩ := take_fieldName hk
      have e : Loc.lower L (f.take k) = lower (f.take k) := by rw [hn]; exact loc_lower hL (h hc)
      dsimp only
      rw [e]
      rfl

/-! ## Parsing a signature -/

/-- The tag values are ASCII, and so are the identity and the signed field names. -/
structure AsciiSt (L : Locale) (st : SigSt) : Prop where
  tags : ∀ n t, st.sig.tags.getTag n = some t → SameIn L t.value
  ident : ∀ t mail, st.sig.tags.getTag b!"i" = some t → qpDecode t.value = .ok mail → SameIn L mail
  headers : ∀ n ∈ st.sig.headers, SameIn L n

/-- The two computations do the same from the states with `P`, and lead to such states and results with `Q`. -/
def Agree {σ α : Type} (P : σ → Prop) (Q : α → Prop) (m m' : EStateM Err σ α) : Prop :=
  ∀ st, P st → m st = m' st ∧ ∀ a st', m' st = .ok a st' → P st' ∧ Q a

/-- No condition on the result. -/
abbrev Always {α : Type} : α → Prop := fun _ => True

theorem Agree.bind {σ α β : Type} {P : σ → Prop} {Q : α → Prop} {R : β → Prop} {m m' : EStateM Err σ α} {f f' : α → EStateM Err σ β}
    (h : Agree P Q m m') (hf : ∀ a, Q a → Agree P R (f a) (f' a)) : Agree P R (m >>= f) (m' >>= f') := by
  intro st hP
  obtain ⟨h1, h2⟩ := h st hP
  rw [es_bind, es_bind, h1]
  cases hr : m' st with
  | error e s => exact ⟨rfl, fun a st' h => by rw [esBind_error] at h; cases h⟩
  | ok a s =>
    rw [esBind_ok, esBind_ok]
    exact hf a (h2 a s hr).2 s (h2 a s hr).1

theorem Agree.throw {σ α : Type} {P : σ → Prop} {Q : α → Prop} (e : Err) :
    Agree P Q (throw e : EStateM Err σ α) (throw e) := fun st _ => ⟨rfl, fun a st' h => by rw [es_throw] at h; cases h⟩

theorem Agree.pure {σ α : Type} {P : σ → Prop} {Q : α → Prop} (a : α) (h : Q a) :
    Agree P Q (Pure.pure a : EStateM Err σ α) (Pure.pure a) :=
  fun st hP => ⟨rfl, fun a' st' h' => by rw [es_pure] at h'; cases h'; exact ⟨hP, h⟩⟩

theorem Agree.ite {σ α : Type} {P : σ → Prop} {Q : α → Prop} {c : Prop} [Decidable c] {m m' n n' : EStateM Err σ α}
    (h1 : Agree P Q m m') (h2 : Agree P Q n n') : Agree P Q (if c then m else n) (if c then m' else n') := by
  split
  · exact h1
  · exact h2

theorem Agree.modify {σ : Type} {P : σ → Prop} (f : σ → σ) (h : ∀ st, P st → P (f st)) :
    Agree P Always (modify f : EStateM Err σ PUnit) (modify f) :=
  fun st hP => ⟨rfl, fun a st' h' => by rw [es_modify] at h'; cases h'; exact ⟨h st hP, trivial⟩⟩

theorem Agree.get {σ : Type} {P : σ → Prop} : Agree P P (get : EStateM Err σ σ) get :=
  fun st hP => ⟨rfl, fun a st' h' => by rw [es_get] at h'; cases h'; exact ⟨hP, hP⟩⟩

theorem Agree.liftE {σ α : Type} {P : σ → Prop} {Q : α → Prop} (x : Except Err α) (h : ∀ a, x = .ok a → Q a) :
    Agree P Q (liftE x : EStateM Err σ α) (liftE x) := by
  cases x with
  | error e => exact Agree.throw e
  | ok a => exact Agree.pure a (h a rfl)

/-- Assignments that leave tags and names alone. -/
theorem Agree.setSig {L : Locale} (f : Signature → Signature) (h1 : ∀ s, (f s).tags = s.tags) (h2 : ∀ s, (f s).headers = s.headers) :
    Agree (AsciiSt L) Always (setSig f) (setSig f) :=
  Agree.modify _ (fun st h => ⟨by dsimp only; rw [h1]; exact h.tags, by dsimp only; rw [h1]; exact h.ident, by dsimp only; rw [h2]; exact h.headers⟩)

theorem Agree.raiseErange {L : Locale} (e : Bool) : Agree (AsciiSt L) Always (raiseErange e) (raiseErange e) :=
  Agree.modify _ (fun st h => ⟨h.tags, h.ident, h.headers⟩)

/-- What is known of a tag found. -/
def AsciiTag (L : Locale) (n : Bytes) (t : TagEntry) : Prop :=
  SameIn L t.value ∧ (n = b!"i" → ∀ mail, qpDecode t.value = .ok mail → SameIn L mail)

theorem Agree.sigTag {L : Locale} (n : Bytes) : Agree (AsciiSt L) (fun o => ∀ t, o = some t → AsciiTag L n t) (sigTag n) (sigTag n) := by
  intro st h
  refine ⟨rfl, fun a st' e => ?_⟩
  unfold Dkim.sigTag at e
  rw [es_bind, es_get, esBind_ok, es_pure] at e
  cases e
  refine ⟨h, fun t ht => ⟨h.tags n t ht, ?_⟩⟩
  rintro rfl
  exact fun mail hm => h.ident t mail ht hm

theorem Agree.needTag {L : Locale} (n : Bytes) (r : Reason) : Agree (AsciiSt L) (AsciiTag L n) (needTag n r) (needTag n r) := by
  refine Agree.bind (Agree.sigTag n) (fun o ho => ?_)
  cases o with
  | none => exact Agree.throw _
  | some t => exact Agree.pure t (ho t rfl)

theorem agree_sigArc {L : Locale} (hL : AsciiLocale L) {n : Bytes} (h : SameIn L n) :
    Agree (AsciiSt L) Always (Loc.sigArc L n) (sigArc n) := by
  unfold Loc.sigArc sigArc
  rw [loc_lower hL h]
  exact Agree.ite (Agree.setSig _ (fun _ => rfl) (fun _ => rfl)) (Agree.pure _ trivial)

theorem agree_sigD {L : Locale} (hL : AsciiLocale L) : Agree (AsciiSt L) Always (Loc.sigD L) sigD := by
  refine Agree.bind (Agree.needTag _ _) (fun d hd => ?_)
  rw [loc_lower hL hd.1]
  exact Agree.setSig _ (fun _ => rfl) (fun _ => rfl)

theorem agree_sigV {L : Locale} : Agree (AsciiSt L) Always sigV sigV := by
  refine Agree.bind Agree.get (fun st _ => ?_)
  refine Agree.ite ?_ (Agree.pure _ trivial)
  refine Agree.bind (Agree.needTag _ _) (fun d hd => ?_)
  exact Agree.ite (Agree.throw _) (Agree.pure _ trivial)

theorem agree_sigA {L : Locale} : Agree (AsciiSt L) Always sigA sigA := by
  refine Agree.bind (Agree.needTag _ _) (fun d hd => ?_)
  refine Agree.ite (Agree.setSig _ (fun _ => rfl) (fun _ => rfl)) ?_
  refine Agree.ite (Agree.setSig _ (fun _ => rfl) (fun _ => rfl)) ?_
  exact Agree.ite (Agree.setSig _ (fun _ => rfl) (fun _ => rfl)) (Agree.throw _)

theorem agree_sigB {L : Locale} (hL : AsciiLocale L) (E : Env) : Agree (AsciiSt L) Always (Loc.sigB L E) (sigB E) := by
  refine Agree.bind (Agree.needTag _ _) (fun b hb => ?_)
  rw [loc_stripSpace hL hb.1]
  exact Agree.ite (Agree.bind (Q := Always) (Agree.throw _) (fun _ _ => Agree.setSig _ (fun _ => rfl) (fun _ => rfl)))
    (Agree.setSig _ (fun _ => rfl) (fun _ => rfl))

theorem agree_sigBH {L : Locale} (hL : AsciiLocale L) (E : Env) : Agree (AsciiSt L) Always (Loc.sigBH L E) (sigBH E) := by
  refine Agree.bind (Agree.needTag _ _) (fun b hb => ?_)
  rw [loc_stripSpace hL hb.1]
  exact Agree.setSig _ (fun _ => rfl) (fun _ => rfl)

theorem agree_sigC {L : Locale} : Agree (AsciiSt L) Always sigC sigC := by
  refine Agree.bind (Agree.sigTag _) (fun o ho => ?_)
  cases o with
  | none => exact Agree.pure _ trivial
  | some c =>
    dsimp only
    cases canonOf (splitC c.value).1 with
    | none => exact Agree.bind (Agree.throw (Q := Always) _) (fun _ _ => by
        cases canonOf (splitC c.value).2 with
        | none => exact Agree.throw _
        | some m => exact Agree.setSig _ (fun _ => rfl) (fun _ => rfl))
    | some m =>
      refine Agree.bind (Agree.setSig _ (fun _ => rfl) (fun _ => rfl)) (fun _ _ => ?_)
      cases canonOf (splitC c.value).2 with
      | none => exact Agree.throw _
      | some m => exact Agree.setSig _ (fun _ => rfl) (fun _ => rfl)

theorem readsFWS_sub {s w r : Bytes} (h : ReadsFWS s w r) : ∀ c ∈ r, c ∈ s := by
  cases h <;> simp_all

theorem afterFWS_sub {s r : Bytes} (h : AfterFWS s r) : ∀ c ∈ r, c ∈ s := by
  induction h with
  | stop s _ => exact fun c hc => hc
  | step s w r r' h1 _ _ ih => exact fun c hc => readsFWS_sub h1 c (ih c hc)

theorem valueText_sub {seg v : Bytes} (h : ValueText seg v) : ∀ c ∈ v, c ∈ seg := by
  obtain ⟨s, hs, post, hp, _⟩ := h.value
  intro c hc
  have h1 : c ∈ s := by rw [hp]; simp [hc]
  exact afterFWS_sub hs c h1

theorem listText_sub {s : Bytes} {vs : List Bytes} (h : ListText s vs) : ∀ v ∈ vs, ∀ c ∈ v, c ∈ s := by
  induction h with
  | done w _ => intro v hv; cases hv
  | last seg v hv =>
    intro w hw c hc
    rw [List.mem_singleton] at hw; subst hw
    exact valueText_sub hv c hc
  | cons seg v s vs hv _ ih =>
    intro w hw c hc
    rcases List.mem_cons.1 hw with rfl | hw
    · simp [valueText_sub hv c hc]
    · simp [ih w hw c hc]

theorem any_congr_mem {p q : Bytes → Bool} : ∀ {l : List Bytes}, (∀ n ∈ l, p n = q n) → l.any p = l.any q
  | [], _ => rfl
  | n :: l, h => by
    rw [List.any_cons, List.any_cons, h n (by simp), any_congr_mem (l := l) (fun x hx => h x (by simp [hx]))]

theorem agree_sigH {L : Locale} (hL : AsciiLocale L) : Agree (AsciiSt L) Always (Loc.sigH L) sigH := by
  refine Agree.bind (Agree.needTag _ _) (fun t ht => ?_)
  refine Agree.bind (Q := fun hs : List Bytes => ∀ n ∈ hs, SameIn L n) (Agree.liftE _ (fun hs e n hn => ?_)) (fun hs hhs => ?_)
  · exact ht.1.sub (listText_sub ((C67_list_iff _ _).1 e) n hn)
  · refine Agree.bind (Agree.modify _ (fun st h => ⟨h.tags, h.ident, hhs⟩)) (fun _ _ => ?_)
    have e : hs.any (fun n => Loc.lower L (cstr n) = Loc.lower L b!"from") = hs.any (fun n => lower (cstr n) = b!"from") := by
      have ef : Loc.lower L b!"from" = b!"from" := by
        rw [loc_lower hL (same_ascii hL (by unfold Ascii; decide))]; decide
      rw [ef]
      exact any_congr_mem (fun n hn => by rw [loc_lower hL (cstr_ascii (hhs n hn))])
    rw [e]
    exact Agree.ite (Agree.throw _) (Agree.pure _ trivial)

theorem agree_sigIArc {L : Locale} (hL : AsciiLocale L) : Agree (AsciiSt L) Always (Loc.sigIArc L) sigIArc := by
  refine Agree.bind (Agree.needTag _ _) (fun t ht => ?_)
  rw [loc_strtoul hL (cstr_ascii ht.1)]
  obtain ⟨v, r, e⟩ := strtoul (cstr t.value)
  dsimp only
  refine Agree.bind (Agree.raiseErange _) (fun _ _ => ?_)
  refine Agree.bind (Agree.setSig _ (fun _ => rfl) (fun _ => rfl)) (fun _ _ => ?_)
  exact Agree.ite (Agree.throw _) (Agree.pure _ trivial)

theorem agree_sigIDkim {L : Locale} (hL : AsciiLocale L) : Agree (AsciiSt L) Always (Loc.sigIDkim L) sigIDkim := by
  refine Agree.bind (Agree.sigTag _) (fun o ho => ?_)
  cases o with
  | none => exact Agree.setSig _ (fun _ => rfl) (fun _ => rfl)
  | some i =>
    dsimp only
    refine Agree.bind (Q := SameIn L) (Agree.liftE _ (fun m e => (ho i rfl).2 rfl m e)) (fun mail hm => ?_)
    cases mail.findIdx? (· == 64) with
    | none => exact Agree.throw _
    | some k =>
      dsimp only
      rw [loc_lower hL (hm.sub (fun c hc => List.mem_of_mem_drop hc))]
      refine Agree.bind (Agree.setSig _ (fun _ => rfl) (fun _ => rfl)) (fun _ _ => ?_)
      refine Agree.bind Agree.get (fun st _ => ?_)
      refine Agree.bind (Q := Always) (Agree.liftE _ (fun _ _ => trivial)) (fun _ _ => ?_)
      exact Agree.ite (Agree.throw _) (Agree.pure _ trivial)

theorem agree_sigI {L : Locale} (hL : AsciiLocale L) : Agree (AsciiSt L) Always (Loc.sigI L) sigI :=
  Agree.bind Agree.get (fun _ _ => Agree.ite (agree_sigIArc hL) (agree_sigIDkim hL))

theorem agree_sigL {L : Locale} (hL : AsciiLocale L) : Agree (AsciiSt L) Always (Loc.sigL L) sigL := by
  refine Agree.bind (Agree.sigTag _) (fun o ho => ?_)
  cases o with
  | none => exact Agree.pure _ trivial
  | some l =>
    dsimp only
    rw [loc_strtoul hL (cstr_ascii (ho l rfl).1)]
    obtain ⟨v, r, e⟩ := strtoul (cstr l.value)
    dsimp only
    have last : Agree (AsciiSt L) Always (setSig ({ · with bodySize := v, bodySizeLimit := true }))
      (setSig ({ · with bodySize := v, bodySizeLimit := true })) := Agree.setSig _ (fun _ => rfl) (fun _ => rfl)
    have h3 := Agree.ite (c := (!r.isEmpty) = true) (Agree.bind (Q := Always) (Agree.throw (.p .lGarbage)) (fun (_ : PUnit) _ => last)) last
    have h2 := Agree.ite (c := v ≥ 2 ^ 63) (Agree.bind (Q := Always) (Agree.throw (.p .lNegative)) (fun (_ : PUnit) _ => h3)) h3
    have h1 := Agree.bind (Agree.raiseErange e) (fun _ _ => Agree.bind (Agree.get (P := (AsciiSt L))) (fun st _ =>
      Agree.ite (c := st.erange = true) (Agree.bind (Q := Always) (Agree.throw (.p .lRange)) (fun (_ : PUnit) _ => h2)) h2))
    exact Agree.ite (c := l.value.length > 76) (Agree.bind (Q := Always) (Agree.throw (.p .lTooLong)) (fun (_ : PUnit) _ => h1)) h1

theorem agree_sigQ {L : Locale} : Agree (AsciiSt L) Always sigQ sigQ := by
  refine Agree.bind (Agree.sigTag _) (fun o ho => ?_)
  cases o with
  | none => exact Agree.pure _ trivial
  | some q => exact Agree.ite (Agree.throw _) (Agree.pure _ trivial)

theorem agree_sigS {L : Locale} : Agree (AsciiSt L) Always sigS sigS :=
  Agree.bind (Agree.needTag _ _) (fun _ _ => Agree.setSig _ (fun _ => rfl) (fun _ => rfl))

theorem agree_sigX {L : Locale} (hL : AsciiLocale L) (now : Int) : Agree (AsciiSt L) Always (Loc.sigX L now) (sigX now) := by
  refine Agree.bind (Agree.sigTag _) (fun o ho => ?_)
  cases o with
  | none => exact Agree.pure _ trivial
  | some x =>
    dsimp only
    rw [loc_strtol hL (cstr_ascii (ho x rfl).1)]
    obtain ⟨v, e⟩ := strtol (cstr x.value)
    refine Agree.bind (Agree.raiseErange _) (fun _ _ => ?_)
    exact Agree.ite (Agree.throw _) (Agree.pure _ trivial)

/-- `Signature::Parse` after the tag list. -/
theorem agree_rest {L : Locale} (hL : AsciiLocale L) (E : Env) (now : Int) {n : Bytes} (hn : SameIn L n) :
    Agree (AsciiSt L) Always
      (do Loc.sigArc L n; Loc.sigD L; sigV; sigA; Loc.sigB L E; Loc.sigBH L E; sigC; Loc.sigH L; Loc.sigI L; Loc.sigL L; sigQ; sigS; Loc.sigX L now)
      (do sigArc n; sigD; sigV; sigA; sigB E; sigBH E; sigC; sigH; sigI; sigL; sigQ; sigS; sigX now) :=
  Agree.bind (agree_sigArc hL hn) fun _ _ => Agree.bind (agree_sigD hL) fun _ _ => Agree.bind agree_sigV fun _ _ =>
  Agree.bind agree_sigA fun _ _ => Agree.bind (agree_sigB hL E) fun _ _ => Agree.bind (agree_sigBH hL E) fun _ _ =>
  Agree.bind agree_sigC fun _ _ => Agree.bind (agree_sigH hL) fun _ _ => Agree.bind (agree_sigI hL) fun _ _ =>
  Agree.bind (agree_sigL hL) fun _ _ => Agree.bind agree_sigQ fun _ _ => Agree.bind agree_sigS fun _ _ => agree_sigX hL now

theorem valByte_ascii {c : Byte} (h : IsValByte c ∨ Spec.isLoose c = true) : c < 128 := by
  rcases h with ⟨_, h, _⟩ | h
  · exact Nat.lt_of_le_of_lt (show c.toNat ≤ 126 from h) (by decide)
  · revert h
    exact byte_forall (p := fun c => Spec.isLoose c = true → c < 128) (by decide +kernel) c

theorem tagText_ascii {L : Locale} (hL : AsciiLocale L) {pos : Nat} {s : Bytes} {es : List (Bytes × TagEntry)} (h : TagText pos s es) : ∀ p ∈ es, SameIn L p.2.value := by
  induction h with
  | done pos s _ => intro p hp; cases hp
  | last pos i hi =>
    intro p hp
    rw [List.mem_singleton] at hp; subst hp
    obtain ⟨_, _, _, _, hv, _⟩ := hi
    exact same_ascii hL (fun c hc => valByte_ascii (hv.1 c hc))
  | cons pos i s es hi _ ih =>
    intro p hp
    rcases List.mem_cons.1 hp with rfl | hp
    · obtain ⟨_, _, _, _, hv, _⟩ := hi
      exact same_ascii hL (fun c hc => valByte_ascii (hv.1 c hc))
    · exact ih p hp

theorem loc_sigParse {L : Locale} (hL : AsciiLocale L) (E : Env) (now : Int) {h : Header} (hn : SameIn L h.name)
    (hi : SameIdentity L (h.header.drop h.valueOffset)) (er : Bool) :
    Loc.sigParse L E now h { erange := er } = Signature.parse E now h { erange := er } ∧
    ∀ st, Signature.parse E now h { erange := er } = .ok () st → ∀ n ∈ st.sig.headers, SameIn L n := by
  unfold Loc.sigParse Signature.parse
  rw [es_bind, es_bind]
  cases hr : sigTagList (h.header.drop h.valueOffset) { erange := er } with
  | error e st => exact ⟨rfl, fun st h => by rw [esBind_error] at h; cases h⟩
  | ok a st =>
    rw [esBind_ok, esBind_ok]
    have hst : (AsciiSt L) st := by
      unfold sigTagList at hr
      cases hp : TagList.parse (h.header.drop h.valueOffset) ([] : TagList) with
      | error e m => simp only [hp] at hr; cases hr
      | ok u m =>
        simp only [hp] at hr; cases hr
        obtain ⟨es, ht, hnd, _, hm⟩ := (C11_parse_iff _ _ _).1 hp
        rw [List.nil_append] at hm; subst hm
        refine ⟨fun n t hg => tagText_ascii hL ht _ (getTag_mem hg), fun t mail hg hq => ?_, fun n hn => by cases hn⟩
        exact hi _ t mail ht hnd (getTag_mem hg) ((C64_decode_iff _ _ _).1 hq)
    obtain ⟨h1, h2⟩ := agree_rest hL E now hn st hst
    exact ⟨h1, fun st' h => (h2 () st' h).1.headers⟩

/-! ## Parsing a key -/

/-- The tag values of the key record are ASCII. -/
def AsciiKey (L : Locale) {E : Env} (k : PublicKey E) : Prop := ∀ n t, k.tags.getTag n = some t → SameIn L t.value

theorem Agree.keyTag {L : Locale} {E : Env} (n : Bytes) :
    Agree (AsciiKey L (E := E)) (fun o => ∀ t, o = some t → SameIn L t.value) (keyTag n) (keyTag n) := by
  intro st h
  refine ⟨rfl, fun a st' e => ?_⟩
  unfold Dkim.keyTag at e
  rw [es_bind, es_get, esBind_ok, es_pure] at e
  cases e
  exact ⟨h, fun t ht => h n t ht⟩

theorem Agree.setKey {L : Locale} {E : Env} (f : PublicKey E → PublicKey E) (h1 : ∀ s, (f s).tags = s.tags) :
    Agree (AsciiKey L (E := E)) Always (_root_.modify f) (_root_.modify f) :=
  Agree.modify _ (fun st h => by unfold AsciiKey; rw [h1]; exact h)

theorem agree_keyP {L : Locale} (hL : AsciiLocale L) {E : Env} : Agree (AsciiKey L (E := E)) Always (Loc.keyP L) keyP := by
  refine Agree.bind (Agree.keyTag _) (fun o ho => ?_)
  cases o with
  | none => exact Agree.throw _
  | some p =>
    dsimp only
    rw [loc_stripSpace hL (ho p rfl)]
    generalize E.b64dec (stripSpace p.value) = dat
    have h1 : Agree (AsciiKey L (E := E)) Always (do
        match (← get).alg with
        | .rsa =>
          match E.d2iPubkey dat with
          | none => throw (.p .keyBadDER)
          | some none => throw (.p .keyNotRSA)
          | some (some key) => modify ({ · with rsa := some key })
        | .ed25519 =>
          if dat.length ≠ 32 then throw (.p .keyBadEd)
          modify ({ · with ed := dat })) (do
        match (← get).alg with
        | .rsa =>
          match E.d2iPubkey dat with
          | none => throw (.p .keyBadDER)
          | some none => throw (.p .keyNotRSA)
          | some (some key) => modify ({ · with rsa := some key })
        | .ed25519 =>
          if dat.length ≠ 32 then throw (.p .keyBadEd)
          modify ({ · with ed := dat })) := by
      refine Agree.bind Agree.get (fun st _ => ?_)
      cases st.alg with
      | rsa =>
        dsimp only
        cases E.d2iPubkey dat with
        | none => exact Agree.throw _
        | some x =>
          cases x with
          | none => exact Agree.throw _
          | some key => exact Agree.setKey _ (fun _ => rfl)
      | ed25519 =>
        exact Agree.ite (Agree.bind (Q := Always) (Agree.throw _) (fun (_ : PUnit) _ => Agree.setKey _ (fun _ => rfl)))
          (Agree.setKey _ (fun _ => rfl))
    exact Agree.ite (Agree.bind (Q := Always) (Agree.throw _) (fun (_ : PUnit) _ => h1)) h1

theorem keeps_keyV {L : Locale} {E : Env} : Agree (AsciiKey L (E := E)) Always keyV keyV := by
  refine Agree.bind (Agree.keyTag _) (fun o ho => ?_)
  cases o with
  | none => exact Agree.pure _ trivial
  | some v => exact Agree.ite (Agree.throw _) (Agree.pure _ trivial)

theorem keeps_keyH {L : Locale} {E : Env} : Agree (AsciiKey L (E := E)) Always keyH keyH := by
  refine Agree.bind (Agree.keyTag _) (fun o ho => ?_)
  cases o with
  | none => exact Agree.pure _ trivial
  | some h =>
    have h1 : Agree (AsciiKey L (E := E)) Always
      (do let algo ← liftE (valueList h.value); modify (fun k => { k with digests := k.digests ++ algo.filterMap digestOf }))
      (do let algo ← liftE (valueList h.value); modify (fun k => { k with digests := k.digests ++ algo.filterMap digestOf })) :=
      Agree.bind (Q := Always) (Agree.liftE _ (fun _ _ => trivial)) (fun _ _ => Agree.setKey _ (fun _ => rfl))
    exact Agree.ite (Agree.bind (Q := Always) (Agree.throw _) (fun (_ : PUnit) _ => h1)) h1

theorem keeps_keyK {L : Locale} {E : Env} : Agree (AsciiKey L (E := E)) Always keyK keyK := by
  refine Agree.bind (Agree.keyTag _) (fun o ho => ?_)
  cases o with
  | none => exact Agree.pure _ trivial
  | some v => exact Agree.ite (Agree.setKey _ (fun _ => rfl)) (Agree.ite (Agree.setKey _ (fun _ => rfl)) (Agree.throw _))

theorem loc_keyParse {L : Locale} (hL : AsciiLocale L) {E : Env} (txt : Bytes) :
    Loc.keyParse L txt ({} : PublicKey E) = PublicKey.parse txt ({} : PublicKey E) := by
  unfold Loc.keyParse PublicKey.parse
  rw [es_bind, es_bind]
  cases hr : keyTagList txt ({} : PublicKey E) with
  | error e st => rfl
  | ok a st =>
    rw [esBind_ok, esBind_ok]
    have hst : AsciiKey L st := by
      unfold keyTagList at hr
      cases hp : TagList.parse txt ([] : TagList) with
      | error e m => simp only [hp] at hr; cases hr
      | ok u m =>
        simp only [hp] at hr; cases hr
        obtain ⟨es, ht, _, _, hm⟩ := (C11_parse_iff _ _ _).1 hp
        rw [List.nil_append] at hm; subst hm
        exact fun n t hg => tagText_ascii hL ht _ (getTag_mem hg)
    have ag : Agree (AsciiKey L (E := E)) Always (do keyV; keyH; keyK; Loc.keyP L) (do keyV; keyH; keyK; keyP) :=
      Agree.bind keeps_keyV fun _ _ => Agree.bind keeps_keyH fun _ _ => Agree.bind keeps_keyK fun _ _ => agree_keyP hL
    have e := (ag st hst).1
    simp only [es_bind] at e ⊢
    cases h1 : keyV st with
    | error _ _ => rfl
    | ok _ s1 =>
      rw [h1] at e
      simp only [esBind_ok, es_bind] at e ⊢
      cases h2 : keyH s1 with
      | error _ _ => rfl
      | ok _ s2 =>
        rw [h2] at e
        simp only [esBind_ok, es_bind] at e ⊢
        cases h3 : keyK s2 with
        | error _ _ => rfl
        | ok _ s3 =>
          rw [h3] at e
          simp only [esBind_ok, es_bind] at e ⊢
          rw [e]

theorem loc_getPublicKey {L : Locale} (hL : AsciiLocale L) {E : Env} (resolver : Bytes → Bool × Bytes) (sig : Signature) :
    Loc.getPublicKey L resolver sig ({} : PublicKey E) = getPublicKey resolver sig ({} : PublicKey E) := by
  unfold Loc.getPublicKey getPublicKey
  obtain ⟨ok, txt⟩ := resolver (keyQuery sig)
  dsimp only
  split
  · split
    · rfl
    · exact loc_keyParse hL txt
  · rfl

/-! ## The fields hashed -/

/-- The parsed field has an ASCII name, in the text and in the object. -/
structure AsciiField (L : Locale) (h : Header) : Prop where
  text : SameName L h.header
  name : SameIn L h.name

theorem loc_fill {L : Locale} (hL : AsciiLocale L) {hs : List Header} (h : ∀ f ∈ hs, AsciiField L f) :
    Loc.fill L hs = HeaderCache.fill hs ∧ ∀ k, ∀ f ∈ HeaderCache.fill hs k, f ∈ hs := by
  unfold Loc.fill HeaderCache.fill
  have gen : ∀ (l : List Header) (c : HeaderCache), (∀ f ∈ l, f ∈ hs) → (∀ k, ∀ f ∈ c k, f ∈ hs) →
      l.foldl (fun c h => HeaderCache.put c (Loc.lower L h.name) (c (Loc.lower L h.name) ++ [h])) c =
        l.foldl (fun c h => HeaderCache.put c (lower h.name) (c (lower h.name) ++ [h])) c ∧
      ∀ k, ∀ f ∈ l.foldl (fun c h => HeaderCache.put c (lower h.name) (c (lower h.name) ++ [h])) c k, f ∈ hs := by
    intro l
    induction l with
    | nil => exact fun c _ hc => ⟨rfl, hc⟩
    | cons x l ih =>
      intro c hl hc
      simp only [List.foldl_cons]
      rw [loc_lower hL (h x (hl x (by simp))).name]
      refine ih _ (fun f hf => hl f (by simp [hf])) ?_
      intro k f hf
      unfold HeaderCache.put at hf
      split at hf
      · rcases List.mem_append.1 hf with hf | hf
        · exact hc _ f hf
        · rw [List.mem_singleton] at hf; subst hf; exact hl f (by simp)
      · exact hc _ f hf
  exact gen hs _ (fun _ h => h) (fun _ f hf => by cases hf)

theorem loc_headLoop {L : Locale} (hL : AsciiLocale L) (mode : CanonMode) : ∀ (names : List Bytes) (cache : HeaderCache),
    (∀ n ∈ names, SameIn L n) → (∀ k, ∀ f ∈ cache k, AsciiField L f) →
    Loc.headLoop L mode cache names = headLoop mode cache names
  | [], _, _, _ => rfl
  | name :: names, cache, hn, hc => by
    unfold Loc.headLoop headLoop
    rw [loc_lower hL (hn name (by simp))]
    dsimp only
    cases hl : (cache (lower name)).getLast? with
    | none => exact loc_headLoop hL mode names cache (fun n h => hn n (by simp [h])) hc
    | some f =>
      have hf : AsciiField L f := hc _ f (List.mem_of_getLast? hl)
      dsimp only
      rw [loc_filterHeader hL mode hf.text, loc_headLoop hL mode names _ (fun n h => hn n (by simp [h]))]
      · rfl
      · intro k g hg
        unfold HeaderCache.put at hg
        split at hg
        · exact hc _ g ((List.dropLast_sublist _).subset hg)
        · exact hc _ g hg

/-- The signature field without its b= value has the name it had. -/
theorem stripB_name {L : Locale} {h : Header} {sig : Signature} {t : Bytes} (hs : stripB h sig = .ok t) (hf : SameName L h.header)
    (h1 : COLON ∈ h.header → h.header = fieldName h.header ++ COLON :: h.header.drop h.valueOffset ∧ h.valueOffset ≠ 0)
    (h0 : COLON ∉ h.header → h.valueOffset = 0) : SameName L t := by
  unfold stripB at hs
  cases hb : sig.tags.getTag b!"b" with
  | none => simp only [hb] at hs; cases hs
  | some b =>
    simp only [hb] at hs
    cases ho : offsetToSize b.offset with
    | none => simp only [ho] at hs; cases hs
    | some off =>
      simp only [ho] at hs
      split at hs
      · cases hs
      · cases hs
        by_cases hc : COLON ∈ h.header
        · obtain ⟨e, _⟩ := h1 hc
          have et : h.header.take h.valueOffset = fieldName h.header ++ [COLON] := by
            have e2 : h.header.take h.valueOffset ++ h.header.drop h.valueOffset =
              (fieldName h.header ++ [COLON]) ++ h.header.drop h.valueOffset := by
              rw [List.take_append_drop]
              simpa using e
            exact List.append_cancel_right e2
          intro _
          rw [et, List.append_assoc, List.singleton_append]
          have hno : COLON ∉ fieldName h.header := by
            unfold fieldName
            intro hm
            have := mem_takeWhile hm
            simp at this
          rw [(fieldName_append hno).1]
          exact hf hc
        · intro hm
          exfalso
          rw [h0 hc] at hm
          simp only [List.take_zero, List.nil_append, List.drop_zero] at hm
          unfold eraseAt at hm
          rcases List.mem_append.1 hm with hm | hm
          · exact hc (List.mem_of_mem_take hm)
          · exact hc (List.mem_of_mem_drop hm)

/-- What `Validatory` and `Signatory` rely on in a parsed field. -/
structure FieldOk (L : Locale) (h : Header) : Prop where
  ascii : AsciiField L h
  some : COLON ∈ h.header → h.header = fieldName h.header ++ COLON :: h.header.drop h.valueOffset ∧ h.valueOffset ≠ 0
  none : COLON ∉ h.header → h.valueOffset = 0

theorem loc_headerHashInput {L : Locale} (hL : AsciiLocale L) {msg : Message} (hm : ∀ f ∈ msg.headers, AsciiField L f)
    {h : Header} (hh : FieldOk L h) {sig : Signature} (hs : ∀ n ∈ sig.headers, SameIn L n) :
    Loc.headerHashInput L msg h sig = headerHashInput msg h sig := by
  unfold Loc.headerHashInput headerHashInput
  obtain ⟨e, hc⟩ := loc_fill hL hm
  rw [e, loc_headLoop hL _ _ _ hs (fun k f hf => hm f (hc k f hf))]
  cases headLoop sig.canonHeader (HeaderCache.fill msg.headers) sig.headers with
  | error e => rfl
  | ok a =>
    cases hb : stripB h sig with
    | error e => rfl
    | ok t =>
      dsimp only
      rw [loc_filterHeader hL _ (stripB_name hb hh.ascii.text hh.some hh.none)]
      rfl

theorem loc_verifyOne {L : Locale} (hL : AsciiLocale L) (E : Env) (now : Int) (resolver : Bytes → Bool × Bytes) {v : Validatory}
    (hm : ∀ f ∈ v.msg.headers, AsciiField L f) {h : Header} (hh : FieldOk L h) (hi : SameIdentity L (h.header.drop h.valueOffset))
    (er : Bool) : Loc.verifyOne L E now resolver v h er = v.verifyOne E now resolver h er := by
  obtain ⟨e1, e2⟩ := loc_sigParse hL E now hh.ascii.name hi er
  have eg : Loc.getSignature L E now v h { erange := er } = v.getSignature E now h { erange := er } := by
    unfold Loc.getSignature Validatory.getSignature
    rw [e1]
    rfl
  unfold Loc.verifyOne Validatory.verifyOne
  rw [eg]
  unfold Validatory.getSignature
  cases hp : Signature.parse E now h { erange := er } with
  | error e st => rfl
  | ok u st =>
    dsimp only
    have hmsg : (v.checkBodyHash E st.sig).2.msg = v.msg := by
      unfold Validatory.checkBodyHash
      split
      · rfl
      · dsimp only; split <;> rfl
    cases hb : v.checkBodyHash E st.sig with
    | mk r v' =>
      rw [hb] at hmsg
      cases r with
      | error e => rfl
      | ok u2 =>
        dsimp only at hmsg ⊢
        rw [loc_getPublicKey hL]
        cases getPublicKey resolver st.sig ({} : PublicKey E) with
        | error e pub => rfl
        | ok u3 pub =>
          dsimp only
          have : Loc.checkSignature L E v'.msg h st.sig pub = checkSignature E v'.msg h st.sig pub := by
            unfold Loc.checkSignature checkSignature
            rw [loc_headerHashInput hL (by rw [hmsg]; exact hm) hh (e2 st hp)]
            rfl
          rw [this]

/-! ## Signing -/

theorem loc_isSelected {L : Locale} (hL : AsciiLocale L) {sel : List Bytes} (hs : ∀ n ∈ sel, SameIn L n) {h : Header} (hh : AsciiField L h) :
    Loc.isSelected L sel h = isSelected sel h := by
  unfold Loc.isSelected isSelected
  rw [loc_lower hL hh.name, List.map_congr_left (fun n hn => loc_lower hL (hs n hn))]

theorem loc_signLoop {L : Locale} (hL : AsciiLocale L) (mode : CanonMode) {sel : List Bytes} (hs : ∀ n ∈ sel, SameIn L n) :
    ∀ l : List Header, (∀ f ∈ l, AsciiField L f) → Loc.signLoop L mode sel l = signLoop mode sel l
  | [], _ => rfl
  | h :: l, hl => by
    have ih := loc_signLoop hL mode hs l (fun f hf => hl f (by simp [hf]))
    have hh := hl h (by simp)
    unfold Loc.signLoop signLoop
    rw [loc_isSelected hL hs hh, loc_filterHeader hL mode hh.text, ih, loc_lower hL hh.name]
    rfl

theorem text_ascii {L : Locale} (hL : AsciiLocale L) {E : Env} {o : Options E} {s : SigOpts E} {now : Int} {names : List Bytes} {bh t : Bytes}
    (h : sigHeaderText o s now names bh = .ok t) : SameName L t := by
  unfold sigHeaderText at h
  cases ht : sigTimes o now with
  | error e => simp only [ht] at h; cases h
  | ok times =>
    simp only [ht] at h
    cases h
    intro _
    unfold sigPrefix
    split
    · have e : ∀ r : Bytes, fieldName (b!"ARC-Message-Signature: i=" ++ r) = b!"ARC-Message-Signature" := fun r =>
        (fieldName_append (n := b!"ARC-Message-Signature") (v := b!" i=" ++ r) (by decide)).1
      rw [List.append_assoc, List.append_assoc, List.append_assoc, List.append_assoc, List.append_assoc, List.append_assoc,
        List.append_assoc, List.append_assoc, List.append_assoc, List.append_assoc, List.append_assoc, List.append_assoc,
        List.append_assoc, List.append_assoc, List.append_assoc, e]
      exact same_ascii hL (by unfold Ascii; decide)
    · have e : ∀ r : Bytes, fieldName (b!"DKIM-Signature: v=1; a=" ++ r) = b!"DKIM-Signature" := fun r =>
        (fieldName_append (n := b!"DKIM-Signature") (v := b!" v=1; a=" ++ r) (by decide)).1
      rw [List.append_assoc, List.append_assoc, List.append_assoc, List.append_assoc, List.append_assoc, List.append_assoc,
        List.append_assoc, List.append_assoc, List.append_assoc, List.append_assoc, List.append_assoc, List.append_assoc,
        List.append_assoc, e]
      exact same_ascii hL (by unfold Ascii; decide)

theorem loc_oneSignature {L : Locale} (hL : AsciiLocale L) (E : Env) (o : Options E) (s : SigOpts E) (now : Int) (hashed : Bytes)
    (names : List Bytes) (bh : Bytes) : Loc.oneSignature L E o s now hashed names bh = oneSignature E o s now hashed names bh := by
  unfold Loc.oneSignature oneSignature
  cases ht : sigHeaderText o s now names bh with
  | error e => rfl
  | ok t =>
    dsimp only
    rw [loc_filterHeader hL _ (text_ascii hL ht)]
    rfl

theorem loc_allSignatures {L : Locale} (hL : AsciiLocale L) (E : Env) (o : Options E) (clock : Nat → Int) (hashed : Bytes)
    (names : List Bytes) (bh : Bytes) : ∀ (ss : List (SigOpts E)) (k : Nat) (acc : Bytes),
    Loc.allSignatures L E o clock hashed names bh k acc ss = allSignatures E o clock hashed names bh k acc ss
  | [], _, _ => rfl
  | s :: ss, k, acc => by
    unfold Loc.allSignatures allSignatures
    rw [loc_oneSignature hL]
    cases oneSignature E o s (clock k) hashed names bh with
    | error e => rfl
    | ok h => exact loc_allSignatures hL E o clock hashed names bh ss _ _

theorem loc_createSignature {L : Locale} (hL : AsciiLocale L) (E : Env) (o : Options E) (clock : Nat → Int) (sg : Signatory)
    (hs : ∀ n ∈ o.headers, SameIn L n) (ho : ∀ n ∈ o.oversign, SameIn L n)
    (hm : ∀ m s, sg.msg.parseAll sg.file = .ok (m, s) → ∀ f ∈ m.headers, AsciiField L f) :
    Loc.createSignature L E o clock sg = sg.createSignature E o clock := by
  unfold Loc.createSignature Signatory.createSignature
  cases hp : sg.msg.parseAll sg.file with
  | error e => rfl
  | ok r =>
    obtain ⟨msg, s1⟩ := r
    dsimp only
    cases canonBody s1 o.canonBody msg.bodyOffset o.bodySignLength o.bodyLength with
    | error e => rfl
    | ok r =>
      obtain ⟨⟨calls, ok⟩, s2⟩ := r
      dsimp only
      rw [loc_signLoop hL _ hs _ (fun f hf => hm msg s1 hp f (by simpa using hf)),
        List.map_congr_left (fun n hn => loc_lower hL (ho n hn))]
      split
      · rfl
      · cases signLoop o.canonHead o.headers msg.headers.reverse with
        | error e => rfl
        | ok r =>
          obtain ⟨a, b⟩ := r
          dsimp only
          rw [loc_allSignatures hL]

/-! ## The property -/

theorem fieldOk {L : Locale} {d : Bytes} (hd : SameNames L d) {m : Message} {s' : IStream}
    (h : Message.parseAll {} (freshStream d) = .ok (m, s')) : ∀ f ∈ m.headers, FieldOk L f := by
  intro f hf
  obtain ⟨_, _, h1, h0, _⟩ := C22_fields d m s' h f hf
  have ht : SameName L f.header := by
    obtain ⟨m2, s2, ls, e1, e2, e3, _⟩ := C20_parse d
    rw [e1] at h
    cases h
    rw [e3] at hf
    obtain ⟨g, hg, rfl⟩ := List.mem_map.1 hf
    rw [mkField_header]
    exact hd ls _ e2 g hg
  refine ⟨⟨ht, ?_⟩, fun hc => (h1 hc).2, fun hc => (h0 hc).2⟩
  by_cases hc : COLON ∈ f.header
  · rw [(h1 hc).1]
    refine (ht hc).sub (fun c hc' => ?_)
    unfold trimWSP at hc'
    rw [List.mem_reverse] at hc'
    have := (List.dropWhile_sublist _).subset hc'
    rw [List.mem_reverse] at this
    exact (List.dropWhile_sublist _).subset this
  · rw [(h0 hc).1]; exact fun c hc => by cases hc

/-- C92 (verification, the fields found): the signature fields found do not depend on the locale, if it treats ASCII
bytes and the bytes in the field names as the "C" locale does. Missing: other locales. -/
theorem C92_found_partial (L : Locale) (hL : AsciiLocale L) (d : Bytes) (hd : SameNames L d) (type : ValidatorType) :
    Loc.validatory L (freshStream d) type = Validatory.mk' (freshStream d) type := by
  unfold Loc.validatory Validatory.mk'
  cases hp : Message.parseAll {} (freshStream d) with
  | error e => rfl
  | ok r =>
    obtain ⟨m, s'⟩ := r
    have hm := fieldOk hd hp
    have : m.headers.filter (Loc.isSigHeader L type) = m.headers.filter (isSigHeader type) := by
      apply List.filter_congr
      intro f hf
      unfold Loc.isSigHeader isSigHeader
      rw [loc_lower hL (hm f hf).ascii.name]
      rfl
    dsimp only
    rw [this]

/-- C92 (verification, the verdict): what verifying a signature of the message gives (result, exception, the objects
filled) does not depend on the locale, if it treats ASCII bytes and the bytes in the field names and in the identity
(i=) as the "C" locale does. Missing: other locales. -/
theorem C92_verdict_partial (L : Locale) (hL : AsciiLocale L) (E : Env) (now : Int) (resolver : Bytes → Bool × Bytes) (d : Bytes)
    (hd : SameNames L d) (type : ValidatorType) (v : Validatory) (hv : Validatory.mk' (freshStream d) type = .ok v)
    (f : Header) (hf : f ∈ v.sigs) (hi : SameIdentity L (f.header.drop f.valueOffset)) (erange : Bool) :
    Loc.verifyOne L E now resolver v f erange = v.verifyOne E now resolver f erange := by
  obtain ⟨_, s', hp, _⟩ := mk'_built d type v hv
  have hm := fieldOk hd hp
  have hfm : f ∈ v.msg.headers := by
    unfold Validatory.mk' at hv
    rw [hp] at hv
    injection hv with hv
    rw [← hv] at hf
    exact (List.mem_filter.1 hf).1
  exact loc_verifyOne hL E now resolver (fun f hf => (hm f hf).ascii) (hm f hfm) hi erange

/-- C92 (signing): the signature made does not depend on the locale, if it treats ASCII bytes and the bytes in the
field names and in the lists of names in the options as the "C" locale does. Missing: other locales. -/
theorem C92_sign_partial (L : Locale) (hL : AsciiLocale L) (E : Env) (o : Options E) (clock : Nat → Int) (d : Bytes) (hd : SameNames L d)
    (hs : ∀ n ∈ o.headers, SameIn L n) (ho : ∀ n ∈ o.oversign, SameIn L n) :
    Loc.createSignature L E o clock { file := freshStream d } = Signatory.createSignature E o clock { file := freshStream d } :=
  loc_createSignature hL E o clock _ hs ho (fun _ _ h f hf => (fieldOk hd h f hf).ascii)

/-- C92: a locale that treats all bytes as the "C" locale does (as the UTF-8 locales of most languages) changes nothing,
whatever the message. -/
theorem C92_utf8 (L : Locale) (hl : ∀ c, L.lower c = Spec.toLower c) (hs : ∀ c, L.space c = Spec.isSpace c) (E : Env)
    (d : Bytes) (type : ValidatorType) :
    Loc.validatory L (freshStream d) type = Validatory.mk' (freshStream d) type ∧
    (∀ v now resolver erange, Validatory.mk' (freshStream d) type = .ok v → ∀ f ∈ v.sigs,
      Loc.verifyOne L E now resolver v f erange = v.verifyOne E now resolver f erange) ∧
    (∀ o clock, Loc.createSignature L E o clock { file := freshStream d } =
      Signatory.createSignature E o clock { file := freshStream d }) := by
  have hL : AsciiLocale L := ⟨fun c _ => hl c, fun c _ => hs c⟩
  have all : ∀ s, SameIn L s := fun s c _ => ⟨hl c, hs c⟩
  have hd : SameNames L d := fun _ _ _ _ _ _ => all _
  exact ⟨C92_found_partial L hL d hd type,
    fun v now resolver er hv f hf => C92_verdict_partial L hL E now resolver d hd type v hv f hf (fun _ _ _ _ _ _ _ => all _) er,
    fun o clock => C92_sign_partial L hL E o clock d hd (fun _ _ => all _) (fun _ _ => all _)⟩

/-! ## Cases -/

/-- ISO 8859-1: the letters from 192 on have a lower case. -/
def Samples.latin1 : Locale :=
  { lower := fun c => if (65 ≤ c ∧ c ≤ 90) ∨ (192 ≤ c ∧ c ≤ 222 ∧ c ≠ 215) then c + 32 else c, space := Dkim.isSpace }

/-- Turkish, UTF-8: the lower case of `I` is not a byte, so `tolower` leaves it as it is. -/
def Samples.turkish : Locale := { lower := fun c => if c = 73 then c else Dkim.toLower c, space := Dkim.isSpace }

/-- The signed sample message with a field whose body has bytes from 128 on, and a signature with an identity. -/
def Samples.eight : Bytes :=
  b!"Subject: " ++ [0xC4, 0xD6] ++ CRLF ++ Samples.signed { Samples.rsaOpts with identity := b!"a@d.e" } Samples.message

theorem sameNames_of {L : Locale} {d : Bytes} {type : ValidatorType} {v : Validatory} (hv : Validatory.mk' (freshStream d) type = .ok v)
    (h : ∀ f ∈ v.msg.headers, SameName L f.header) : SameNames L d := by
  intro ls off hd g hg
  have e := (headText_msg hv hd).1
  have := h (mkField g) (by rw [e]; exact List.mem_map_of_mem hg)
  rwa [mkField_header] at this

theorem sameIdentity_of {L : Locale} {s : Bytes} {es : TagList} (hp : TagList.parse s [] = .ok () es)
    (h : ∀ p ∈ es, p.1 = b!"i" → ∀ m, qpDecode p.2.value = .ok m → SameIn L m) : SameIdentity L s := by
  intro es' e mail ht hnd hm hq
  have hp' := (C11_parse_iff s [] es').2 ⟨es', ht, hnd, fun _ _ h => (by cases h), rfl⟩
  rw [hp] at hp'
  cases hp'
  exact h _ hm rfl mail ((C64_decode_iff _ _ _).2 hq)

/-- What the sample message gives in the two verifications. -/
def Samples.found (L : Locale) (d : Bytes) : Option Nat :=
  match Loc.validatory L (freshStream d) .dkim with
  | .error _ => none
  | .ok v => some v.sigs.length

/-- Latin-1 meets the conditions with the sample. -/
example : AsciiLocale Samples.latin1 ∧ Samples.latin1.lower 0xC4 = 0xE4 := by
  refine ⟨⟨?_, ?_⟩, by decide⟩
  · exact byte_forall (p := fun c => c < 128 → Samples.latin1.lower c = Spec.toLower c) (by decide +kernel)
  · exact byte_forall (p := fun c => c < 128 → Samples.latin1.space c = Spec.isSpace c) (by decide +kernel)

example : ∃ v, Validatory.mk' (freshStream Samples.eight) .dkim = .ok v ∧ v.sigs.length = 1 ∧ SameNames Samples.latin1 Samples.eight ∧
    (∀ f ∈ v.sigs, SameIdentity Samples.latin1 (f.header.drop f.valueOffset)) ∧
    ∀ f ∈ v.sigs, (v.verifyOne toyEnv 0 (fun _ => (true, Samples.rsaRec)) f false).1 = .ok () := by
  have hv : ∃ v, Validatory.mk' (freshStream Samples.eight) .dkim = .ok v := by
    cases h : Validatory.mk' (freshStream Samples.eight) .dkim with
    | ok v => exact ⟨v, rfl⟩
    | error e =>
      have : (match Validatory.mk' (freshStream Samples.eight) .dkim with | .ok _ => true | .error _ => false) = true := by decide +kernel
      rw [h] at this; cases this
  obtain ⟨v, hv⟩ := hv
  have key : ∀ P : Validatory → Bool, (match Validatory.mk' (freshStream Samples.eight) .dkim with | .ok v => P v | .error _ => false) = true → P v = true := by
    intro P h; rw [hv] at h; exact h
  refine ⟨v, hv, ?_, ?_, ?_, ?_⟩
  · simpa using key (fun v => v.sigs.length == 1) (by decide +kernel)
  · refine sameNames_of hv (fun f hf _ c hc => ?_)
    have := key (fun v => v.msg.headers.all fun f => (fieldName f.header).all fun c =>
      Samples.latin1.lower c == Spec.toLower c && Samples.latin1.space c == Spec.isSpace c) (by decide +kernel)
    rw [List.all_eq_true] at this
    have := this f hf
    rw [List.all_eq_true] at this
    simpa using this c hc
  · intro f hf
    have := key (fun v => v.sigs.all fun f => match TagList.parse (f.header.drop f.valueOffset) [] with
      | .error _ _ => false
      | .ok _ es => es.all fun p => p.1 != b!"i" || match qpDecode p.2.value with
        | .error _ => true
        | .ok m => m.all fun c => Samples.latin1.lower c == Spec.toLower c && Samples.latin1.space c == Spec.isSpace c) (by decide +kernel)
    rw [List.all_eq_true] at this
    have h1 := this f hf
    cases hp : TagList.parse (f.header.drop f.valueOffset) [] with
    | error e m => rw [hp] at h1; cases h1
    | ok u es =>
      rw [hp] at h1
      simp only [List.all_eq_true] at h1
      refine sameIdentity_of hp (fun p hpm hi m hq c hc => ?_)
      have h2 := h1 p hpm
      rw [hq, hi] at h2
      simp only [bne_self_eq_false, Bool.false_or, List.all_eq_true] at h2
      simpa using h2 c hc
  · intro f hf
    have := key (fun v => v.sigs.all fun f => decide ((v.verifyOne toyEnv 0 (fun _ => (true, Samples.rsaRec)) f false).1 = .ok ())) (by decide +kernel)
    rw [List.all_eq_true] at this
    simpa using this f hf

/-- C92 is false for the other locales: in a program that has chosen a Turkish locale, the signature of the signed
sample message is not found (it looks unsigned), and a signature made with relaxed canonicalization is one that
verifiers reject. -/
theorem C92_turkish_witness :
    (Samples.found Locale.c (Samples.signed Samples.rsaOpts Samples.message) = some 1 ∧
      Samples.found Samples.turkish (Samples.signed Samples.rsaOpts Samples.message) = some 0) ∧
    (Samples.verify Samples.rsaRec (Samples.signed Samples.rsaOpts Samples.message) = some (.ok ()) ∧
      ∃ t, (Loc.createSignature Samples.turkish toyEnv Samples.rsaOpts (fun _ => 0) { file := freshStream Samples.message }).1 = .ok t ∧
        Samples.verify Samples.rsaRec (t ++ CRLF ++ Samples.message) = some (.error (.perm .sigMismatch .fail))) := by
  refine ⟨⟨by decide +kernel, by decide +kernel⟩, by decide +kernel, ?_⟩
  cases h : (Loc.createSignature Samples.turkish toyEnv Samples.rsaOpts (fun _ => 0) { file := freshStream Samples.message }).1 with
  | error e =>
    have : (match (Loc.createSignature Samples.turkish toyEnv Samples.rsaOpts (fun _ => 0) { file := freshStream Samples.message }).1 with
      | .ok _ => true | .error _ => false) = true := by decide +kernel
    rw [h] at this; cases this
  | ok t =>
    refine ⟨t, rfl, ?_⟩
    have : (match (Loc.createSignature Samples.turkish toyEnv Samples.rsaOpts (fun _ => 0) { file := freshStream Samples.message }).1 with
      | .ok t => decide (Samples.verify Samples.rsaRec (t ++ CRLF ++ Samples.message) = some (.error (.perm .sigMismatch .fail)))
      | .error _ => false) = true := by decide +kernel
    rw [h] at this
    simpa using this

end Dkim
