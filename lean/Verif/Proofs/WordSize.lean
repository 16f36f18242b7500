import Verif.Model.WordSize
import Verif.Spec.WordSize
import Verif.Proofs.SignatureParse
/-!
# Proofs: the size of `long`
-/

namespace Dkim
open Spec

/-- Everything `Signature::Parse` does before it reads a number. -/
def parseFront (E : Env) (h : Header) : SigM Unit := do
  sigTagList (h.header.drop h.valueOffset)
  sigArc h.name
  sigD
  sigV
  sigA
  sigB E
  sigBH E
  sigC
  sigH

theorem front_ok (E : Env) (h : Header) (e0 : Bool) (st : SigSt) (hp : parseFront E h { erange := e0 } = .ok () st) :
    ∃ es, TagText 0 (valueText h) es ∧ (es.map Prod.fst).Nodup ∧ st.sig.tags = es ∧ st.erange = e0 ∧ st.sig.arc = isArcName h.name ∧
      st.sig.bodySize = 0 ∧ st.sig.bodySizeLimit = false := by
  unfold parseFront at hp
  simp only [es_bind_ok] at hp
  obtain ⟨_, s1, h1, _, s2, h2, _, s3, h3, _, s4, h4, _, s5, h5, _, s6, h6, _, s7, h7, _, s8, h8, h9⟩ := hp
  obtain ⟨es, hp, rfl⟩ := (sigTagList_ok _ _ _).1 h1
  obtain ⟨es', ht, hnd, _, hes⟩ := (C11_parse_iff _ _ _).1 hp
  have : es = es' := by simpa using hes
  subst this
  rw [sigArc_eq, EStateM.Result.ok.injEq] at h2
  obtain ⟨_, rfl⟩ := h2
  obtain ⟨d, hd, rfl⟩ := (sigD_ok _ _).1 h3
  obtain ⟨rfl, hv⟩ := (sigV_ok _ _).1 h4
  obtain ⟨a, sa, da, ha, hat, rfl⟩ := (sigA_ok _ _).1 h5
  obtain ⟨b, hb, hbne, rfl⟩ := (sigB_ok _ _ _).1 h6
  obtain ⟨bh, hbh, rfl⟩ := (sigBH_ok _ _ _).1 h7
  obtain ⟨m, n, hc, rfl⟩ := (sigC_ok _ _ rfl rfl).1 h8
  obtain ⟨hh, hs, hht, hvl, hfrom, rfl⟩ := (sigH_ok _ _).1 h9
  exact ⟨es, ht, hnd, rfl, rfl, Bool.false_or _, rfl, rfl⟩

theorem parse_chain (E : Env) (now : Int) (h : Header) (st st' : SigSt) :
    Signature.parse E now h st = .ok () st' ↔ ∃ s9 s10 s11 s12 s13, parseFront E h st = .ok () s9 ∧ sigI s9 = .ok () s10 ∧
      sigL s10 = .ok () s11 ∧ sigQ s11 = .ok () s12 ∧ sigS s12 = .ok () s13 ∧ sigX now s13 = .ok () st' := by
  unfold Signature.parse parseFront
  simp only [es_bind_ok]
  constructor
  · rintro ⟨_, s1, h1, _, s2, h2, _, s3, h3, _, s4, h4, _, s5, h5, _, s6, h6, _, s7, h7, _, s8, h8, _, s9, h9,
      _, s10, h10, _, s11, h11, _, s12, h12, _, s13, h13, h14⟩
    exact ⟨s9, s10, s11, s12, s13, ⟨_, s1, h1, _, s2, h2, _, s3, h3, _, s4, h4, _, s5, h5, _, s6, h6, _, s7, h7, _, s8, h8, h9⟩,
      h10, h11, h12, h13, h14⟩
  · rintro ⟨s9, s10, s11, s12, s13, ⟨_, s1, h1, _, s2, h2, _, s3, h3, _, s4, h4, _, s5, h5, _, s6, h6, _, s7, h7, _, s8, h8, h9⟩,
      h10, h11, h12, h13, h14⟩
    exact ⟨_, s1, h1, _, s2, h2, _, s3, h3, _, s4, h4, _, s5, h5, _, s6, h6, _, s7, h7, _, s8, h8, _, s9, h9,
      _, s10, h10, _, s11, h11, _, s12, h12, _, s13, h13, h14⟩

theorem word_parse_chain (w : Nat) (E : Env) (now : Int) (h : Header) (st st' : SigSt) :
    Word.parse w E now h st = .ok () st' ↔ ∃ s9 s10 s11 s12 s13, parseFront E h st = .ok () s9 ∧ Word.sigI w s9 = .ok () s10 ∧
      Word.sigL w s10 = .ok () s11 ∧ sigQ s11 = .ok () s12 ∧ sigS s12 = .ok () s13 ∧ Word.sigX w now s13 = .ok () st' := by
  unfold Word.parse parseFront
  simp only [es_bind_ok]
  constructor
  · rintro ⟨_, s1, h1, _, s2, h2, _, s3, h3, _, s4, h4, _, s5, h5, _, s6, h6, _, s7, h7, _, s8, h8, _, s9, h9,
      _, s10, h10, _, s11, h11, _, s12, h12, _, s13, h13, h14⟩
    exact ⟨s9, s10, s11, s12, s13, ⟨_, s1, h1, _, s2, h2, _, s3, h3, _, s4, h4, _, s5, h5, _, s6, h6, _, s7, h7, _, s8, h8, h9⟩,
      h10, h11, h12, h13, h14⟩
  · rintro ⟨s9, s10, s11, s12, s13, ⟨_, s1, h1, _, s2, h2, _, s3, h3, _, s4, h4, _, s5, h5, _, s6, h6, _, s7, h7, _, s8, h8, h9⟩,
      h10, h11, h12, h13, h14⟩
    exact ⟨_, s1, h1, _, s2, h2, _, s3, h3, _, s4, h4, _, s5, h5, _, s6, h6, _, s7, h7, _, s8, h8, _, s9, h9,
      _, s10, h10, _, s11, h11, _, s12, h12, _, s13, h13, h14⟩

/-- A `w`-bit number that is not negative. -/
theorem strtoul_plus (w : Nat) (v : Bytes) (h : ∀ m rest, Number v true m rest → m = 0) :
    (scanNum v = none ∧ Word.strtoul w v = (0, v, false)) ∨
    ∃ neg m rest, scanNum v = some (neg, m, rest) ∧ (Number v false m rest ∨ m = 0) ∧
      Word.strtoul w v = if m ≥ 2 ^ w then (2 ^ w - 1, rest, true) else (m, rest, false) := by
  unfold Word.strtoul
  cases hs : scanNum v with
  | none => exact .inl ⟨rfl, rfl⟩
  | some p =>
    obtain ⟨neg, m, rest⟩ := p
    have hn := scanNum_iff.1 hs
    cases neg with
    | true =>
      obtain rfl := h m rest hn
      exact .inr ⟨true, 0, rest, rfl, .inr rfl, by simp⟩
    | false => exact .inr ⟨false, m, rest, rfl, .inl hn, by simp⟩

theorem strtoul_64 (v : Bytes) : Dkim.strtoul v = Word.strtoul 64 v := rfl
theorem strtol_64 (v : Bytes) : Dkim.strtol v = Word.strtol 64 v := rfl

theorem two_pow_le {w : Nat} (h : 32 ≤ w) (h2 : w ≤ 64) : 2 ^ 32 ≤ 2 ^ w ∧ 2 ^ w ≤ 2 ^ 64 ∧ 2 ^ 31 ≤ 2 ^ (w - 1) ∧
    2 ^ (w - 1) ≤ 2 ^ 63 ∧ 2 ^ w = 2 * 2 ^ (w - 1) :=
  ⟨Nat.pow_le_pow_right (by decide) h, Nat.pow_le_pow_right (by decide) h2, Nat.pow_le_pow_right (by decide) (by omega),
   Nat.pow_le_pow_right (by decide) (by omega), by
    obtain ⟨k, rfl⟩ : ∃ k, w = k + 1 := ⟨w - 1, by omega⟩
    rw [Nat.pow_succ, Nat.add_sub_cancel]; omega⟩

theorem word_sigIArc_ok (w : Nat) (st st' : SigSt) : Word.sigIArc w st = .ok () st' ↔ ∃ i, st.sig.tags.getTag b!"i" = some i ∧
    1 ≤ (Word.strtoul w (cstr i.value)).1 ∧ (Word.strtoul w (cstr i.value)).1 ≤ 50 ∧
    st' = { erange := st.erange || (Word.strtoul w (cstr i.value)).2.2,
            sig := { st.sig with arcInstance := (Word.strtoul w (cstr i.value)).1 } } := by
  unfold Word.sigIArc
  simp only [es_bind_ok, needTag_ok, raiseErange, modify_ok, setSig_ok]
  constructor
  · rintro ⟨a, s1, ⟨h, rfl⟩, u, s2, rfl, u', s3, rfl, h3⟩
    split at h3
    · simp [throw_ok] at h3
    · simp only [pure_ok, true_and] at h3
      exact ⟨a, h, by omega, by omega, h3⟩
  · rintro ⟨a, h, h1, h2, rfl⟩
    refine ⟨a, st, ⟨h, rfl⟩, (), _, rfl, (), _, rfl, ?_⟩
    rw [if_neg (by omega)]
    simp [pure_ok]

theorem word_sigI (w : Nat) (h32 : 32 ≤ w) (h64 : w ≤ 64) (st st' : SigSt)
    (hc : ∀ t, st.sig.tags.getTag b!"i" = some t → cstr t.value = t.value)
    (hm : st.sig.arc = true → ∀ v, tagVal st.sig.tags b!"i" = some v → ∀ m rest, Number v true m rest → m = 0) :
    Word.sigI w st = .ok () st' ↔ sigI st = .ok () st' := by
  obtain ⟨p1, p2, p3, p4, p5⟩ := two_pow_le h32 h64
  rw [sigI_eq]
  unfold Word.sigI
  rw [es_bind, es_get, esBind_ok]
  cases ha : st.sig.arc with
  | false => simp
  | true =>
    simp only [if_true]
    rw [word_sigIArc_ok w, show sigIArc st = Word.sigIArc 64 st from rfl, word_sigIArc_ok 64]
    have key : ∀ i, st.sig.tags.getTag b!"i" = some i → ∀ n : Nat, n ≤ 50 →
        ((Word.strtoul w (cstr i.value)).1 = n ↔ (Word.strtoul 64 (cstr i.value)).1 = n) ∧
        ((Word.strtoul w (cstr i.value)).1 = n → (Word.strtoul w (cstr i.value)).2.2 = (Word.strtoul 64 (cstr i.value)).2.2) := by
      intro i hi n hn
      rw [hc i hi]
      have hno := hm ha i.value (tagVal_some.2 ⟨i, hi, rfl⟩)
      rcases strtoul_plus w i.value hno with ⟨e1, e2⟩ | ⟨neg, m, rest, e1, _, e2⟩
      · rcases strtoul_plus 64 i.value hno with ⟨f1, f2⟩ | ⟨neg', m', rest', f1, _, f2⟩
        · rw [e2, f2]; simp
        · rw [e1] at f1; cases f1
      · rcases strtoul_plus 64 i.value hno with ⟨f1, f2⟩ | ⟨neg', m', rest', f1, _, f2⟩
        · rw [e1] at f1; cases f1
        · rw [e1] at f1; cases f1
          rw [e2, f2]
          by_cases h1 : m ≥ 2 ^ w
          · rw [if_pos h1]
            by_cases h2 : m ≥ 2 ^ 64
            · rw [if_pos h2]; simp only; constructor
              · constructor <;> intro <;> omega
              · intro; trivial
            · rw [if_neg h2]; simp only; constructor
              · constructor <;> intro <;> omega
              · intro; omega
          · rw [if_neg h1, if_neg (by omega)]; simp
    constructor
    · rintro ⟨i, hi, h1, h2, rfl⟩
      obtain ⟨k1, k2⟩ := key i hi _ h2
      have := k1.1 rfl
      refine ⟨i, hi, by omega, by omega, ?_⟩
      rw [k2 rfl, this]
    · rintro ⟨i, hi, h1, h2, rfl⟩
      obtain ⟨k1, k2⟩ := key i hi _ h2
      have := k1.2 rfl
      refine ⟨i, hi, by omega, by omega, ?_⟩
      rw [k2 this, this]

theorem word_sigL_ok (w : Nat) (st st' : SigSt)
    (hc : ∀ t, st.sig.tags.getTag b!"l" = some t → cstr t.value = t.value) :
    Word.sigL w st = .ok () st' ↔ (st.sig.tags.getTag b!"l" = none ∧ st' = st) ∨
      ∃ l, st.sig.tags.getTag b!"l" = some l ∧ l.value.length ≤ 76 ∧ st.erange = false ∧ (Word.strtoul w l.value).2.2 = false ∧
        (Word.strtoul w l.value).1 < 2 ^ (w - 1) ∧ (Word.strtoul w l.value).2.1 = [] ∧
        st' = { st with sig := { st.sig with bodySize := (Word.strtoul w l.value).1, bodySizeLimit := true } } := by
  unfold Word.sigL
  rw [es_bind_ok]
  simp only [sigTag_ok]
  cases ht : st.sig.tags.getTag b!"l" with
  | none =>
    constructor
    · rintro ⟨a, s1, ⟨rfl, rfl⟩, h⟩
      simp only [pure_ok, true_and] at h
      exact .inl ⟨rfl, h⟩
    · rintro (⟨_, rfl⟩ | ⟨l, h, _⟩)
      · exact ⟨none, _, ⟨rfl, rfl⟩, by simp [pure_ok]⟩
      · cases h
  | some l =>
    have hcl := hc l ht
    constructor
    · rintro ⟨a, s1, ⟨rfl, rfl⟩, h⟩
      simp only [hcl] at h
      split at h
      · simp [es_bind_ok, throw_ok] at h
      · rename_i hlen
        simp only [es_bind_ok, raiseErange, modify_ok, get_ok] at h
        obtain ⟨u, s2, rfl, s3, s4, ⟨rfl, rfl⟩, h⟩ := h
        simp only at h
        split at h
        · simp [es_bind_ok, throw_ok] at h
        · rename_i her
          split at h
          · simp [es_bind_ok, throw_ok] at h
          · rename_i hneg
            split at h
            · simp [es_bind_ok, throw_ok] at h
            · rename_i hrest
              rw [setSig_ok] at h
              simp only [Bool.or_eq_true, not_or, Bool.not_eq_true] at her
              refine .inr ⟨l, rfl, by omega, her.1, her.2, by omega, by simpa using hrest, ?_⟩
              rw [h, her.2]; simp
    · rintro (⟨h, _⟩ | ⟨l', h, hlen, her, hs, hn, hr, rfl⟩)
      · cases h
      · cases h
        refine ⟨some l, st, ⟨rfl, rfl⟩, ?_⟩
        simp only [hcl]
        rw [if_neg (by omega)]
        simp only [es_bind_ok, raiseErange, modify_ok, get_ok]
        refine ⟨(), _, rfl, _, _, ⟨rfl, rfl⟩, ?_⟩
        have hn' : ¬ (Word.strtoul w l.value).1 ≥ 2 ^ (w - 1) := by omega
        simp only [her, hs, hr, Bool.or_false, Bool.false_eq_true, if_false, hn', List.isEmpty_nil, Bool.not_true, setSig_ok]

theorem word_sigL (w : Nat) (h32 : 32 ≤ w) (h64 : w ≤ 64) (st st' : SigSt)
    (hc : ∀ t, st.sig.tags.getTag b!"l" = some t → cstr t.value = t.value)
    (hm : ∀ v, tagVal st.sig.tags b!"l" = some v → ∀ m rest, Number v true m rest → m = 0) :
    Word.sigL w st = .ok () st' ↔ sigL st = .ok () st' ∧
      ∀ v, tagVal st.sig.tags b!"l" = some v → ∀ m rest, Number v false m rest → m < 2 ^ (w - 1) := by
  obtain ⟨p1, p2, p3, p4, p5⟩ := two_pow_le h32 h64
  rw [word_sigL_ok w _ _ hc, show sigL st = Word.sigL 64 st from rfl, word_sigL_ok 64 _ _ hc]
  cases ht : st.sig.tags.getTag b!"l" with
  | none =>
    have : tagVal st.sig.tags b!"l" = none := by rw [tagVal_eq, ht]; rfl
    simp [this]
  | some l =>
    have hv : tagVal st.sig.tags b!"l" = some l.value := tagVal_some.2 ⟨l, ht, rfl⟩
    have hno := hm l.value hv
    simp only [hv, Option.some.injEq, forall_eq', reduceCtorEq, false_and, false_or]
    rcases strtoul_plus w l.value hno with ⟨e1, e2⟩ | ⟨neg, m, rest, e1, hn, e2⟩
    · rcases strtoul_plus 64 l.value hno with ⟨f1, f2⟩ | ⟨neg', m', rest', f1, _, f2⟩
      · have hz := scanNum_none.1 e1
        constructor
        · rintro ⟨l', rfl, h1, h2, h3, h4, h5, h6⟩
          rw [e2] at h5 h6
          exact ⟨⟨l, rfl, h1, h2, by rw [f2], by rw [f2]; exact Nat.two_pow_pos _, by rw [f2]; exact h5, by rw [f2]; exact h6⟩,
            fun m rest h => absurd ⟨_, m, rest, h⟩ hz⟩
        · rintro ⟨⟨l', rfl, h1, h2, h3, h4, h5, h6⟩, _⟩
          rw [f2] at h5 h6
          exact ⟨l, rfl, h1, h2, by rw [e2], by rw [e2]; exact Nat.two_pow_pos _, by rw [e2]; exact h5, by rw [e2]; exact h6⟩
      · rw [e1] at f1; cases f1
    · rcases strtoul_plus 64 l.value hno with ⟨f1, f2⟩ | ⟨neg', m', rest', f1, _, f2⟩
      · rw [e1] at f1; cases f1
      · rw [e1] at f1; cases f1
        have huniq : ∀ m' rest', Number l.value false m' rest' → m' = m := by
          intro m' rest' h
          have := scanNum_iff.2 h
          rw [e1] at this; cases this; rfl
        constructor
        · rintro ⟨l', rfl, h1, h2, h3, h4, h5, h6⟩
          have hlt : ¬ m ≥ 2 ^ w := by
            intro hge
            rw [e2, if_pos hge] at h3
            simp at h3
          rw [e2, if_neg hlt] at h4 h5 h6
          simp only at h4 h5 h6
          have g : Word.strtoul 64 l.value = (m, rest, false) := by rw [f2, if_neg (by omega)]
          exact ⟨⟨l, rfl, h1, h2, by rw [g], by rw [g]; simp only; omega, by rw [g]; exact h5, by rw [g]; exact h6⟩,
            fun m' rest' h => by rw [huniq m' rest' h]; exact h4⟩
        · rintro ⟨⟨l', rfl, h1, h2, h3, h4, h5, h6⟩, h7⟩
          have hlt : m < 2 ^ (w - 1) := hn.elim (h7 m rest) (fun e => by omega)
          have g : Word.strtoul w l.value = (m, rest, false) := by rw [e2, if_neg (by omega)]
          rw [f2, if_neg (by omega)] at h5 h6
          exact ⟨l, rfl, h1, h2, by rw [g], by rw [g]; exact hlt, by rw [g]; exact h5, by rw [g]; exact h6⟩

theorem strtol_cases (w : Nat) (v : Bytes) :
    (scanNum v = none ∧ Word.strtol w v = (0, false)) ∨
    (∃ m rest, scanNum v = some (false, m, rest) ∧ Number v false m rest ∧
      Word.strtol w v = if m ≥ 2 ^ (w - 1) then (2 ^ (w - 1) - 1, true) else ((m : Int), false)) ∨
    (∃ m rest, scanNum v = some (true, m, rest) ∧ Number v true m rest ∧
      Word.strtol w v = if m > 2 ^ (w - 1) then (-(2 ^ (w - 1)), true) else (-(m : Int), false)) := by
  unfold Word.strtol
  cases hs : scanNum v with
  | none => exact .inl ⟨rfl, rfl⟩
  | some p =>
    obtain ⟨neg, m, rest⟩ := p
    have hn := scanNum_iff.1 hs
    cases neg with
    | true => exact .inr (.inr ⟨m, rest, rfl, hn, rfl⟩)
    | false => exact .inr (.inl ⟨m, rest, rfl, hn, rfl⟩)

/-- Whether reading x= as a `w`-bit `long` raises ERANGE. -/
def wxRange (w : Nat) (tags : TagList) : Bool :=
  match tags.getTag b!"x" with
  | none => false
  | some x => (Word.strtol w x.value).2

theorem wxRange_iff (w : Nat) (es : TagList) : wxRange w es = true ↔ ExpiryOut w (tagVal es) := by
  unfold wxRange ExpiryOut
  cases ht : es.getTag b!"x" with
  | none =>
    have : tagVal es b!"x" = none := by rw [tagVal_eq, ht]; rfl
    simp [this]
  | some x =>
    have hv : tagVal es b!"x" = some x.value := tagVal_some.2 ⟨x, ht, rfl⟩
    simp only [hv, Option.some.injEq]
    rcases strtol_cases w x.value with ⟨e1, e2⟩ | ⟨m, rest, e1, hn, e2⟩ | ⟨m, rest, e1, hn, e2⟩
    · have hz := scanNum_none.1 e1
      rw [e2]
      constructor
      · intro h; cases h
      · rintro ⟨v, m, rest, rfl, h | h⟩
        · exact absurd ⟨_, m, rest, h.1⟩ hz
        · exact absurd ⟨_, m, rest, h.1⟩ hz
    · rw [e2]
      constructor
      · intro h
        split at h
        · rename_i hge; exact ⟨_, m, rest, rfl, .inl ⟨hn, hge⟩⟩
        · cases h
      · rintro ⟨v, m', rest', rfl, h | h⟩
        · have := scanNum_iff.2 h.1
          rw [e1] at this; cases this
          rw [if_pos h.2]
        · have := scanNum_iff.2 h.1
          rw [e1] at this; cases this
    · rw [e2]
      constructor
      · intro h
        split at h
        · rename_i hge; exact ⟨_, m, rest, rfl, .inr ⟨hn, hge⟩⟩
        · cases h
      · rintro ⟨v, m', rest', rfl, h | h⟩
        · have := scanNum_iff.2 h.1
          rw [e1] at this; cases this
        · have := scanNum_iff.2 h.1
          rw [e1] at this; cases this
          rw [if_pos h.2]

theorem word_sigX_ok (w : Nat) (now : Int) (st st' : SigSt)
    (hc : ∀ t, st.sig.tags.getTag b!"x" = some t → cstr t.value = t.value) :
    Word.sigX w now st = .ok () st' ↔ (∀ x, tagVal st.sig.tags b!"x" = some x → now ≤ (Word.strtol w x).1) ∧
      st' = { st with erange := st.erange || wxRange w st.sig.tags } := by
  unfold Word.sigX wxRange
  rw [es_bind_ok]
  simp only [sigTag_ok]
  cases ht : st.sig.tags.getTag b!"x" with
  | none =>
    have : tagVal st.sig.tags b!"x" = none := by rw [tagVal_eq, ht]; rfl
    rw [this]
    constructor
    · rintro ⟨a, s1, ⟨rfl, rfl⟩, h⟩
      simp only [pure_ok, true_and] at h
      exact ⟨by simp, by simp [h]⟩
    · rintro ⟨_, rfl⟩
      exact ⟨none, st, ⟨rfl, rfl⟩, by simp [pure_ok]⟩
  | some x =>
    have hv : tagVal st.sig.tags b!"x" = some x.value := tagVal_some.2 ⟨x, ht, rfl⟩
    rw [hv]
    have hcx := hc x ht
    constructor
    · rintro ⟨a, s1, ⟨rfl, rfl⟩, h⟩
      simp only [hcx, es_bind_ok, raiseErange, modify_ok] at h
      obtain ⟨u, s2, rfl, h⟩ := h
      split at h
      · simp [throw_ok] at h
      · simp only [pure_ok, true_and] at h
        refine ⟨?_, h⟩
        intro y hy
        have : x.value = y := by simpa using hy
        rw [← this]; omega
    · rintro ⟨h, rfl⟩
      have := h x.value rfl
      refine ⟨some x, st, ⟨rfl, rfl⟩, ?_⟩
      simp only [hcx, es_bind_ok, raiseErange, modify_ok]
      refine ⟨(), _, rfl, ?_⟩
      rw [if_neg (by omega)]
      simp [pure_ok]

/-- Not expired with `w` bits, compared with 64. -/
theorem word_expiry (w : Nat) (h32 : 32 ≤ w) (h64 : w ≤ 64) (now : Int) (h0 : 0 ≤ now) (v : Bytes) :
    now ≤ (Word.strtol w v).1 ↔ now ≤ (Word.strtol 64 v).1 ∧
      ∀ m rest, Number v false m rest → 2 ^ (w - 1) ≤ m → now < 2 ^ (w - 1) := by
  obtain ⟨p1, p2, p3, p4, p5⟩ := two_pow_le h32 h64
  have hp : ((2 ^ (w - 1) : Nat) : Int) = 2 ^ (w - 1) := by simp
  rcases strtol_cases w v with ⟨e1, e2⟩ | ⟨m, rest, e1, hn, e2⟩ | ⟨m, rest, e1, hn, e2⟩
  · rcases strtol_cases 64 v with ⟨f1, f2⟩ | ⟨m', rest', f1, _, f2⟩ | ⟨m', rest', f1, _, f2⟩
    · have hz := scanNum_none.1 e1
      rw [e2, f2]
      exact ⟨fun h => ⟨h, fun m rest h => absurd ⟨_, m, rest, h⟩ hz⟩, fun h => h.1⟩
    · rw [e1] at f1; cases f1
    · rw [e1] at f1; cases f1
  · rcases strtol_cases 64 v with ⟨f1, f2⟩ | ⟨m', rest', f1, _, f2⟩ | ⟨m', rest', f1, _, f2⟩
    · rw [e1] at f1; cases f1
    · rw [e1] at f1; cases f1
      rw [e2, f2]
      constructor
      · intro h
        refine ⟨?_, ?_⟩
        · split <;> split at h <;> simp only at h ⊢ <;> omega
        · intro m' rest' h' hge
          have := scanNum_iff.2 h'
          rw [e1] at this; cases this
          rw [if_pos hge] at h
          simp only at h
          omega
      · rintro ⟨h1, h2⟩
        have h3 := h2 m rest hn
        split
        · rename_i hge
          have := h3 hge
          simp only
          omega
        · rename_i hge
          rw [if_neg (by omega)] at h1
          exact h1
    · rw [e1] at f1; cases f1
  · rcases strtol_cases 64 v with ⟨f1, f2⟩ | ⟨m', rest', f1, _, f2⟩ | ⟨m', rest', f1, _, f2⟩
    · rw [e1] at f1; cases f1
    · rw [e1] at f1; cases f1
    · rw [e1] at f1; cases f1
      rw [e2, f2]
      have hno : ∀ m' rest', ¬ Number v false m' rest' := by
        intro m' rest' h
        have := scanNum_iff.2 h
        rw [e1] at this; cases this
      constructor
      · intro h
        refine ⟨?_, fun m' rest' h' => absurd h' (hno m' rest')⟩
        split <;> split at h <;> simp only at h ⊢ <;> omega
      · rintro ⟨h, _⟩
        split <;> split at h <;> simp only at h ⊢ <;> omega

/-- What `sigI` leaves alone. -/
theorem sigI_keeps (st st' : SigSt) (h : sigI st = .ok () st')
    (hc : ∀ t, st.sig.tags.getTag b!"i" = some t → cstr t.value = t.value) :
    st'.sig.tags = st.sig.tags ∧ st'.erange = st.erange ∧ st'.sig.bodySize = st.sig.bodySize ∧
      st'.sig.bodySizeLimit = st.sig.bodySizeLimit := by
  rw [sigI_eq] at h
  split at h
  · obtain ⟨i, hi, h1, h2, rfl⟩ := (sigIArc_ok _ _).1 h
    rw [hc i hi] at h1 h2 ⊢
    have her : (strtoul i.value).2.2 = false := by
      cases hx : (strtoul i.value).2.2 with
      | false => rfl
      | true => have := strtoul_erange hx; omega
    exact ⟨rfl, by simp [her], rfl, rfl⟩
  · obtain ⟨loc, dom, hi, rfl⟩ := (sigIDkim_ok _ _).1 h
    exact ⟨rfl, rfl, rfl, rfl⟩

/-- `Signature::Parse` with `w`-bit `long` compared with 64 bits. -/
theorem word_parse_ok (w : Nat) (h32 : 32 ≤ w) (h64 : w ≤ 64) (E : Env) (now : Int) (h0 : 0 ≤ now) (h : Header) (e0 : Bool)
    (es : List (Bytes × TagEntry)) (ht : TagText 0 (valueText h) es) (hnd : (es.map Prod.fst).Nodup)
    (hm : NoMinus (isArcName h.name) (tagVal es)) (st' : SigSt) :
    Word.parse w E now h { erange := e0 } = .ok () st' ↔
      ∃ st, Signature.parse E now h { erange := e0 } = .ok () st ∧ LongFits w now (tagVal es) ∧ st'.sig = st.sig ∧
        st'.erange = (e0 || wxRange w es) := by
  have hnul : ∀ n t, TagList.getTag es n = some t → cstr t.value = t.value := fun n t hg =>
    cstr_eq (ht.no_nul n t (getTag_mem hg))
  -- the tags at the steps that read numbers
  have tags9 : ∀ s9, parseFront E h { erange := e0 } = .ok () s9 → s9.sig.tags = es ∧ s9.erange = e0 ∧
      s9.sig.arc = isArcName h.name ∧ s9.sig.bodySize = 0 ∧ s9.sig.bodySizeLimit = false := by
    intro s9 h9
    obtain ⟨es', g1, g2, g3, g4, g5, g6, g7⟩ := front_ok E h e0 s9 h9
    have a := (C11_parse_iff (valueText h) [] es).2 ⟨es, ht, hnd, by simp, rfl⟩
    have b := (C11_parse_iff (valueText h) [] es').2 ⟨es', g1, g2, by simp, rfl⟩
    rw [a] at b
    cases b
    exact ⟨g3, g4, g5, g6, g7⟩
  have rest : ∀ s9 s10 s11 s12 s13, s9.sig.tags = es → s9.erange = e0 → s9.sig.bodySize = 0 → s9.sig.bodySizeLimit = false →
      sigI s9 = .ok () s10 → sigL s10 = .ok () s11 → sigQ s11 = .ok () s12 → sigS s12 = .ok () s13 →
      s10.sig.tags = es ∧ s13.sig.tags = es ∧ s13.erange = e0 := by
    intro s9 s10 s11 s12 s13 t9 r9 b9 l9 g10 g11 g12 g13
    obtain ⟨k1, k2, k3, k4⟩ := sigI_keeps s9 s10 g10 (by rw [t9]; exact hnul _)
    obtain ⟨ln, lim, _, _, rfl⟩ := (sigL_ok s10 s11 (k3.trans b9) (k4.trans l9) (by rw [k1, t9]; exact hnul _)).1 g11
    obtain ⟨rfl, _⟩ := (sigQ_ok _ _).1 g12
    obtain ⟨sel, _, rfl⟩ := (sigS_ok _ _).1 g13
    exact ⟨k1.trans t9, k1.trans t9, k2.trans r9⟩
  rw [word_parse_chain]
  constructor
  · rintro ⟨s9, s10, s11, s12, s13, h9, h10, h11, h12, h13, h14⟩
    obtain ⟨t9, r9, a9, b9, l9⟩ := tags9 s9 h9
    have g10 := (word_sigI w h32 h64 s9 s10 (by rw [t9]; exact hnul _) (by rw [t9, a9]; exact hm.2)).1 h10
    have t10 := (sigI_keeps s9 s10 g10 (by rw [t9]; exact hnul _)).1.trans t9
    obtain ⟨g11, f11⟩ := (word_sigL w h32 h64 s10 s11 (by rw [t10]; exact hnul _) (by rw [t10]; exact hm.1)).1 h11
    obtain ⟨_, t13, r13⟩ := rest s9 s10 s11 s12 s13 t9 r9 b9 l9 g10 g11 h12 h13
    obtain ⟨hx, rfl⟩ := (word_sigX_ok w now s13 st' (by rw [t13]; exact hnul _)).1 h14
    refine ⟨{ s13 with erange := s13.erange || wxRange 64 es }, (parse_chain E now h _ _).2
      ⟨s9, s10, s11, s12, s13, h9, g10, g11, h12, h13, ?_⟩, ⟨by rw [t10] at f11; exact f11, ?_⟩, rfl, ?_⟩
    · refine (word_sigX_ok 64 now s13 _ (by rw [t13]; exact hnul _)).2 ⟨fun x hx' => ?_, by rw [t13]⟩
      exact ((word_expiry w h32 h64 now h0 x).1 (hx x hx')).1
    · intro v hv
      exact ((word_expiry w h32 h64 now h0 v).1 (hx v (by rw [t13]; exact hv))).2
    · simp only [r13, t13]
  · rintro ⟨st, hp, hf, e1, e2⟩
    obtain ⟨s9, s10, s11, s12, s13, h9, h10, h11, h12, h13, h14⟩ := (parse_chain E now h _ _).1 hp
    obtain ⟨t9, r9, a9, b9, l9⟩ := tags9 s9 h9
    obtain ⟨t10, t13, r13⟩ := rest s9 s10 s11 s12 s13 t9 r9 b9 l9 h10 h11 h12 h13
    have hx := (word_sigX_ok 64 now s13 st (by rw [t13]; exact hnul _)).1 h14
    refine ⟨s9, s10, s11, s12, s13, h9,
      (word_sigI w h32 h64 s9 s10 (by rw [t9]; exact hnul _) (by rw [t9, a9]; exact hm.2)).2 h10,
      (word_sigL w h32 h64 s10 s11 (by rw [t10]; exact hnul _) (by rw [t10]; exact hm.1)).2 ⟨h11, by rw [t10]; exact hf.1⟩,
      h12, h13, (word_sigX_ok w now s13 st' (by rw [t13]; exact hnul _)).2 ⟨fun x hx' => ?_, ?_⟩⟩
    · exact (word_expiry w h32 h64 now h0 x).2 ⟨hx.1 x hx', hf.2 x (by rw [t13] at hx'; exact hx')⟩
    · obtain ⟨sg, er⟩ := st'
      simp only at e1 e2
      rw [hx.2] at e1
      simp only at e1
      rw [e1, e2, t13, r13]

/-! ### Negative numbers -/

/-- What `sigI` leaves alone, for any word size. -/
theorem word_sigI_tags (w : Nat) (st st' : SigSt) (h : Word.sigI w st = .ok () st') : st'.sig.tags = st.sig.tags := by
  unfold Word.sigI at h
  rw [es_bind, es_get, esBind_ok] at h
  split at h
  · obtain ⟨i, _, _, _, rfl⟩ := (word_sigIArc_ok w _ _).1 h
    rfl
  · obtain ⟨loc, dom, hi, rfl⟩ := (sigIDkim_ok _ _).1 h
    rfl

theorem strtoul_minus (w : Nat) {v : Bytes} {m : Nat} {rest : Bytes} (h : Number v true m rest) :
    Word.strtoul w v = if m ≥ 2 ^ w then (2 ^ w - 1, rest, true) else ((2 ^ w - m) % 2 ^ w, rest, false) := by
  unfold Word.strtoul
  rw [scanNum_iff.2 h]
  rfl

/-- Programs with different `long`s never both accept a field with a negative number in l= (or i= of an ARC field). -/
theorem word_negative (w : Nat) (h32 : 32 ≤ w) (h64 : w < 64) (E : Env) (now : Int) (h : Header) (e0 : Bool)
    (es : List (Bytes × TagEntry)) (ht : TagText 0 (valueText h) es) (hnd : (es.map Prod.fst).Nodup)
    (st st' : SigSt) (h1 : Signature.parse E now h { erange := e0 } = .ok () st)
    (h2 : Word.parse w E now h { erange := e0 } = .ok () st') : NoMinus (isArcName h.name) (tagVal es) := by
  obtain ⟨p1, p2, p3, p4, p5⟩ := two_pow_le h32 (Nat.le_of_lt h64)
  have p6 : 2 ^ w ≤ 2 ^ 63 := Nat.pow_le_pow_right (by decide) (by omega)
  have hnul : ∀ n t, TagList.getTag es n = some t → cstr t.value = t.value := fun n t hg =>
    cstr_eq (ht.no_nul n t (getTag_mem hg))
  obtain ⟨s9, s10, s11, s12, s13, h9, h10, h11, h12, h13, h14⟩ := (parse_chain E now h _ _).1 h1
  obtain ⟨s9', s10', s11', s12', s13', h9', h10', h11', h12', h13', h14'⟩ := (word_parse_chain w E now h _ _).1 h2
  rw [h9] at h9'
  cases h9'
  obtain ⟨es', g1, g2, t9, g4, a9, g6, g7⟩ := front_ok E h e0 s9 h9
  have hes : es' = es := by
    have a := (C11_parse_iff (valueText h) [] es).2 ⟨es, ht, hnd, by simp, rfl⟩
    have b := (C11_parse_iff (valueText h) [] es').2 ⟨es', g1, g2, by simp, rfl⟩
    rw [a] at b
    cases b; rfl
  subst hes
  have t10 := (word_sigI_tags 64 s9 s10 h10).trans t9
  have t10' := (word_sigI_tags w s9 s10' h10').trans t9
  refine ⟨?_, ?_⟩
  · intro v hv m rest hn
    obtain ⟨l, hl, rfl⟩ := tagVal_some.1 hv
    rcases (word_sigL_ok 64 s10 s11 (by rw [t10]; exact hnul _)).1 h11 with ⟨k, _⟩ | ⟨l1, k1, _, _, k2, k3, _, _⟩
    · rw [t10, hl] at k; cases k
    rcases (word_sigL_ok w s10' s11' (by rw [t10']; exact hnul _)).1 h11' with ⟨k, _⟩ | ⟨l2, j1, _, _, j2, j3, _, _⟩
    · rw [t10', hl] at k; cases k
    rw [t10, hl] at k1; cases k1
    rw [t10', hl] at j1; cases j1
    rw [strtoul_minus _ hn] at k2 k3 j2 j3
    have hw : ¬ m ≥ 2 ^ w := by intro hge; rw [if_pos hge] at j2; cases j2
    rw [if_neg (by omega)] at k3
    simp only at k3
    by_cases h0 : m = 0
    · exact h0
    · rw [Nat.mod_eq_of_lt (by omega)] at k3
      omega
  · intro ha v hv m rest hn
    obtain ⟨i, hi, rfl⟩ := tagVal_some.1 hv
    have arc : ∀ w' s, Word.sigI w' s9 = .ok () s → Word.sigIArc w' s9 = .ok () s := by
      intro w' s h
      unfold Word.sigI at h
      rw [es_bind, es_get, esBind_ok, a9, if_pos ha] at h
      exact h
    obtain ⟨i1, k1, k2, k3, _⟩ := (word_sigIArc_ok 64 _ _).1 (arc 64 _ h10)
    obtain ⟨i2, j1, j2, j3, _⟩ := (word_sigIArc_ok w _ _).1 (arc w _ h10')
    rw [t9, hi] at k1 j1; cases k1; cases j1
    rw [hnul _ i hi, strtoul_minus _ hn] at k2 k3 j2 j3
    have hw : ¬ m ≥ 2 ^ w := by
      intro hge
      rw [if_pos hge] at j3
      simp only at j3
      omega
    rw [if_neg (by omega)] at k3
    simp only at k3
    by_cases h0 : m = 0
    · exact h0
    · rw [Nat.mod_eq_of_lt (by omega)] at k3
      omega

/-! ### Small numbers: the same in every respect -/

theorem strtoul_small (w : Nat) (h32 : 32 ≤ w) (h64 : w ≤ 64) (v : Bytes) (hm : ∀ m rest, Number v true m rest → m = 0)
    (hf : ∀ m rest, Number v false m rest → m < 2 ^ (w - 1)) :
    Word.strtoul w v = Dkim.strtoul v ∧ (Dkim.strtoul v).1 < 2 ^ (w - 1) := by
  obtain ⟨p1, p2, p3, p4, p5⟩ := two_pow_le h32 h64
  rw [strtoul_64]
  rcases strtoul_plus w v hm with ⟨e1, e2⟩ | ⟨neg, m, rest, e1, hn, e2⟩
  · rcases strtoul_plus 64 v hm with ⟨f1, f2⟩ | ⟨neg', m', rest', f1, _, f2⟩
    · rw [e2, f2]; exact ⟨rfl, Nat.two_pow_pos _⟩
    · rw [e1] at f1; cases f1
  · rcases strtoul_plus 64 v hm with ⟨f1, f2⟩ | ⟨neg', m', rest', f1, _, f2⟩
    · rw [e1] at f1; cases f1
    · rw [e1] at f1; cases f1
      have : m < 2 ^ (w - 1) := hn.elim (hf m rest) (fun e => by omega)
      rw [e2, f2, if_neg (by omega), if_neg (by omega)]
      exact ⟨rfl, this⟩

theorem strtol_small (w : Nat) (h32 : 32 ≤ w) (h64 : w ≤ 64) (v : Bytes)
    (hf : ∀ neg m rest, Number v neg m rest → m < 2 ^ (w - 1)) : Word.strtol w v = Dkim.strtol v := by
  obtain ⟨p1, p2, p3, p4, p5⟩ := two_pow_le h32 h64
  rw [strtol_64]
  rcases strtol_cases w v with ⟨e1, e2⟩ | ⟨m, rest, e1, hn, e2⟩ | ⟨m, rest, e1, hn, e2⟩ <;>
    rcases strtol_cases 64 v with ⟨f1, f2⟩ | ⟨m', rest', f1, _, f2⟩ | ⟨m', rest', f1, _, f2⟩ <;> rw [e1] at f1 <;> cases f1
  · rw [e2, f2]
  · have := hf _ m rest hn
    rw [e2, f2, if_neg (by omega), if_neg (by omega)]
  · have := hf _ m rest hn
    rw [e2, f2, if_neg (by omega), if_neg (by omega)]

/-- The state `get` finds. -/
theorem es_get_bind {α : Type} (f : SigSt → SigM α) (st : SigSt) : (get >>= f) st = f st st := rfl

theorem sigTag_bind {α : Type} (n : Bytes) (f : Option TagEntry → SigM α) (st : SigSt) :
    (sigTag n >>= f) st = f (st.sig.tags.getTag n) st := by
  unfold sigTag; rfl

theorem needTag_bind {α : Type} (n : Bytes) (r : Reason) (f : TagEntry → SigM α) (st : SigSt) :
    (needTag n r >>= f) st = match st.sig.tags.getTag n with
      | none => .error (.p r) st
      | some t => f t st := by
  unfold needTag sigTag
  cases h : st.sig.tags.getTag n <;> simp only [es_bind, es_get, esBind_ok, h] <;> rfl

theorem word_parse_small (w : Nat) (h32 : 32 ≤ w) (h64 : w ≤ 64) (E : Env) (now : Int) (h : Header) (e0 : Bool)
    (hs : ∀ es, TagText 0 (valueText h) es → (es.map Prod.fst).Nodup → SmallNumbers w (isArcName h.name) (tagVal es)) :
    Word.parse w E now h { erange := e0 } = Signature.parse E now h { erange := e0 } := by
  obtain ⟨p1, p2, p3, p4, p5⟩ := two_pow_le h32 h64
  have a : Word.parse w E now h = parseFront E h >>= fun _ => Word.sigI w >>= fun _ => Word.sigL w >>= fun _ => sigQ >>= fun _ =>
      sigS >>= fun _ => Word.sigX w now := by
    unfold Word.parse parseFront
    simp only [bind_assoc]
  have b : Signature.parse E now h = parseFront E h >>= fun _ => sigI >>= fun _ => sigL >>= fun _ => sigQ >>= fun _ =>
      sigS >>= fun _ => sigX now := by
    unfold Signature.parse parseFront
    simp only [bind_assoc]
  rw [a, b, es_bind, es_bind]
  cases h9 : parseFront E h { erange := e0 } with
  | error e st => rfl
  | ok u s9 =>
    obtain ⟨es, ht, hnd, t9, r9, a9, b9, l9⟩ := front_ok E h e0 s9 h9
    obtain ⟨⟨m1, m2⟩, m3, m4, m5⟩ := hs es ht hnd
    have hnul : ∀ n t, TagList.getTag es n = some t → cstr t.value = t.value := fun n t hg =>
      cstr_eq (ht.no_nul n t (getTag_mem hg))
    rw [esBind_ok, esBind_ok, es_bind, es_bind]
    have eI : Word.sigI w s9 = sigI s9 := by
      unfold Word.sigI sigI
      rw [es_get_bind, es_get_bind]
      cases harc : s9.sig.arc with
      | false => rfl
      | true =>
        rw [if_pos rfl, if_pos rfl]
        unfold Word.sigIArc sigIArc
        rw [needTag_bind, needTag_bind]
        cases hg : s9.sig.tags.getTag b!"i" with
        | none => rfl
        | some i =>
          have hi : tagVal es b!"i" = some i.value := by rw [← t9]; exact tagVal_some.2 ⟨i, hg, rfl⟩
          simp only []
          rw [hnul _ i (by rw [← t9]; exact hg), (strtoul_small w h32 h64 i.value (m2 (a9.symm.trans harc) _ hi) (m3 (a9.symm.trans harc) _ hi)).1]
    rw [eI]
    cases h10 : sigI s9 with
    | error e st => rfl
    | ok u s10 =>
      obtain ⟨t10, r10, b10, l10⟩ := sigI_keeps s9 s10 h10 (by rw [t9]; exact hnul _)
      rw [esBind_ok, esBind_ok, es_bind, es_bind]
      have eL : Word.sigL w s10 = sigL s10 := by
        unfold Word.sigL sigL
        rw [sigTag_bind, sigTag_bind]
        cases hg : s10.sig.tags.getTag b!"l" with
        | none => rfl
        | some l =>
          have hl : tagVal es b!"l" = some l.value := by rw [← t9, ← t10]; exact tagVal_some.2 ⟨l, hg, rfl⟩
          simp only []
          obtain ⟨g1, g2⟩ := strtoul_small w h32 h64 l.value (m1 _ hl) (m4 _ hl)
          rw [hnul _ l (by rw [← t9, ← t10]; exact hg), g1]
          generalize Dkim.strtoul l.value = r at g2
          obtain ⟨bs, rest, e⟩ := r
          simp only at g2
          simp only []
          rw [if_neg (show ¬ bs ≥ 2 ^ (w - 1) by omega), if_neg (show ¬ bs ≥ 2 ^ 63 by omega)]
      rw [eL]
      cases h11 : sigL s10 with
      | error e st => rfl
      | ok u s11 =>
        obtain ⟨ln, lim, _, _, rfl⟩ := (sigL_ok s10 s11 (b10.trans b9) (l10.trans l9) (by rw [t10, t9]; exact hnul _)).1 h11
        rw [esBind_ok, esBind_ok, es_bind, es_bind]
        generalize hs11 : ({ s10 with sig := _ } : SigSt) = s11
        have t11 : s11.sig.tags = es := by rw [← hs11]; exact t10.trans t9
        cases h12 : sigQ s11 with
        | error e st => rfl
        | ok u s12 =>
          obtain ⟨rfl, _⟩ := (sigQ_ok _ _).1 h12
          rw [esBind_ok, esBind_ok, es_bind, es_bind]
          cases h13 : sigS s12 with
          | error e st => rfl
          | ok u s13 =>
            obtain ⟨sel, _, rfl⟩ := (sigS_ok _ _).1 h13
            rw [esBind_ok, esBind_ok]
            unfold Word.sigX sigX
            rw [sigTag_bind, sigTag_bind]
            generalize hs13 : ({ s12 with sig := _ } : SigSt) = s13
            have t13 : s13.sig.tags = es := by rw [← hs13]; exact t11
            cases hg : s13.sig.tags.getTag b!"x" with
            | none => rfl
            | some x =>
              have hx : tagVal es b!"x" = some x.value := by rw [← t13]; exact tagVal_some.2 ⟨x, hg, rfl⟩
              simp only []
              rw [hnul _ x (by rw [← t13]; exact hg), strtol_small w h32 h64 x.value (m5 _ hx)]

end Dkim
