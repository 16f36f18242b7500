import Verif.Proofs.CNumber
import Verif.Proofs.EState
import Verif.Proofs.TagList
import Verif.Proofs.ValueList
import Verif.Proofs.Header
import Verif.Props.TagList
import Verif.Spec.SigHeader
/-!
# Stepwise semantics of `Signature::Parse`
-/

namespace Dkim
open Spec

theorem es_bind_ok {ε σ α β : Type} (x : EStateM ε σ α) (f : α → EStateM ε σ β) (s : σ) (b : β) (s' : σ) :
    (x >>= f) s = .ok b s' ↔ ∃ a s1, x s = .ok a s1 ∧ f a s1 = .ok b s' := by
  rw [es_bind]
  cases h : x s with
  | ok a s1 =>
    simp only [esBind_ok]
    constructor
    · intro h2; exact ⟨a, s1, rfl, h2⟩
    · rintro ⟨a', s1', h1, h2⟩; cases h1; exact h2
  | error e s1 =>
    simp only [esBind_error]
    constructor
    · intro h2; cases h2
    · rintro ⟨a', s1', h1, h2⟩; cases h1

theorem needTag_eq (name : Bytes) (r : Reason) (st : SigSt) :
    needTag name r st = match st.sig.tags.getTag name with
      | none => .error (.p r) st
      | some t => .ok t st := by
  unfold needTag sigTag
  rw [es_bind, es_bind, es_get, esBind_ok, es_pure, esBind_ok]
  cases st.sig.tags.getTag name <;> rfl

theorem needTag_ok (name : Bytes) (r : Reason) (st : SigSt) (t : TagEntry) (st' : SigSt) :
    needTag name r st = .ok t st' ↔ st.sig.tags.getTag name = some t ∧ st' = st := by
  rw [needTag_eq]
  cases st.sig.tags.getTag name with
  | none => simp
  | some x => simp only [EStateM.Result.ok.injEq, Option.some.injEq]; constructor <;> (rintro ⟨rfl, rfl⟩; exact ⟨rfl, rfl⟩)

theorem sigTag_ok (name : Bytes) (st : SigSt) (t : Option TagEntry) (st' : SigSt) :
    sigTag name st = .ok t st' ↔ t = st.sig.tags.getTag name ∧ st' = st := by
  unfold sigTag
  rw [es_bind, es_get, esBind_ok, es_pure]
  simp only [EStateM.Result.ok.injEq]
  constructor <;> (rintro ⟨rfl, rfl⟩; exact ⟨rfl, rfl⟩)

theorem setSig_eq (f : Signature → Signature) (st : SigSt) :
    setSig f st = .ok () { st with sig := f st.sig } := rfl

theorem setSig_ok (f : Signature → Signature) (st : SigSt) (u : Unit) (st' : SigSt) :
    setSig f st = .ok u st' ↔ st' = { st with sig := f st.sig } := by
  rw [setSig_eq]
  simp only [EStateM.Result.ok.injEq, true_and]
  exact eq_comm

theorem throw_ok {σ α : Type} (e : Err) (st st' : σ) (a : α) : ((throw e : EStateM Err σ α) st = .ok a st') ↔ False := by
  rw [es_throw]; simp

theorem pure_ok {σ α : Type} (a b : α) (st st' : σ) : ((pure a : EStateM Err σ α) st = .ok b st') ↔ b = a ∧ st' = st := by
  rw [es_pure]; simp only [EStateM.Result.ok.injEq]
  constructor <;> (rintro ⟨rfl, rfl⟩; exact ⟨rfl, rfl⟩)

theorem get_ok {σ : Type} (a st st' : σ) : ((get : EStateM Err σ σ) st = .ok a st') ↔ a = st ∧ st' = st := by
  rw [es_get]; simp only [EStateM.Result.ok.injEq]
  constructor <;> (rintro ⟨rfl, rfl⟩; exact ⟨rfl, rfl⟩)

theorem modify_ok {σ : Type} (f : σ → σ) (a : PUnit) (st st' : σ) :
    ((modify f : EStateM Err σ PUnit) st = .ok a st') ↔ st' = f st := by
  rw [es_modify]; simp only [EStateM.Result.ok.injEq, true_and]; exact eq_comm

theorem liftE_ok {σ α : Type} (x : Except Err α) (a : α) (st st' : σ) :
    (liftE x : EStateM Err σ α) st = .ok a st' ↔ x = .ok a ∧ st' = st := by
  unfold liftE
  cases x with
  | ok b => simp only [pure_ok, Except.ok.injEq]; constructor <;> (rintro ⟨rfl, rfl⟩; exact ⟨rfl, rfl⟩)
  | error e => simp [throw_ok]

theorem sigTagList_ok (v : Bytes) (st st' : SigSt) :
    sigTagList v st = .ok () st' ↔ ∃ m, TagList.parse v st.sig.tags = .ok () m ∧
      st' = { st with sig := { st.sig with tags := m } } := by
  unfold sigTagList
  cases TagList.parse v st.sig.tags with
  | ok u m =>
    simp only [EStateM.Result.ok.injEq, true_and]
    constructor
    · rintro rfl; exact ⟨m, rfl, rfl⟩
    · rintro ⟨_, rfl, rfl⟩; rfl
  | error e m => simp

theorem sigArc_eq (name : Bytes) (st : SigSt) :
    sigArc name st = .ok () { st with sig := { st.sig with
      arc := st.sig.arc || decide (lower name = b!"arc-message-signature") } } := by
  unfold sigArc
  split
  · rename_i h; simp [setSig_eq, h]
  · rename_i h; simp [es_pure, h]

theorem sigD_ok (st st' : SigSt) :
    sigD st = .ok () st' ↔ ∃ d, st.sig.tags.getTag b!"d" = some d ∧
      st' = { st with sig := { st.sig with domain := lower d.value } } := by
  unfold sigD
  simp only [es_bind_ok, needTag_ok, setSig_ok]
  constructor
  · rintro ⟨a, s1, ⟨h, rfl⟩, rfl⟩; exact ⟨a, h, rfl⟩
  · rintro ⟨a, h, rfl⟩; exact ⟨a, st, ⟨h, rfl⟩, rfl⟩

theorem sigV_ok (st st' : SigSt) :
    sigV st = .ok () st' ↔ st' = st ∧ (st.sig.arc = false → ∃ v, st.sig.tags.getTag b!"v" = some v ∧ v.value = b!"1") := by
  unfold sigV
  rw [es_bind, es_get, esBind_ok]
  cases st.sig.arc with
  | true => simp [pure_ok]
  | false =>
    simp only [Bool.not_false, if_true, es_bind_ok, needTag_ok]
    constructor
    · rintro ⟨a, s1, ⟨h, rfl⟩, h2⟩
      split at h2
      · simp [throw_ok] at h2
      · rename_i hv
        simp only [pure_ok, true_and] at h2
        exact ⟨h2, fun _ => ⟨a, h, by simpa using hv⟩⟩
    · rintro ⟨rfl, h⟩
      obtain ⟨v, h1, h2⟩ := h trivial
      exact ⟨v, _, ⟨h1, rfl⟩, by simp [h2, pure_ok]⟩

theorem sigA_ok (st st' : SigSt) :
    sigA st = .ok () st' ↔ ∃ a sa da, st.sig.tags.getTag b!"a" = some a ∧ AlgTag a.value sa da ∧
      st' = { st with sig := { st.sig with digest := da, alg := sa } } := by
  unfold sigA
  simp only [es_bind_ok, needTag_ok]
  constructor
  · rintro ⟨a, s1, ⟨h, rfl⟩, h2⟩
    split at h2
    · rename_i e; rw [setSig_ok] at h2; exact ⟨a, .rsa, .sha256, h, e ▸ .rsa256, h2⟩
    · split at h2
      · rename_i e; rw [setSig_ok] at h2; exact ⟨a, .rsa, .sha1, h, e ▸ .rsa1, h2⟩
      · split at h2
        · rename_i e; rw [setSig_ok] at h2; exact ⟨a, .ed25519, .sha256, h, e ▸ .ed, h2⟩
        · simp [throw_ok] at h2
  · rintro ⟨a, sa, da, h, ht, rfl⟩
    refine ⟨a, st, ⟨h, rfl⟩, ?_⟩
    generalize a.value = v at ht
    cases ht <;> simp [setSig_ok]

theorem sigB_ok (E : Env) (st st' : SigSt) :
    sigB E st = .ok () st' ↔ ∃ b, st.sig.tags.getTag b!"b" = some b ∧ b.value ≠ [] ∧
      st' = { st with sig := { st.sig with b := E.b64dec (stripSpace b.value) } } := by
  unfold sigB
  simp only [es_bind_ok, needTag_ok]
  constructor
  · rintro ⟨a, s1, ⟨h, rfl⟩, h2⟩
    split at h2
    · simp [es_bind_ok, throw_ok] at h2
    · rename_i hv
      rw [setSig_ok] at h2
      exact ⟨a, h, by simpa using hv, h2⟩
  · rintro ⟨a, h, hne, rfl⟩
    exact ⟨a, st, ⟨h, rfl⟩, by simp [hne, setSig_ok]⟩

theorem sigBH_ok (E : Env) (st st' : SigSt) :
    sigBH E st = .ok () st' ↔ ∃ b, st.sig.tags.getTag b!"bh" = some b ∧
      st' = { st with sig := { st.sig with bh := E.b64dec (stripSpace b.value) } } := by
  unfold sigBH
  simp only [es_bind_ok, needTag_ok, setSig_ok]
  constructor
  · rintro ⟨a, s1, ⟨h, rfl⟩, rfl⟩; exact ⟨a, h, rfl⟩
  · rintro ⟨a, h, rfl⟩; exact ⟨a, st, ⟨h, rfl⟩, rfl⟩

theorem canonOf_iff (v : Bytes) (m : CanonMode) : canonOf v = some m ↔ v = canonName m := by
  unfold canonOf
  constructor
  · intro h
    split at h
    · rename_i e; cases h; exact e
    · split at h
      · rename_i e; cases h; exact e
      · cases h
  · rintro rfl; cases m <;> decide

theorem canonName_no_slash (m : CanonMode) : ∀ c ∈ canonName m, (c == 47) = false := by
  cases m <;> decide

theorem splitC_iff (v : Bytes) (m n : CanonMode) :
    (canonOf (splitC v).1 = some m ∧ canonOf (splitC v).2 = some n) ↔ CanonTag (some v) m n := by
  rw [canonOf_iff, canonOf_iff]
  unfold splitC
  constructor
  · rcases findIdx_split (· == 47) v with ⟨h1, h2⟩ | ⟨a, x, b, h1, h2, h3, h4⟩
    · rw [h1]
      rintro ⟨rfl, h⟩
      cases n with
      | simple => exact .head m
      | relaxed =>
        have : b!"simple" = b!"relaxed" := h
        exact absurd this (by decide)
    · rw [h4]
      have hx : x = 47 := by simpa using h2
      subst hx
      rw [h1]
      have e1 : (a ++ 47 :: b).take a.length = a := by simp
      have e2 : (a ++ 47 :: b).drop (a.length + 1) = b := by
        rw [← List.drop_drop]; simp
      simp only [e1, e2]
      rintro ⟨rfl, rfl⟩
      exact .both m n
  · intro h
    cases h with
    | head =>
      have : (canonName m).findIdx? (· == 47) = none := by cases m <;> decide
      rw [this]
      exact ⟨rfl, rfl⟩
    | both =>
      have : (canonName m ++ 47 :: canonName n).findIdx? (· == 47) = some (canonName m).length :=
        findIdx_of _ _ _ _ (by decide) (canonName_no_slash m)
      rw [this]
      refine ⟨by simp, ?_⟩
      simp only
      rw [← List.drop_drop]; simp

theorem sigC_ok (st st' : SigSt) (h0 : st.sig.canonHeader = .simple) (h1 : st.sig.canonBody = .simple) :
    sigC st = .ok () st' ↔ ∃ m n, CanonTag ((st.sig.tags.getTag b!"c").map (·.value)) m n ∧
      st' = { st with sig := { st.sig with canonHeader := m, canonBody := n } } := by
  unfold sigC
  rw [es_bind_ok]
  simp only [sigTag_ok]
  cases hc : st.sig.tags.getTag b!"c" with
  | none =>
    constructor
    · rintro ⟨a, s1, ⟨rfl, rfl⟩, h⟩
      simp only [pure_ok, true_and] at h
      refine ⟨.simple, .simple, .absent, ?_⟩
      rw [h]
      obtain ⟨sig, er⟩ := s1
      cases sig
      simp_all
    · rintro ⟨m, n, h, rfl⟩
      cases h
      refine ⟨none, st, ⟨rfl, rfl⟩, ?_⟩
      simp only [pure_ok, true_and]
      obtain ⟨sig, er⟩ := st
      cases sig
      simp_all
  | some c =>
    constructor
    · rintro ⟨a, s1, ⟨rfl, rfl⟩, h⟩
      cases hm : canonOf (splitC c.value).1 with
      | none => simp [hm, es_bind_ok, throw_ok] at h
      | some m =>
        simp only [hm, es_bind_ok, setSig_ok] at h
        obtain ⟨u, s2, h2, h3⟩ := h
        cases hn : canonOf (splitC c.value).2 with
        | none => rw [hn] at h3; simp [throw_ok] at h3
        | some n =>
          rw [hn] at h3
          simp only [setSig_ok] at h3
          exact ⟨m, n, (splitC_iff _ _ _).1 ⟨hm, hn⟩, by rw [h3, h2]⟩
    · rintro ⟨m, n, h, rfl⟩
      obtain ⟨hm, hn⟩ := (splitC_iff c.value m n).2 h
      refine ⟨some c, st, ⟨rfl, rfl⟩, ?_⟩
      simp only [hm, es_bind_ok]
      refine ⟨(), { st with sig := { st.sig with canonHeader := m } }, ?_, ?_⟩
      · simp [setSig_ok]
      · simp [hn, setSig_ok]

theorem sigH_ok (st st' : SigSt) :
    sigH st = .ok () st' ↔ ∃ h hs, st.sig.tags.getTag b!"h" = some h ∧ valueList h.value = .ok hs ∧
      (∃ n ∈ hs, lower (cstr n) = b!"from") ∧ st' = { st with sig := { st.sig with headers := hs } } := by
  unfold sigH
  simp only [es_bind_ok, needTag_ok, liftE_ok, setSig_ok]
  constructor
  · rintro ⟨a, s1, ⟨h, rfl⟩, hs, s2, ⟨hv, rfl⟩, u, s3, rfl, h3⟩
    split at h3
    · simp [throw_ok] at h3
    · rename_i hany
      simp only [pure_ok, true_and] at h3
      refine ⟨a, hs, h, hv, ?_, h3⟩
      simpa using hany
  · rintro ⟨a, hs, h, hv, ⟨n, hn, hf⟩, rfl⟩
    refine ⟨a, st, ⟨h, rfl⟩, hs, st, ⟨hv, rfl⟩, (), _, rfl, ?_⟩
    have : hs.any (fun n => decide (lower (cstr n) = b!"from")) = true :=
      List.any_eq_true.2 ⟨n, hn, by simpa using hf⟩
    simp only [this]
    simp [pure_ok]

theorem sigIArc_ok (st st' : SigSt) :
    sigIArc st = .ok () st' ↔ ∃ i, st.sig.tags.getTag b!"i" = some i ∧
      1 ≤ (strtoul (cstr i.value)).1 ∧ (strtoul (cstr i.value)).1 ≤ 50 ∧
      st' = { erange := st.erange || (strtoul (cstr i.value)).2.2,
              sig := { st.sig with arcInstance := (strtoul (cstr i.value)).1 } } := by
  unfold sigIArc
  simp only [es_bind_ok, needTag_ok, raiseErange, modify_ok, setSig_ok]
  constructor
  · rintro ⟨a, s1, ⟨h, rfl⟩, u, s2, rfl, u', s3, rfl, h3⟩
    split at h3
    · simp [throw_ok] at h3
    · simp only [pure_ok, true_and] at h3
      exact ⟨a, h, by omega, by omega, h3⟩
  · rintro ⟨a, h, h1, h2, rfl⟩
    refine ⟨a, st, ⟨h, rfl⟩, (), _, rfl, (), _, rfl, ?_⟩
    rw [if_neg (by omega)]
    simp [pure_ok]

theorem isSubdomainOf_ok (mail dom : Bytes) : ∃ b, isSubdomainOf mail dom = .ok b ∧ (b = true ↔ InDomain mail dom) := by
  unfold isSubdomainOf InDomain
  by_cases h : mail = dom
  · exact ⟨true, by rw [if_pos h], by simp [h]⟩
  · rw [if_neg h]
    by_cases hl : mail.length > dom.length
    · have e : sizeSub (sizeSub mail.length dom.length) 1 = mail.length - dom.length - 1 := by
        have h1 : sizeSub mail.length dom.length = mail.length - dom.length := if_pos (by omega)
        rw [h1]
        exact if_pos (by omega)
      rw [if_pos hl, e, substrFrom, if_neg (by omega)]
      refine ⟨_, rfl, ?_⟩
      simp only [decide_eq_true_eq]
      constructor
      · intro h2
        refine Or.inr ⟨mail.take (mail.length - dom.length - 1), ?_⟩
        rw [h2, List.take_append_drop]
      · rintro (h' | ⟨p, rfl⟩)
        · exact absurd h' h
        · have : (p ++ 46 :: dom).length - dom.length - 1 = p.length := by simp; omega
          rw [this]; simp
    · rw [if_neg hl]
      refine ⟨false, rfl, ?_⟩
      simp only [Bool.false_eq_true, false_iff]
      rintro (h' | ⟨p, rfl⟩)
      · exact h h'
      · simp at hl; omega

theorem sigIDkim_ok (st st' : SigSt) :
    sigIDkim st = .ok () st' ↔ ∃ loc dom,
      IdentityTag st.sig.domain ((st.sig.tags.getTag b!"i").map (·.value)) loc dom ∧
      st' = { st with sig := { st.sig with mailLocal := loc, mailDomain := dom } } := by
  unfold sigIDkim
  rw [es_bind_ok]
  simp only [sigTag_ok]
  cases hc : st.sig.tags.getTag b!"i" with
  | none =>
    constructor
    · rintro ⟨a, s1, ⟨rfl, rfl⟩, h⟩
      simp only [setSig_ok] at h
      exact ⟨[], _, .absent, h⟩
    · rintro ⟨loc, dom, h, rfl⟩
      cases h
      exact ⟨none, st, ⟨rfl, rfl⟩, by simp [setSig_ok]⟩
  | some c =>
    constructor
    · rintro ⟨a, s1, ⟨rfl, rfl⟩, h⟩
      simp only [es_bind_ok, liftE_ok] at h
      obtain ⟨mail, s2, ⟨hq, rfl⟩, h3⟩ := h
      rcases findIdx_split (· == 64) mail with ⟨h1, h2⟩ | ⟨a, x, b, h1, h2, hno, h4⟩
      · rw [h1] at h3; simp [throw_ok] at h3
      · have hx : x = 64 := by simpa using h2
        subst hx
        rw [h4] at h3
        simp only [es_bind_ok, setSig_ok, get_ok] at h3
        obtain ⟨u, s3, rfl, sg, s4, ⟨rfl, rfl⟩, h5⟩ := h3
        have e1 : mail.take a.length = a := by rw [h1]; simp
        have e2 : mail.drop (a.length + 1) = b := by rw [h1, ← List.drop_drop]; simp
        rw [e1, e2] at h5
        obtain ⟨r, hr, hri⟩ := isSubdomainOf_ok (lower b) s2.sig.domain
        obtain ⟨r', s5, h6, h5⟩ := h5
        rw [liftE_ok] at h6
        obtain ⟨h6, rfl⟩ := h6
        have hrr : r' = r := by
          have := h6.symm.trans hr
          injection this
        subst hrr
        split at h5
        · simp [throw_ok] at h5
        · rename_i hs
          simp only [pure_ok, true_and] at h5
          refine ⟨a, lower b, ?_, h5⟩
          refine .present _ _ _ (h1 ▸ hq) ?_ (hri.1 (by simpa using hs))
          intro hm
          exact absurd (hno _ hm) (by decide)
    · rintro ⟨loc, dom, h, rfl⟩
      cases h with
      | present _ _ dom hq hno hin =>
        simp only [Spec.lower_eq] at hin ⊢
        refine ⟨some c, st, ⟨rfl, rfl⟩, ?_⟩
        simp only [es_bind_ok, liftE_ok]
        refine ⟨_, st, ⟨hq, rfl⟩, ?_⟩
        have : (loc ++ 64 :: dom).findIdx? (· == 64) = some loc.length :=
          findIdx_of _ _ _ _ (by decide) (fun c hc => by
            cases hh : (c == 64) with
            | false => rfl
            | true =>
              have : c = 64 := by simpa using hh
              exact absurd (this ▸ hc) hno)
        rw [this]
        simp only [es_bind_ok, setSig_ok, get_ok]
        refine ⟨(), _, rfl, _, _, ⟨rfl, rfl⟩, ?_⟩
        have e1 : (loc ++ 64 :: dom).take loc.length = loc := by simp
        have e2 : (loc ++ 64 :: dom).drop (loc.length + 1) = dom := by rw [← List.drop_drop]; simp
        rw [e1, e2]
        obtain ⟨r, hr, hri⟩ := isSubdomainOf_ok (lower dom) st.sig.domain
        have := hri.2 hin
        subst this
        refine ⟨true, _, (liftE_ok _ _ _ _).2 ⟨hr, rfl⟩, ?_⟩
        simp [pure_ok]

theorem sigI_eq (st : SigSt) : sigI st = if st.sig.arc then sigIArc st else sigIDkim st := by
  unfold sigI
  rw [es_bind, es_get, esBind_ok]
  split <;> rfl

theorem sigI_arc {st : SigSt} (ha : st.sig.arc = true) : sigI st = sigIArc st := by
  rw [sigI_eq, ha]; rfl

theorem sigI_dkim {st : SigSt} (ha : st.sig.arc = false) : sigI st = sigIDkim st := by
  rw [sigI_eq, ha]; rfl

theorem sigL_ok (st st' : SigSt) (h0 : st.sig.bodySize = 0) (h1 : st.sig.bodySizeLimit = false)
    (hc : ∀ t, st.sig.tags.getTag b!"l" = some t → cstr t.value = t.value) :
    sigL st = .ok () st' ↔ ∃ n lim, LengthTag ((st.sig.tags.getTag b!"l").map (·.value)) n lim ∧
      (st.erange = true → st.sig.tags.getTag b!"l" = none) ∧
      st' = { st with sig := { st.sig with bodySize := n, bodySizeLimit := lim } } := by
  unfold sigL
  rw [es_bind_ok]
  simp only [sigTag_ok]
  cases ht : st.sig.tags.getTag b!"l" with
  | none =>
    constructor
    · rintro ⟨a, s1, ⟨rfl, rfl⟩, h⟩
      simp only [pure_ok, true_and] at h
      refine ⟨0, false, .absent, fun _ => rfl, ?_⟩
      rw [h]
      obtain ⟨sig, er⟩ := s1
      cases sig
      simp_all
    · rintro ⟨m, n, h, _, rfl⟩
      cases h
      refine ⟨none, st, ⟨rfl, rfl⟩, ?_⟩
      simp only [pure_ok, true_and]
      obtain ⟨sig, er⟩ := st
      cases sig
      simp_all
  | some l =>
    have hcl := hc l ht
    constructor
    · rintro ⟨a, s1, ⟨rfl, rfl⟩, h⟩
      simp only [hcl] at h
      split at h
      · simp [es_bind_ok, throw_ok] at h
      · rename_i hlen
        simp only [es_bind_ok, raiseErange, modify_ok, get_ok] at h
        obtain ⟨u, s2, rfl, s3, s4, ⟨rfl, rfl⟩, h⟩ := h
        simp only at h
        split at h
        · simp [es_bind_ok, throw_ok] at h
        · rename_i her
          split at h
          · simp [es_bind_ok, throw_ok] at h
          · rename_i hneg
            split at h
            · simp [es_bind_ok, throw_ok] at h
            · rename_i hrest
              rw [setSig_ok] at h
              simp only [Bool.or_eq_true, not_or, Bool.not_eq_true] at her
              refine ⟨(strtoul l.value).1, true, ?_, ?_, ?_⟩
              · refine .present _ _ (by show l.value.length ≤ 76; omega) (uLong_iff.2 ?_) (by omega)
                rw [← her.2]
                have : (strtoul l.value).2.1 = [] := by simpa using hrest
                rw [← this]
              · intro h; rw [her.1] at h; cases h
              · rw [h, her.2]; simp
    · rintro ⟨n, lim, h, her, rfl⟩
      cases h with
      | present _ _ hlen hs hn =>
      have her : st.erange = false := by
        cases he : st.erange with
        | false => rfl
        | true => exact absurd (her he) (by simp)
      refine ⟨some l, st, ⟨rfl, rfl⟩, ?_⟩
      have hlen : l.value.length ≤ 76 := hlen
      have hs : strtoul l.value = (n, [], false) := uLong_iff.1 hs
      simp only [hcl, hs]
      rw [if_neg (by omega)]
      simp only [es_bind_ok, raiseErange, modify_ok, get_ok]
      refine ⟨(), _, rfl, _, _, ⟨rfl, rfl⟩, ?_⟩
      have hn' : ¬ n ≥ 2 ^ 63 := by omega
      simp only [her, Bool.or_false, Bool.false_eq_true, if_false, hn', List.isEmpty_nil, Bool.not_true, setSig_ok]

theorem sigQ_ok (st st' : SigSt) :
    sigQ st = .ok () st' ↔ st' = st ∧ ((st.sig.tags.getTag b!"q").map (·.value) = none ∨
      (st.sig.tags.getTag b!"q").map (·.value) = some b!"dns/txt") := by
  unfold sigQ
  rw [es_bind_ok]
  simp only [sigTag_ok]
  cases ht : st.sig.tags.getTag b!"q" with
  | none =>
    constructor
    · rintro ⟨a, s1, ⟨rfl, rfl⟩, h⟩
      simp only [pure_ok, true_and] at h
      exact ⟨h, Or.inl rfl⟩
    · rintro ⟨rfl, _⟩
      exact ⟨none, _, ⟨rfl, rfl⟩, by simp [pure_ok]⟩
  | some q =>
    constructor
    · rintro ⟨a, s1, ⟨rfl, rfl⟩, h⟩
      simp only at h
      split at h
      · simp [throw_ok] at h
      · rename_i hv
        simp only [pure_ok, true_and] at h
        exact ⟨h, Or.inr (by simpa using hv)⟩
    · rintro ⟨rfl, h⟩
      have : q.value = b!"dns/txt" := by simpa using h
      exact ⟨some q, _, ⟨rfl, rfl⟩, by simp [this, pure_ok]⟩

theorem sigS_ok (st st' : SigSt) :
    sigS st = .ok () st' ↔ ∃ d, st.sig.tags.getTag b!"s" = some d ∧
      st' = { st with sig := { st.sig with selector := d.value } } := by
  unfold sigS
  simp only [es_bind_ok, needTag_ok, setSig_ok]
  constructor
  · rintro ⟨a, s1, ⟨h, rfl⟩, rfl⟩; exact ⟨a, h, rfl⟩
  · rintro ⟨a, h, rfl⟩; exact ⟨a, st, ⟨h, rfl⟩, rfl⟩

/-- Whether reading x= raises ERANGE. -/
def xRange (tags : TagList) : Bool :=
  match tags.getTag b!"x" with
  | none => false
  | some x => (strtol x.value).2

theorem sigX_ok (now : Int) (st st' : SigSt)
    (hc : ∀ t, st.sig.tags.getTag b!"x" = some t → cstr t.value = t.value) :
    sigX now st = .ok () st' ↔ (∀ x, (st.sig.tags.getTag b!"x").map (·.value) = some x → now ≤ (strtol x).1) ∧
      st' = { st with erange := st.erange || xRange st.sig.tags } := by
  unfold sigX xRange
  rw [es_bind_ok]
  simp only [sigTag_ok]
  cases ht : st.sig.tags.getTag b!"x" with
  | none =>
    constructor
    · rintro ⟨a, s1, ⟨rfl, rfl⟩, h⟩
      simp only [pure_ok, true_and] at h
      exact ⟨by simp, by simp [h]⟩
    · rintro ⟨_, rfl⟩
      exact ⟨none, st, ⟨rfl, rfl⟩, by simp [pure_ok]⟩
  | some x =>
    have hcx := hc x ht
    constructor
    · rintro ⟨a, s1, ⟨rfl, rfl⟩, h⟩
      simp only [hcx, es_bind_ok, raiseErange, modify_ok] at h
      obtain ⟨u, s2, rfl, h⟩ := h
      split at h
      · simp [throw_ok] at h
      · simp only [pure_ok, true_and] at h
        refine ⟨?_, h⟩
        intro y hy
        have : x.value = y := by simpa using hy
        rw [← this]; omega
    · rintro ⟨h, rfl⟩
      have := h x.value rfl
      refine ⟨some x, st, ⟨rfl, rfl⟩, ?_⟩
      simp only [hcx, es_bind_ok, raiseErange, modify_ok]
      refine ⟨(), _, rfl, ?_⟩
      rw [if_neg (by omega)]
      simp [pure_ok]

/-- Values of a parsed tag list contain no NUL. -/
theorem Spec.TagText.no_nul {pos : Nat} {s : Bytes} {es : List (Bytes × TagEntry)} (h : TagText pos s es)
    (n : Bytes) (t : TagEntry) (hm : (n, t) ∈ es) : (0 : Byte) ∉ t.value := by
  have key : ∀ i : TagItem, i.WF → (0 : Byte) ∉ i.value := by
    intro i hwf h0
    rcases hwf.2.2.2.2.1.1 _ h0 with h | h
    · have := h.1; revert this; decide
    · revert h; decide
  induction h with
  | done => simp at hm
  | last pos i hwf =>
    simp only [List.mem_singleton, Prod.mk.injEq] at hm
    obtain ⟨rfl, rfl⟩ := hm
    exact key i hwf
  | cons pos i s es hwf htt ih =>
    rcases List.mem_cons.1 hm with hm | hm
    · simp only [Prod.mk.injEq] at hm
      obtain ⟨rfl, rfl⟩ := hm
      exact key i hwf
    · exact ih hm

theorem cstr_eq {s : Bytes} (h : (0 : Byte) ∉ s) : cstr s = s := by
  unfold cstr
  induction s with
  | nil => rfl
  | cons c r ih =>
    have hc : c ≠ 0 := fun e => h (by simp [e])
    simp [hc, ih (fun hm => h (by simp [hm]))]

theorem getTag_mem {es : TagList} {n : Bytes} {t : TagEntry} (h : es.getTag n = some t) : (n, t) ∈ es := by
  unfold TagList.getTag at h
  induction es with
  | nil => simp at h
  | cons p es ih =>
    obtain ⟨k, v⟩ := p
    rw [List.lookup_cons] at h
    by_cases hk : n = k
    · subst hk; simp at h; simp [h]
    · have hb : (n == k) = false := by simpa using hk
      rw [hb] at h
      exact List.mem_cons_of_mem _ (ih h)

end Dkim
