import Verif.Model.Signatory
import Verif.Spec.Signing
import Verif.Proofs.HashInput
import Verif.Proofs.Body
import Verif.Props.Body
import Verif.Props.Message
/-!
# Proofs about `CreateSignature`: decomposition
-/

namespace Dkim
open Spec

variable {E : Env}

theorem isSelected_iff (sel : List Bytes) (h : Header) : isSelected sel h = true ↔ Wanted sel h := by
  unfold isSelected Wanted
  have hl : (lower h.name).isEmpty = h.name.isEmpty := by unfold lower; simp
  simp only [hl, Bool.and_eq_true, Bool.not_eq_true', Bool.or_eq_true, List.isEmpty_iff, List.contains_iff_mem,
    List.mem_map]
  cases h.name <;> simp

theorem CanonAll_nil {mode : CanonMode} {cs : List Bytes} : CanonAll mode [] cs ↔ cs = [] := by
  unfold CanonAll; cases cs <;> simp

theorem CanonAll_cons {mode : CanonMode} {f : Header} {fs : List Header} {cs : List Bytes} :
    CanonAll mode (f :: fs) cs ↔ ∃ c cs', cs = c :: cs' ∧ filterHeader mode f.header = .ok c ∧ CanonAll mode fs cs' := by
  unfold CanonAll
  cases cs with
  | nil => simp
  | cons c cs =>
    simp only [List.map_cons, List.cons.injEq]
    constructor
    · intro h; exact ⟨c, cs, ⟨rfl, rfl⟩, h.1, h.2⟩
    · rintro ⟨_, _, ⟨rfl, rfl⟩, h1, h2⟩; exact ⟨h1, h2⟩

theorem signLoop_ok (mode : CanonMode) (sel : List Bytes) (hs : List Header) (a : Bytes) (names : List Bytes) :
    signLoop mode sel hs = .ok (a, names) ↔
      ∃ cs, CanonAll mode (hs.filter (Wanted sel)) cs ∧ a = lines cs ∧
        names = (hs.filter (Wanted sel)).map (fun h => lower h.name) := by
  induction hs generalizing a names with
  | nil =>
    simp only [signLoop, List.filter_nil, CanonAll_nil, List.map_nil, Except.ok.injEq, Prod.mk.injEq]
    constructor
    · rintro ⟨rfl, rfl⟩; exact ⟨[], rfl, rfl, rfl⟩
    · rintro ⟨_, rfl, rfl, rfl⟩; exact ⟨rfl, rfl⟩
  | cons h hs ih =>
    unfold signLoop
    by_cases hw : Wanted sel h
    · rw [if_pos ((isSelected_iff _ _).2 hw), List.filter_cons_of_pos (by simpa using hw)]
      simp only [CanonAll_cons, List.map_cons]
      cases hf : filterHeader mode h.header with
      | error e => simp
      | ok t =>
        cases hr : signLoop mode sel hs with
        | error e =>
          simp only [reduceCtorEq, false_iff]
          rintro ⟨cs, ⟨c, cs', rfl, _, h2⟩, _, _⟩
          have := (ih (lines cs') _).2 ⟨cs', h2, rfl, rfl⟩
          rw [hr] at this; cases this
        | ok p =>
          obtain ⟨b, ns⟩ := p
          obtain ⟨cs, h1, h2, h3⟩ := (ih b ns).1 hr
          simp only [Except.ok.injEq, Prod.mk.injEq]
          constructor
          · rintro ⟨rfl, rfl⟩
            refine ⟨t :: cs, ⟨t, cs, rfl, rfl, h1⟩, ?_, ?_⟩
            · rw [h2]; simp [lines]
            · rw [h3]
          · rintro ⟨_, ⟨c, cs', rfl, rfl, h5⟩, rfl, rfl⟩
            unfold CanonAll at h1 h5
            rw [h1] at h5
            have : cs = cs' := (List.map_inj_right (fun _ _ h => by cases h; rfl)).1 h5
            subst this
            rw [h2, h3]
            exact ⟨by simp [lines], rfl⟩
    · rw [if_neg (by rw [isSelected_iff]; exact hw), List.filter_cons_of_neg (by simpa using hw)]
      exact ih a names

/-- What `CreateSignature` does after parsing, on the parsed fields and the body. -/
def signParsed (E : Env) (o : Options E) (clock : Nat → Int) (hs : List Header) (body : Bytes) : Except Err Bytes :=
  if o.bodySignLength = true ∧ (Spec.canonBody o.canonBody body).length < o.bodyLength then .error (.p .bodyLimitExceeded)
  else
    match signLoop o.canonHead o.headers hs.reverse with
    | .error e => .error e
    | .ok (hashed, names) =>
      allSignatures E o clock hashed (names ++ o.oversign.map lower)
        (E.hash o.digest (cap o.bodySignLength o.bodyLength (Spec.canonBody o.canonBody body))) 0 [] o.signatures.reverse

theorem createSignature_eq (o : Options E) (clock : Nat → Int) (sg : Signatory) (m : Message) (s1 : IStream)
    (hp : sg.msg.parseAll sg.file = .ok (m, s1)) (hv : ValidOffset s1 m.bodyOffset) :
    ∃ r s2, Dkim.canonBody s1 o.canonBody m.bodyOffset o.bodySignLength o.bodyLength = .ok (r, s2) ∧ s2.data = s1.data ∧
      Signatory.createSignature E o clock sg =
        (signParsed E o clock m.headers (bodyPart s1.data m.bodyOffset), { file := s2, msg := m }) := by
  obtain ⟨calls, s', h1, h2, h3⟩ := canonBodyBlk_spec 8096 (by decide) s1 o.canonBody m.bodyOffset
    o.bodySignLength o.bodyLength hv
  refine ⟨_, s', h1, h2, ?_⟩
  unfold Signatory.createSignature
  rw [hp]
  simp only
  rw [show Dkim.canonBody s1 o.canonBody m.bodyOffset o.bodySignLength o.bodyLength = _ from h1]
  simp only
  unfold signParsed
  rw [h3]
  by_cases hb : o.bodySignLength = true ∧
      (Spec.canonBody o.canonBody (bodyPart s1.data m.bodyOffset)).length < o.bodyLength
  · rw [if_pos hb, if_pos (by simp [hb.1, hb.2])]
  · rw [if_neg hb, if_neg (by
      simp only [not_and, Nat.not_lt] at hb
      cases hc : o.bodySignLength with
      | false => simp
      | true => simp [hb hc])]
    cases signLoop o.canonHead o.headers m.headers.reverse with
    | error e => rfl
    | ok q => rfl

theorem parse_valid (d : Bytes) (m : Message) (s1 : IStream) (hp : Message.parseAll {} (freshStream d) = .ok (m, s1)) :
    ValidOffset s1 m.bodyOffset ∧ s1.data = d := by
  obtain ⟨m2, s2, ls, h1, h2, _, h4⟩ := C20_parse d
  rw [hp] at h1; cases h1
  refine ⟨?_, h4⟩
  unfold ValidOffset
  rcases C20_body_offset d m s1 hp with ⟨n, h5, h6, _⟩ | ⟨h5, _⟩
  · right; rw [h4, h5]; omega
  · left; exact h5

/-- Everything `CreateSignature` computes before the loop over the signatures. -/
theorem createSignature_ok (o : Options E) (clock : Nat → Int) (d : Bytes) (H : Bytes)
    (h : (Signatory.createSignature E o clock { file := freshStream d }).1 = .ok H) :
    ∃ m s1 cs, Message.parseAll {} (freshStream d) = .ok (m, s1) ∧
      (o.bodySignLength = true → o.bodyLength ≤ (Spec.canonBody o.canonBody (bodyPart d m.bodyOffset)).length) ∧
      CanonAll o.canonHead (signedFields o.headers m.headers) cs ∧
      allSignatures E o clock (lines cs) (signedNames o.headers o.oversign m.headers)
        (E.hash o.digest (cap o.bodySignLength o.bodyLength (Spec.canonBody o.canonBody (bodyPart d m.bodyOffset))))
        0 [] o.signatures.reverse = .ok H := by
  obtain ⟨m, s1, _, hp, _⟩ := C20_parse d
  obtain ⟨hv, hd⟩ := parse_valid d m s1 hp
  obtain ⟨r, s2, _, _, h3⟩ := createSignature_eq o clock { file := freshStream d } m s1 hp hv
  rw [h3, hd] at h
  simp only [signParsed] at h
  split at h
  · cases h
  · rename_i hb
    cases hl : signLoop o.canonHead o.headers m.headers.reverse with
    | error e => rw [hl] at h; cases h
    | ok q =>
      obtain ⟨a, names⟩ := q
      rw [hl] at h
      simp only at h
      obtain ⟨cs, k1, k2, k3⟩ := (signLoop_ok _ _ _ _ _).1 hl
      subst k2 k3
      refine ⟨m, s1, cs, hp, ?_, k1, h⟩
      intro hs
      simp only [hs, true_and, Nat.not_lt] at hb
      exact hb

theorem oneSignature_ne {o : Options E} {s : SigOpts E} {now : Int} {hashed bh t : Bytes} {names : List Bytes}
    (h : oneSignature E o s now hashed names bh = .ok t) : t ≠ [] := by
  unfold oneSignature at h
  cases h1 : sigHeaderText o s now names bh with
  | error e => rw [h1] at h; cases h
  | ok text =>
    rw [h1] at h
    simp only at h
    have hne : text ≠ [] := by
      unfold sigHeaderText at h1
      cases h2 : sigTimes o now with
      | error e => rw [h2] at h1; cases h1
      | ok tm => rw [h2] at h1; cases h1; simp
    cases h2 : filterHeader o.canonHead text with
    | error e => rw [h2] at h; cases h
    | ok t2 =>
      rw [h2] at h
      simp only at h
      cases h3 : signDigest E s o.digest (E.hash o.digest (hashed ++ t2)) with
      | error e => rw [h3] at h; cases h
      | ok sgn =>
        rw [h3] at h
        simp only at h
        cases h4 : foldB ((b64Encode sgn).length + 1) 3 (b64Encode sgn) with
        | error e => rw [h4] at h; cases h
        | ok b => rw [h4] at h; cases h; simp [hne]

/-- The loop over the signatures: the fields it produces, joined by CRLF. -/
theorem allSignatures_ok (o : Options E) (clock : Nat → Int) (hashed bh : Bytes) (names : List Bytes) (k : Nat)
    (acc : Bytes) (ss : List (SigOpts E)) (H : Bytes)
    (h : allSignatures E o clock hashed names bh k acc ss = .ok H) :
    ∃ ts : List Bytes, ts.length = ss.length ∧ H = (if acc.isEmpty then joinLines ts else joinLines (acc :: ts)) ∧
      ∀ i s, ss[i]? = some s → ∃ t, ts[i]? = some t ∧ oneSignature E o s (clock (k + i)) hashed names bh = .ok t := by
  induction ss generalizing k acc with
  | nil =>
    simp only [allSignatures, Except.ok.injEq] at h
    subst h
    refine ⟨[], rfl, ?_, by simp⟩
    cases acc <;> simp [joinLines]
  | cons s ss ih =>
    unfold allSignatures at h
    cases h1 : oneSignature E o s (clock k) hashed names bh with
    | error e => rw [h1] at h; cases h
    | ok t =>
      rw [h1] at h
      simp only at h
      obtain ⟨ts, l1, l2, l3⟩ := ih _ _ h
      have tne := oneSignature_ne h1
      refine ⟨t :: ts, by simp [l1], ?_, ?_⟩
      · rw [l2]
        cases acc with
        | nil =>
          cases t with
          | nil => exact absurd rfl tne
          | cons c t => rfl
        | cons c acc =>
          simp only [List.isEmpty_cons, Bool.false_eq_true, if_false]
          rw [if_neg (by simp)]
          cases ts with
          | nil => simp [joinLines]
          | cons t2 ts => simp [joinLines]
      · intro i s' hi
        cases i with
        | zero => simp at hi; subst hi; exact ⟨t, rfl, h1⟩
        | succ i =>
          simp at hi
          obtain ⟨t', e1, e2⟩ := l3 i s' hi
          refine ⟨t', by simpa using e1, ?_⟩
          rw [show k + (i + 1) = k + 1 + i from by omega]; exact e2

end Dkim
