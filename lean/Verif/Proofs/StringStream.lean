import Verif.Model.StringStream
import Verif.Spec.Position
import Verif.Proofs.EState
import Verif.Proofs.Ascii
/-!
# Stream programs against byte-list functions: the simulation
-/

namespace Dkim

open Spec

namespace SS

variable {α β : Type}

/-- The stream stands before `rest` in `input`. `pk`: the next byte has been looked at, so the end of
the input has been noticed. -/
structure Rep (pk : Bool) (input : Bytes) (s : SS) (rest : Bytes) : Prop where
  data : s.data = input
  drop : input.drop s.pos = rest
  le : s.pos ≤ input.length
  bad : s.bad = false
  live : rest ≠ [] → s.eof = false ∧ s.fail = false
  seen : pk = true → rest = [] → s.good = false

/-- `m` run from `s` ends as described. -/
def Run (s : SS) (m : SM α) (ok : α → SS → Prop) (err : SErr → Prop) : Prop :=
  match m s with
  | .ok a s' => ok a s'
  | .error e _ => err e

theorem Run.bind {s : SS} {m : SM α} {f : α → SM β} {ok : β → SS → Prop} {err : SErr → Prop}
    (h : Run s m (fun a s' => Run s' (f a) ok err) err) : Run s (m >>= f) ok err := by
  unfold Run at *
  rw [es_bind]
  cases hm : m s <;> simp only [hm] at h <;> exact h

theorem Run.mono {s : SS} {m : SM α} {ok ok' : α → SS → Prop} {err err' : SErr → Prop}
    (h : Run s m ok err) (h1 : ∀ a s', ok a s' → ok' a s') (h2 : ∀ e, err e → err' e) :
    Run s m ok' err' := by
  unfold Run at *
  cases hm : m s <;> simp only [hm] at h ⊢
  · exact h1 _ _ h
  · exact h2 _ h

theorem Run.pure {s : SS} {a : α} {ok : α → SS → Prop} {err : SErr → Prop} (h : ok a s) :
    Run s (pure a) ok err := h

theorem Run.throw {s : SS} {e : SErr} {ok : α → SS → Prop} {err : SErr → Prop} (h : err e) :
    Run s (throw e : SM α) ok err := h

variable {input rest r : Bytes} {s : SS} {pk : Bool} {c : Byte}

theorem Rep.weak (h : Rep pk input s rest) : Rep false input s rest :=
  ⟨h.data, h.drop, h.le, h.bad, h.live, by simp⟩

theorem Rep.start (input : Bytes) : Rep false input { data := input } input :=
  ⟨rfl, rfl, Nat.zero_le _, rfl, fun _ => ⟨rfl, rfl⟩, by simp⟩

theorem Rep.good (h : Rep pk input s (c :: r)) : s.good = true := by
  have := h.live (by simp)
  simp [SS.good, this, h.bad]

theorem Rep.at (h : Rep pk input s (c :: r)) : input[s.pos]? = some c := by
  have := congrArg (fun l => l[0]?) h.drop
  simpa using this

theorem Rep.pos_lt (h : Rep pk input s (c :: r)) : s.pos < input.length := by
  have := h.at
  rw [List.getElem?_eq_some_iff] at this
  exact this.1

theorem Rep.atEnd (h : Rep pk input s []) : s.pos = input.length := by
  have h1 := congrArg List.length h.drop
  have h2 := h.le
  simp at h1
  omega

theorem Rep.len (h : Rep pk input s rest) : rest.length = input.length - s.pos := by
  rw [← h.drop]; simp

theorem Rep.strong (h : Rep pk input s (c :: r)) : Rep true input s (c :: r) :=
  ⟨h.data, h.drop, h.le, h.bad, h.live, by simp⟩

theorem peek_cons (h : Rep pk input s (c :: r)) : peek s = .ok (some c) s := by
  simp [peek, h.good, h.data, h.at]

theorem peek_nil (h : Rep pk input s []) : ∃ s', peek s = .ok none s' ∧ Rep true input s' [] := by
  unfold peek
  have hp := h.atEnd
  by_cases hg : s.good = true
  · refine ⟨{ s with eof := true }, ?_, ⟨h.data, h.drop, h.le, h.bad, by simp, fun _ _ => by simp [SS.good]⟩⟩
    simp [hg, h.data, hp]
  · refine ⟨{ s with fail := true }, ?_, ⟨h.data, h.drop, h.le, h.bad, by simp, fun _ _ => by simp [SS.good]⟩⟩
    simp [hg]

theorem Run.peek {ok : Option Byte → SS → Prop} {err : SErr → Prop} (h : Rep pk input s rest)
    (k : ∀ s', Rep true input s' rest → ok rest.head? s') : Run s SS.peek ok err := by
  unfold Run
  cases rest with
  | nil =>
    obtain ⟨s', e, h'⟩ := peek_nil h
    rw [e]; exact k s' h'
  | cons c r => rw [peek_cons h]; exact k s h.strong

theorem Run.get {ok : Option Byte → SS → Prop} {err : SErr → Prop} (h : Rep pk input s rest)
    (k : ∀ s', Rep false input s' rest.tail → ok rest.head? s') : Run s SS.get ok err := by
  unfold Run SS.get
  cases rest with
  | nil =>
    have hp := h.atEnd
    by_cases hg : s.good = true
    · simp only [hg, if_true, h.data, hp, List.getElem?_eq_none (Nat.le_refl _)]
      exact k _ ⟨rfl, by simp, Nat.le_refl _, h.bad, by simp, by simp⟩
    · simp only [hg]
      exact k _ ⟨h.data, h.drop, h.le, h.bad, by simp, by simp⟩
  | cons c r =>
    simp only [h.good, if_true, h.data, h.at]
    refine k _ ⟨rfl, ?_, ?_, h.bad, fun _ => h.live (by simp), by simp⟩
    · show input.drop (s.pos + 1) = r
      rw [← List.drop_drop, h.drop]; rfl
    · exact h.pos_lt

theorem Run.tellg {ok : Int → SS → Prop} {err : SErr → Prop} (h : Rep true input s rest)
    (k : ∀ s', Rep true input s' rest → (rest ≠ [] → s'.pos = s.pos) →
      ok (tellgAfterPeek input.length rest) s') : Run s SS.tellg ok err := by
  unfold Run SS.tellg
  cases rest with
  | nil =>
    simp only [h.seen rfl rfl]
    exact k _ ⟨h.data, h.drop, h.le, h.bad, by simp, fun _ _ => by simp [SS.good]⟩ (by simp)
  | cons c r =>
    simp only [h.good, if_true]
    have := k s h (fun _ => rfl)
    have hl := h.len
    have := h.le
    have e : tellgAfterPeek input.length (c :: r) = (s.pos : Int) := by
      unfold tellgAfterPeek
      have h1 := h.pos_lt
      simp only [List.isEmpty_cons, Bool.false_eq_true, if_false]
      omega
    rw [← e]; assumption

theorem Run.left {ok : Nat → SS → Prop} {err : SErr → Prop} (h : Rep pk input s rest)
    (k : ok rest.length s) : Run s SS.left ok err := by
  unfold Run SS.left
  rw [h.len] at k
  simp only [h.data]; exact k

/-! ## Tests -/

/-- `m` only looks at the next byte and answers `q`. -/
def Tests (m : SM Bool) (q : Option Byte → Bool) : Prop :=
  ∀ input rest s pk, Rep pk input s rest →
    Run s m (fun b s' => b = q rest.head? ∧ Rep true input s' rest) (fun _ => False)

/-- The same for tests that may not look at all: what was noticed stays noticed. -/
def TestsW (m : SM Bool) (q : Option Byte → Bool) : Prop :=
  ∀ input rest s pk, Rep pk input s rest →
    Run s m (fun b s' => b = q rest.head? ∧ Rep pk input s' rest) (fun _ => False)

theorem Rep.of_true (h : Rep true input s rest) : Rep pk input s rest :=
  ⟨h.data, h.drop, h.le, h.bad, h.live, fun _ => h.seen rfl⟩

theorem Tests.w {m : SM Bool} {q} (h : Tests m q) : TestsW m q := by
  intro input rest s pk hr
  exact (h _ _ _ _ hr).mono (fun _ _ ⟨a, b⟩ => ⟨a, b.of_true⟩) (fun _ e => e)

theorem tests_is (c : Byte) : Tests (peekIs c) (fun o => o == some c) := by
  intro input rest s pk h
  unfold peekIs
  refine Run.bind (Run.peek h fun s' h' => Run.pure ⟨rfl, h'⟩)

theorem tests_eof : Tests peekEOF (fun o => o == none) := by
  intro input rest s pk h
  unfold peekEOF
  refine Run.bind (Run.peek h fun s' h' => Run.pure ⟨rfl, h'⟩)

theorem tests_ge (a : Byte) : Tests (peekGe a) (fun o => o.any (fun c => a ≤ c)) := by
  intro input rest s pk h
  unfold peekGe
  refine Run.bind (Run.peek h fun s' h' => ?_)
  cases rest with
  | nil => exact Run.pure ⟨rfl, h'⟩
  | cons c r => exact Run.pure ⟨rfl, h'⟩

theorem tests_le (b : Byte) : Tests (peekLe b) (fun o => o.all (fun c => c ≤ b)) := by
  intro input rest s pk h
  unfold peekLe
  refine Run.bind (Run.peek h fun s' h' => ?_)
  cases rest with
  | nil => exact Run.pure ⟨rfl, h'⟩
  | cons c r => exact Run.pure ⟨rfl, h'⟩

theorem Tests.congr {m : SM Bool} {q q' : Option Byte → Bool} (h : Tests m q) (e : ∀ o, q o = q' o) :
    Tests m q' := by
  have : q = q' := funext e
  rw [← this]; exact h

theorem Tests.or {a b : SM Bool} {q q' : Option Byte → Bool} (h : Tests a q) (h' : Tests b q') :
    Tests (a <||> b) (fun o => q o || q' o) := by
  intro input rest s pk hr
  unfold orM
  refine Run.bind ((h _ _ _ _ hr).mono ?_ (fun _ e => e.elim))
  intro x s' hx
  obtain ⟨rfl, hr'⟩ := hx
  cases hq : q rest.head? with
  | true => exact Run.pure ⟨by simp [hq], hr'⟩
  | false => exact (h' _ _ _ _ hr').mono (fun _ _ h => ⟨by simp [h.1, hq], h.2⟩) (fun _ e => e)

theorem Tests.and {a b : SM Bool} {q q' : Option Byte → Bool} (h : Tests a q) (h' : Tests b q') :
    Tests (a <&&> b) (fun o => q o && q' o) := by
  intro input rest s pk hr
  unfold andM
  refine Run.bind ((h _ _ _ _ hr).mono ?_ (fun _ e => e.elim))
  intro x s' hx
  obtain ⟨rfl, hr'⟩ := hx
  cases hq : q rest.head? with
  | false => exact Run.pure ⟨by simp [hq], hr'⟩
  | true => exact (h' _ _ _ _ hr').mono (fun _ _ h => ⟨by simp [h.1, hq], h.2⟩) (fun _ e => e)

theorem Tests.not {a : SM Bool} {q : Option Byte → Bool} (h : Tests a q) :
    Tests (do return !(← a)) (fun o => !q o) := by
  intro input rest s pk hr
  refine Run.bind ((h _ _ _ _ hr).mono ?_ (fun _ e => e.elim))
  intro x s' hx
  exact Run.pure ⟨by rw [hx.1], hx.2⟩

theorem Tests.pure_and {b : SM Bool} {x : Bool} {q : Option Byte → Bool} (h : Tests b q) :
    TestsW (Pure.pure x <&&> b) (fun o => x && q o) := by
  intro input rest s pk hr
  unfold andM
  refine Run.bind (Run.pure ?_)
  cases x with
  | false => exact Run.pure ⟨by simp, hr⟩
  | true => exact (h.w _ _ _ _ hr).mono (fun _ _ h => ⟨by simp [h.1], h.2⟩) (fun _ e => e)

theorem tests_between (a b : Byte) : Tests (between a b) (fun o => o.any (fun c => a ≤ c && c ≤ b)) :=
  Tests.congr ((tests_ge a).and (tests_le b)) (fun o => by cases o <;> simp)

/-- Branching on a test. -/
theorem Run.test {m : SM Bool} {q} {A B : SM α} {ok : α → SS → Prop} {err : SErr → Prop}
    (hT : Tests m q) (h : Rep pk input s rest)
    (ht : q rest.head? = true → ∀ s', Rep true input s' rest → Run s' A ok err)
    (hf : q rest.head? = false → ∀ s', Rep true input s' rest → Run s' B ok err) :
    Run s (m >>= fun b => if b = true then A else B) ok err := by
  refine Run.bind ((hT _ _ _ _ h).mono ?_ (fun _ e => e.elim))
  intro b s' hb
  obtain ⟨rfl, hr⟩ := hb
  cases hq : q rest.head? with
  | true => simpa using ht hq s' hr
  | false => simpa using hf hq s' hr

theorem Run.testW {m : SM Bool} {q} {A B : SM α} {ok : α → SS → Prop} {err : SErr → Prop}
    (hT : TestsW m q) (h : Rep pk input s rest)
    (ht : q rest.head? = true → ∀ s', Rep pk input s' rest → Run s' A ok err)
    (hf : q rest.head? = false → ∀ s', Rep pk input s' rest → Run s' B ok err) :
    Run s (m >>= fun b => if b = true then A else B) ok err := by
  refine Run.bind ((hT _ _ _ _ h).mono ?_ (fun _ e => e.elim))
  intro b s' hb
  obtain ⟨rfl, hr⟩ := hb
  cases hq : q rest.head? with
  | true => simpa using ht hq s' hr
  | false => simpa using hf hq s' hr

/-! ## Errors -/

/-- The exception is the byte-list function's and its text is right. -/
def Raises (input : Bytes) (want : Err) (e : SErr) : Prop :=
  want = e.toErr ∧ ∀ r b p, e = .perm r b p → Points input r b p

/-- The same for texts without numbers. -/
theorem Run.throwPlain {ok : α → SS → Prop} {err : SErr → Prop} {x : Reason}
    (h : err (.perm x none none)) : Run s (SS.throwPlain x : SM α) ok err := h

theorem Run.throwAt {lr : Bool} {x : Reason} {ok : α → SS → Prop} {err : SErr → Prop}
    (h : Rep true input s rest)
    (k : err (.perm x (some (code rest.head?)) (some (tellgAfterPeek input.length rest)))) :
    Run s (SS.throwAt lr x : SM α) ok err := by
  unfold SS.throwAt peekTell
  cases lr with
  | true =>
    simp only [if_true]
    refine Run.bind (Run.bind (Run.peek h fun s1 h1 => ?_))
    refine Run.bind (Run.tellg h1 fun s2 h2 _ => ?_)
    exact Run.pure (Run.throw k)
  | false =>
    simp only [Bool.false_eq_true, if_false]
    refine Run.bind (Run.bind (Run.tellg h fun s2 h2 _ => ?_))
    refine Run.bind (Run.peek h2 fun s1 h1 => ?_)
    exact Run.pure (Run.throw k)

theorem Run.throwPos {x : Reason} {ok : α → SS → Prop} {err : SErr → Prop}
    (h : Rep true input s rest)
    (k : err (.perm x none (some (tellgAfterPeek input.length rest)))) :
    Run s (SS.throwPos x : SM α) ok err := by
  unfold SS.throwPos
  exact Run.bind (Run.tellg h fun s2 h2 _ => Run.throw k)

theorem Rep.tell (h : Rep pk input s (c :: r)) :
    tellgAfterPeek input.length (c :: r) = (s.pos : Int) := by
  have hl := h.len
  have h1 := h.pos_lt
  unfold tellgAfterPeek
  simp only [List.isEmpty_cons, Bool.false_eq_true, if_false]
  omega

theorem tell_nil : tellgAfterPeek n [] = -1 := rfl

/-! ## `ReadWhiteSpace` -/

theorem Rep.prev (h : Rep false input s rest) {c : Byte} (hp : input.drop (s.pos - 1) = c :: rest)
    (h0 : s.pos ≠ 0) : input[s.pos - 1]? = some c := by
  have := congrArg (fun l => l[0]?) hp
  simpa using this

theorem Rep.snoc_drop (h : Rep pk input s (c :: r)) : input.drop (s.pos + 1) = r := by
  rw [← List.drop_drop, h.drop]; rfl

/-- Result of a function of the bytes left. -/
def Gives (input : Bytes) (x : Except Err (α × Bytes)) (s : SS) (m : SM α) (pk : α → Bool) : Prop :=
  Run s m (fun a s' => ∃ rest', x = .ok (a, rest') ∧ Rep (pk a) input s' rest')
    (fun e => ∃ w, x = .error w ∧ Raises input w e)

theorem tail_at {i : Nat} {a b : Byte} {r : Bytes} (h : input.drop i = a :: b :: r) :
    input[i]? = some a ∧ input[i + 1]? = some b := by
  have h0 := congrArg (fun l => l[0]?) h
  have h1 := congrArg (fun l => l[1]?) h
  simp at h0 h1
  exact ⟨h0, h1⟩

theorem readCRLF_gives (lr : Bool) (h : Rep pk input s rest) :
    Gives input (Dkim.readCRLF rest) s (readCRLF lr) (fun w => w.isEmpty) := by
  unfold Gives readCRLF
  refine Run.test (tests_is CR) h ?_ ?_
  · intro hq s1 h1
    cases rest with
    | nil => simp at hq
    | cons c r =>
      have hc : c = CR := by simpa using hq
      subst hc
      refine Run.bind (Run.get h1 fun s2 h2 => ?_)
      refine Run.bind (Run.peek h2 fun s3 h3 => ?_)
      simp only [List.tail_cons] at *
      cases r with
      | nil =>
        simp only [List.head?_nil]
        refine Run.throwPlain ?_
        refine ⟨.p .crWithoutLf, by simp [Dkim.readCRLF], rfl, ?_⟩
        intro r b p e
        cases e
        refine .crEnd ?_
        have := h1.drop
        rw [← List.take_append_drop s1.pos input, this]
        simp
      | cons d r' =>
        simp only [List.head?_cons]
        by_cases hd : d = LF
        · subst hd
          simp only [bne_self_eq_false, Bool.false_eq_true, if_false]
          refine Run.bind (Run.get h3 fun s4 h4 => ?_)
          refine Run.pure ⟨r', ?_, ?_⟩
          · simp [Dkim.readCRLF, toChar]
          · simpa using h4
        · have e1 : (some d != some LF) = true := by simp [hd]
          have e2 : (some d != none) = true := by simp
          simp only [e1, e2, if_true]
          refine Run.throwAt h3 ?_
          refine ⟨.p .crWithoutLf, by simp [Dkim.readCRLF, hd], rfl, ?_⟩
          intro r b p e
          cases e
          rw [h3.tell]
          have hd3 := h3.drop
          have hp3 := h3.pos_lt
          have hl := h1.len
          have hl3 := h3.len
          have hle := h1.pos_lt
          have hpos : s3.pos = s1.pos + 1 := by
            simp only [List.length_cons] at hl hl3
            omega
          rw [hpos]
          exact .cr (tail_at h1.drop).1 (tail_at h1.drop).2 hd
  · intro hq s1 h1
    refine Run.pure ⟨rest, ?_, h1⟩
    cases rest with
    | nil => rfl
    | cons c r =>
      have hc : c ≠ CR := by simpa using hq
      simp [Dkim.readCRLF, hc]

theorem readWSP_gives (h : Rep pk input s rest) :
    Gives input (.ok (Dkim.readWSP rest)) s readWSP (fun w => w.isEmpty) := by
  unfold Gives readWSP
  refine Run.test ((tests_is SP).or (tests_is TAB)) h ?_ ?_
  · intro hq s1 h1
    cases rest with
    | nil => simp at hq
    | cons c r =>
      have hc : isWSP c = true := by simpa [isWSP] using hq
      refine Run.bind (Run.get h1 fun s2 h2 => ?_)
      refine Run.pure ⟨r, ?_, by simpa using h2⟩
      simp [Dkim.readWSP, hc, toChar]
  · intro hq s1 h1
    refine Run.pure ⟨rest, ?_, h1⟩
    cases rest with
    | nil => rfl
    | cons c r =>
      have hc : isWSP c = false := by simpa [isWSP] using hq
      simp [Dkim.readWSP, hc]

theorem readLoose_gives (h : Rep pk input s rest) :
    Gives input (.ok (Dkim.readLoose rest)) s readLoose (fun w => w.isEmpty) := by
  unfold Gives readLoose
  refine Run.test ((tests_is SP).or ((tests_is TAB).or ((tests_is CR).or (tests_is LF)))) h ?_ ?_
  · intro hq s1 h1
    cases rest with
    | nil => simp at hq
    | cons c r =>
      have hc : isLoose c = true := by simpa [isLoose, or_assoc] using hq
      refine Run.bind (Run.get h1 fun s2 h2 => ?_)
      refine Run.pure ⟨r, ?_, by simpa using h2⟩
      simp [Dkim.readLoose, hc, toChar]
  · intro hq s1 h1
    refine Run.pure ⟨rest, ?_, h1⟩
    cases rest with
    | nil => rfl
    | cons c r =>
      have hc : isLoose c = false := by simpa [isLoose, and_assoc] using hq
      simp [Dkim.readLoose, hc]

theorem loopWSP_run (n : Nat) : ∀ (rest acc : Bytes) (pk : Bool) (s : SS), rest.length < n →
    Rep pk input s rest →
    Run s (loopWSP n acc) (fun a s' => a = acc ++ (Dkim.loopWSP rest).1 ∧
      Rep true input s' (Dkim.loopWSP rest).2) (fun _ => False) := by
  induction n with
  | zero => intro rest acc pk s hn; omega
  | succ n ih =>
    intro rest acc pk s hn h
    unfold loopWSP
    refine Run.bind ((readWSP_gives h).mono ?_ (fun _ ⟨w, e, _⟩ => by cases e))
    rintro t s1 ⟨rest', e, h1⟩
    cases rest with
    | nil =>
      simp [Dkim.readWSP] at e
      obtain ⟨rfl, rfl⟩ := e
      exact Run.pure ⟨by simp [Dkim.loopWSP], by simpa [Dkim.loopWSP] using h1⟩
    | cons c r =>
      by_cases hc : isWSP c = true
      · simp [Dkim.readWSP, hc] at e
        obtain ⟨rfl, rfl⟩ := e
        simp only [List.isEmpty_cons, Bool.false_eq_true, if_false]
        refine (ih _ _ _ _ (by simp at hn; omega) h1).mono ?_ (fun _ e => e)
        rintro a s2 ⟨rfl, h2⟩
        simp only [Dkim.loopWSP, hc, if_true]
        exact ⟨by simp, h2⟩
      · have hc' : isWSP c = false := by simpa using hc
        simp [Dkim.readWSP, hc'] at e
        obtain ⟨rfl, rfl⟩ := e
        refine Run.pure ?_
        simp only [Dkim.loopWSP, hc', Bool.false_eq_true, if_false]
        exact ⟨by simp, by simpa using h1⟩

theorem putbackAll_run (w : Bytes) : ∀ (pre rest : Bytes) (s : SS), s.data = input →
    s.pos = (pre ++ w.reverse).length → input = pre ++ w.reverse ++ rest → s.bad = false → s.eof = false →
    s.fail = false →
    Run s (putbackAll w) (fun _ s' => s'.data = input ∧ s'.pos = pre.length ∧ s'.bad = false ∧
      s'.eof = false ∧ s'.fail = false) (fun _ => False) := by
  induction w with
  | nil =>
    intro pre rest s hd hp hi hb he hf
    exact ⟨hd, by simpa using hp, hb, he, hf⟩
  | cons c w ih =>
    intro pre rest s hd hp hi hb he hf
    unfold putbackAll
    refine Run.bind ?_
    have hp' : s.pos = pre.length + w.length + 1 := by
      rw [hp]; simp; omega
    unfold Run putback
    have hg : SS.good { s with eof := false } = true := by simp [SS.good, hb, hf]
    simp only [hg, if_true]
    have h0 : s.pos ≠ 0 := by omega
    simp only [h0, if_false]
    refine ih pre (c :: rest) _ ?_ ?_ ?_ hb rfl hf
    · show s.data.set (s.pos - 1) c = input
      rw [hd]
      have hi' : input = (pre ++ w.reverse) ++ (c :: rest) := by rw [hi]; simp
      have hlen : s.pos - 1 = (pre ++ w.reverse).length := by simp; omega
      rw [hlen, hi', List.set_append_right _ _ (Nat.le_refl _)]
      simp
    · show s.pos - 1 = _
      simp; omega
    · rw [hi]; simp

theorem loopWSP_split (s : Bytes) : s = (Dkim.loopWSP s).1 ++ (Dkim.loopWSP s).2 := by
  induction s with
  | nil => rfl
  | cons c r ih =>
    unfold Dkim.loopWSP
    split
    · simp only [List.cons_append]; rw [← ih]
    · rfl

theorem readCRLF_split {s w r : Bytes} (h : Dkim.readCRLF s = .ok (w, r)) : s = w ++ r := by
  unfold Dkim.readCRLF at h
  split at h
  · simp at h; simp [h]
  · split at h
    · rename_i hc
      split at h
      · cases h
      · split at h
        · rename_i hd
          simp at h
          obtain ⟨rfl, rfl⟩ := h
          simp [hc, hd]
        · cases h
    · simp at h; obtain ⟨rfl, rfl⟩ := h; rfl

theorem readFWS_gives (lr : Bool) (h : Rep pk input s rest) :
    Gives input (Dkim.readFWS rest) s (readFWS lr) (fun _ => true) := by
  unfold Gives readFWS
  refine Run.bind (Run.left h ?_)
  refine Run.bind ((loopWSP_run _ _ _ _ _ (Nat.lt_succ_self _) h).mono ?_ (fun _ e => e.elim))
  rintro w s1 ⟨rfl, h1⟩
  refine Run.bind ((readCRLF_gives lr h1).mono ?_ ?_)
  · rintro t s2 ⟨rest2, e2, h2⟩
    cases ht : t.isEmpty with
    | true =>
      simp only [if_true]
      have ht' : t = [] := by simpa using ht
      subst ht'
      have hs := readCRLF_split e2
      refine Run.pure ⟨rest2, ?_, h2⟩
      unfold Dkim.readFWS
      simp only [e2, List.isEmpty_nil, if_true, List.nil_append]
      simp at hs
      rw [hs]
    | false =>
      simp only [Bool.false_eq_true, if_false]
      refine Run.bind ((readWSP_gives h2).mono ?_ (fun _ ⟨w, e, _⟩ => by cases e))
      rintro t2 s3 ⟨rest3, e3, h3⟩
      have e3' : Dkim.readWSP rest2 = (t2, rest3) := by simpa using e3
      cases ht2 : t2.isEmpty with
      | true =>
        simp only [if_true]
        have ht2' : t2 = [] := by simpa using ht2
        subst ht2'
        have h3' : rest3 = rest2 := by
          unfold Dkim.readWSP at e3'
          split at e3'
          · simpa using e3'.symm
          · split at e3' <;> simp at e3'
            exact e3'.symm
        subst h3'
        have hsplit : rest = (Dkim.loopWSP rest).1 ++ t ++ rest3 := by
          conv => lhs; rw [loopWSP_split rest, readCRLF_split e2]
          simp
        refine Run.bind (show Run s3 clear _ _ from ?_)
        show Run { s3 with eof := false, fail := false, bad := false } _ _ _
        refine Run.bind ?_
        have hin : input = input.take s.pos ++ ((Dkim.loopWSP rest).1 ++ t) ++ rest3 := by
          rw [List.append_assoc, ← hsplit, ← h.drop, List.take_append_drop]
        have hlen : (input.take s.pos).length = s.pos := by simp [h.le]
        refine (putbackAll_run (input := input) _ (input.take s.pos) rest3
          { s3 with eof := false, fail := false, bad := false } h3.data ?_ ?_ rfl rfl rfl).mono ?_
          (fun _ e => e.elim)
        · show s3.pos = _
          have hl3 := h3.len
          have hle := h3.le
          have hli := congrArg List.length hin
          simp only [List.length_append, List.reverse_reverse, List.nil_append, hlen] at *
          omega
        · simpa using hin
        · rintro _ s4 ⟨a1, a2, a3, a4, a5⟩
          refine Run.pure ⟨rest, ?_, ⟨a1, ?_, ?_, a3, fun _ => ⟨a4, a5⟩, ?_⟩⟩
          · unfold Dkim.readFWS
            simp only [e2, ht, e3', List.isEmpty_nil, if_true, Bool.false_eq_true, if_false]
          · rw [a2, hlen, h.drop]
          · rw [a2, hlen]; exact h.le
          · intro _ hr
            rw [hr] at hsplit
            have : t = [] := by
              have := congrArg List.length hsplit
              simp at this
              exact List.length_eq_zero_iff.mp (by omega)
            rw [this] at ht
            simp at ht
      | false =>
        simp only [Bool.false_eq_true, if_false]
        refine Run.bind (Run.left h3 ?_)
        refine (loopWSP_run _ _ _ _ _ (Nat.lt_succ_self _) h3).mono ?_ (fun _ e => e.elim)
        rintro a s4 ⟨rfl, h4⟩
        refine ⟨_, ?_, h4⟩
        unfold Dkim.readFWS
        simp only [e2, ht, e3', ht2, Bool.false_eq_true, if_false, List.nil_append]
  · rintro e ⟨w, ew, hR⟩
    refine ⟨w, ?_, hR⟩
    unfold Dkim.readFWS
    simp only [ew]

end SS
end Dkim
