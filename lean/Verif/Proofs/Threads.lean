import Verif.Spec.Threads
import Verif.Props.VerifyBody
import Verif.Proofs.History
import Verif.Proofs.Signing
/-!
# Proofs: threads
-/

namespace Dkim.Thr
open Spec

variable {E : Env} {α : Type}

theorem clear_step (i : Nat) (b : BodyArgs) (k : List Bytes × Bool → Prog α) (s : IStream) : (Prog.clear i b k).step s =
    if b.off ≠ -1 then (.seek i b k, s.clear) else (k (finish b { size := b.size }), s) := rfl

theorem test_step (i : Nat) (b : BodyArgs) (a : BodyAcc) (k : List Bytes × Bool → Prog α) (s : IStream) :
    (Prog.test i b a k).step s =
    if !s.good then (k (finish b a), s)
    else if b.limit ∧ a.size = 0 then (k (finish b a), s)
    else (.read i b a k, s) := rfl

theorem line_step (i : Nat) (m : Message) (k : Message → Prog α) (s : IStream) : (Prog.line i m k).step s =
    match s.getline with
    | (none, s1) => (again i false { m with headers := m.pushTmp, bodyOffset := -1, done := true } k, s1)
    | (some line0, s1) =>
      match chopCR line0 with
      | [] => (.tell i { m with tmp := none, headers := m.pushTmp } k, s1)
      | c :: cs =>
        let m1 : Message :=
          if c ≠ TAB ∧ c ≠ SP then { m with headers := m.pushTmp, tmp := some {} } else m
        let h := m1.tmp.getD {}
        (again i true { m1 with tmp := some (h.parseLine (c :: cs)) } k, s1) := rfl

theorem step_data (p : Prog α) (s : IStream) : (p.step s).2.data = s.data := by
  cases p with
  | ret a => rfl
  | line i m k =>
    rw [line_step]
    have : s.getline.2.data = s.data := by
      unfold IStream.getline
      split
      · rfl
      · simp only
        split
        · rfl
        · split <;> rfl
    generalize s.getline = r at this
    obtain ⟨o, s1⟩ := r
    cases o with
    | none => exact this
    | some l => simp only []; cases chopCR l <;> exact this
  | tell i m k =>
    show s.tellg.2.data = s.data
    unfold IStream.tellg
    split <;> rfl
  | clear i b k => rw [clear_step]; split <;> rfl
  | seek i b k =>
    show (s.seekg b.off).data = s.data
    unfold IStream.seekg
    simp only []
    split
    · rfl
    · split <;> rfl
  | test i b a k => rw [test_step]; split; · rfl
                    split <;> rfl
  | read i b a k =>
    show (s.read 8096).2.data = s.data
    unfold IStream.read
    split
    · rfl
    · simp only []
      split <;> rfl

theorem inBody_stream {p : Prog α} {i : Nat} (h : p.inBody = some i) : p.stream = some i := by
  cases p <;> first | exact h | cases h

theorem put_same (f : Nat → IStream) (i : Nat) : put f i (f i) = f := by
  funext j; unfold put; split
  · rename_i h; rw [h]
  · rfl

theorem put_put (f : Nat → IStream) (i : Nat) (a b : IStream) : put (put f i a) i b = put f i b := by
  funext j; unfold put; split <;> rfl

theorem put_at (f : Nat → IStream) (i : Nat) (s : IStream) : put f i s i = s := by
  unfold put; simp

theorem put_ne (f : Nat → IStream) {i j : Nat} (s : IStream) (h : j ≠ i) : put f i s j = f j := by
  unfold put; simp [h]

/-! ### One call on its stream -/

/-- `n` accesses to stream `i` lead from here to there. -/
inductive Leads (i : Nat) : Nat → Prog α → IStream → Prog α → IStream → Prop
  | refl (p s) : Leads i 0 p s p s
  | step (n p s q s') : p.stream = some i → Leads i n (p.step s).1 (p.step s).2 q s' → Leads i (n + 1) p s q s'

theorem Leads.trans {i n m : Nat} {p q r : Prog α} {s s' s'' : IStream} (h : Leads i n p s q s') (h' : Leads i m q s' r s'') :
    Leads i (n + m) p s r s'' := by
  induction h with
  | refl p s => rw [Nat.zero_add]; exact h'
  | step n p s q s' hp _ ih => rw [Nat.add_right_comm]; exact .step _ _ _ _ _ hp (ih h')

theorem Leads.alone {i n : Nat} {p q : Prog α} {s s' : IStream} (h : Leads i n p s q s') :
    ∀ f : Nat → IStream, f i = s → p.alone n f = (q, put f i s') := by
  induction h with
  | refl p s => intro f hf; rw [← hf, put_same]; rfl
  | step n p s q s' hp _ ih =>
    intro f hf
    unfold Prog.alone Prog.go
    rw [hp]
    simp only [hf]
    rw [ih _ (put_at _ _ _), put_put]

/-- All before the last access in the middle of a body check on stream `i`. -/
inductive Mid (i : Nat) : Nat → Prog α → IStream → Prog α → IStream → Prop
  | last (p s q s') : p.inBody = some i → p.step s = (q, s') → Mid i 1 p s q s'
  | more (n p s p1 s1 q s') : p.inBody = some i → p.step s = (p1, s1) → Mid i n p1 s1 q s' → Mid i (n + 1) p s q s'

theorem Mid.leads {i n : Nat} {p q : Prog α} {s s' : IStream} (h : Mid i n p s q s') : Leads i n p s q s' := by
  induction h with
  | last p s q s' hp e => exact .step _ _ _ _ _ (inBody_stream hp) (by rw [e]; exact .refl _ _)
  | more n p s p1 s1 q s' hp e _ ih => exact .step _ _ _ _ _ (inBody_stream hp) (by rw [e]; exact ih)

theorem loop_mid (i : Nat) (b : BodyArgs) (k : List Bytes × Bool → Prog α) : ∀ (n : Nat) (s s' : IStream) (a a' : BodyAcc),
    bodyLoop 8096 b.mode b.limit n s a = .ok (s', a') → ∃ m, Mid i m (.test i b a k) s (k (finish b a')) s'
  | 0, _, _, _, _, h => by cases h
  | n + 1, s, s', a, a', h => by
    unfold bodyLoop at h
    by_cases hg : s.good = true
    · by_cases hl : b.limit = true ∧ a.size = 0
      · rw [hg] at h
        simp only [Bool.not_true, Bool.false_eq_true, if_false] at h
        rw [if_pos hl] at h
        cases h
        refine ⟨1, .last _ _ _ _ rfl ?_⟩
        rw [test_step, hg]
        simp only [Bool.not_true, Bool.false_eq_true, if_false]
        rw [if_pos hl]
      · rw [hg] at h
        simp only [Bool.not_true, Bool.false_eq_true, if_false] at h
        rw [if_neg hl] at h
        obtain ⟨m, hm⟩ := loop_mid i b k n (s.read 8096).2 s' (feed b a (s.read 8096).1) a' h
        refine ⟨m + 1 + 1, .more _ _ _ (.read i b a k) s _ _ rfl ?_ (.more _ _ _ _ _ _ _ rfl rfl hm)⟩
        rw [test_step, hg]
        simp only [Bool.not_true, Bool.false_eq_true, if_false]
        rw [if_neg hl]
    · rw [Bool.not_eq_true] at hg
      rw [hg] at h
      simp only [Bool.not_false, if_true] at h
      cases h
      refine ⟨1, .last _ _ _ _ rfl ?_⟩
      rw [test_step, hg]
      simp

/-- The body check alone on its stream. -/
theorem body_leads (i : Nat) (b : BodyArgs) (k : List Bytes × Bool → Prog α) (s s' : IStream) (r : List Bytes × Bool)
    (h : Dkim.canonBody s b.mode b.off b.limit b.size = .ok (r, s')) : ∃ n, Leads i n (.clear i b k) s (k r) s' := by
  unfold Dkim.canonBody canonBodyBlk at h
  by_cases ho : b.off ≠ -1
  · simp only [if_pos ho] at h
    cases hl : bodyLoop 8096 b.mode b.limit (s.data.length + 2) (s.clear.seekg b.off) { size := b.size } with
    | error e => rw [hl] at h; cases h
    | ok x =>
      obtain ⟨s1, a⟩ := x
      rw [hl] at h
      cases h
      obtain ⟨m, hm⟩ := loop_mid i b k _ _ _ _ _ hl
      refine ⟨m + 1 + 1, .step _ _ _ _ _ rfl ?_⟩
      have : (Prog.clear i b k).step s = (.seek i b k, s.clear) := by rw [clear_step, if_pos ho]
      rw [this]
      exact .step _ _ _ _ _ rfl hm.leads
  · simp only [if_neg ho] at h
    cases h
    refine ⟨1, .step _ _ _ _ _ rfl ?_⟩
    have : (Prog.clear i b k).step s = (k (finish b { size := b.size }), s) := by rw [clear_step, if_neg ho]
    rw [this]
    exact .refl _ _

/-- The header loop alone on its stream. -/
theorem lines_lead (i : Nat) (k : Message → Prog α) : ∀ (n : Nat) (m m' : Message) (s s' : IStream),
    m.parseLoop n s = .ok (m', s') → ∃ j, Leads i j (.line i m k) s (k m') s'
  | 0, _, _, _, _, h => by cases h
  | n + 1, m, m', s, s', h => by
    -- one call of ParseLine
    have one : ∃ j, Leads i (j + 1) (.line i m k) s (again i (m.parseLine s).1 (m.parseLine s).2.1 k) (m.parseLine s).2.2 := by
      unfold Message.parseLine
      cases hg : s.getline with
      | mk o s1 =>
        cases o with
        | none =>
          refine ⟨0, .step _ _ _ _ _ rfl ?_⟩
          rw [line_step, hg]
          exact .refl _ _
        | some line0 =>
          simp only []
          cases hc : chopCR line0 with
          | nil =>
            refine ⟨1, .step _ _ _ _ _ rfl ?_⟩
            rw [line_step, hg]
            simp only [hc]
            exact .step _ _ _ _ _ rfl (.refl _ _)
          | cons c cs =>
            refine ⟨0, .step _ _ _ _ _ rfl ?_⟩
            rw [line_step, hg]
            simp only [hc]
            exact .refl _ _
    obtain ⟨j, hj⟩ := one
    unfold Message.parseLoop at h
    cases hp : m.parseLine s with
    | mk ok r =>
      obtain ⟨m1, s1⟩ := r
      rw [hp] at h hj
      simp only [] at h hj
      unfold again at hj
      cases hc : (ok && !m1.done) with
      | true =>
        rw [hc] at h hj
        simp only [if_true] at h hj
        obtain ⟨j', hj'⟩ := lines_lead i k n m1 m' s1 s' h
        exact ⟨_, hj.trans hj'⟩
      | false =>
        rw [hc] at h hj
        simp only [Bool.false_eq_true, if_false] at h hj
        cases h
        exact ⟨_, hj⟩

/-! ### Body checks under a mutex -/

/-- What a body check gives on any stream with the data `d`, and in how many accesses after the first. -/
def BodyGives (α : Type) (d : Bytes) (i : Nat) (b : BodyArgs) (m : Nat) (r : List Bytes × Bool) : Prop :=
  ∀ (k : List Bytes × Bool → Prog α) (s : IStream), s.data = d →
    ((Prog.clear i b k).step s = (k r, s)) ∨
    ∃ s', (Prog.clear i b k).step s = (.seek i b k, s.clear) ∧ Mid i m (.seek i b k) s.clear (k r) s'

theorem body_gives (α : Type) (d : Bytes) (i : Nat) (b : BodyArgs) (ho : b.off = -1 ∨ (0 ≤ b.off ∧ b.off ≤ d.length)) :
    ∃ m r, BodyGives α d i b m r ∧ ∀ s : IStream, s.data = d → ∃ s', Dkim.canonBody s b.mode b.off b.limit b.size = .ok (r, s') := by
  by_cases hne : b.off ≠ -1
  · -- the stream after seekg
    have hs : ∀ s : IStream, s.data = d → s.clear.seekg b.off = { data := d, pos := b.off.toNat, eof := false, fail := false } := by
      intro s hd
      unfold IStream.seekg IStream.clear
      simp only [hd, Bool.false_eq_true, if_false]
      rw [if_pos (by omega)]
    obtain ⟨calls, s', h1, _, _⟩ := canonBodyBlk_spec 8096 (by decide) ({ data := d } : IStream) b.mode b.off b.limit b.size ho
    unfold canonBodyBlk at h1
    simp only [if_pos hne] at h1
    rw [hs _ rfl] at h1
    cases hl : bodyLoop 8096 b.mode b.limit (d.length + 2) { data := d, pos := b.off.toNat, eof := false, fail := false } { size := b.size } with
    | error e => rw [hl] at h1; cases h1
    | ok x =>
      obtain ⟨s1, a⟩ := x
      -- the number of accesses does not depend on what follows
      have : ∃ m, ∀ k : List Bytes × Bool → Prog α, Mid i m (.test i b { size := b.size } k)
          { data := d, pos := b.off.toNat, eof := false, fail := false } (k (finish b a)) s1 := by
        have gen : ∀ (n : Nat) (s s' : IStream) (a a' : BodyAcc), bodyLoop 8096 b.mode b.limit n s a = .ok (s', a') →
            ∃ m, ∀ k : List Bytes × Bool → Prog α, Mid i m (.test i b a k) s (k (finish b a')) s' := by
          intro n
          induction n with
          | zero => intro s s' a a' h; cases h
          | succ n ih =>
            intro s s' a a' h
            unfold bodyLoop at h
            by_cases hg : s.good = true
            · by_cases hl : b.limit = true ∧ a.size = 0
              · rw [hg] at h
                simp only [Bool.not_true, Bool.false_eq_true, if_false] at h
                rw [if_pos hl] at h
                cases h
                refine ⟨1, fun k => .last _ _ _ _ rfl ?_⟩
                rw [test_step, hg]
                simp only [Bool.not_true, Bool.false_eq_true, if_false]
                rw [if_pos hl]
              · rw [hg] at h
                simp only [Bool.not_true, Bool.false_eq_true, if_false] at h
                rw [if_neg hl] at h
                obtain ⟨m, hm⟩ := ih (s.read 8096).2 s' (feed b a (s.read 8096).1) a' h
                refine ⟨m + 1 + 1, fun k => .more _ _ _ (.read i b a k) s _ _ rfl ?_ (.more _ _ _ _ _ _ _ rfl rfl (hm k))⟩
                rw [test_step, hg]
                simp only [Bool.not_true, Bool.false_eq_true, if_false]
                rw [if_neg hl]
            · rw [Bool.not_eq_true] at hg
              rw [hg] at h
              simp only [Bool.not_false, if_true] at h
              cases h
              refine ⟨1, fun k => .last _ _ _ _ rfl ?_⟩
              rw [test_step, hg]
              simp
        exact gen _ _ _ _ _ hl
      obtain ⟨m, hm⟩ := this
      refine ⟨m + 1, finish b a, ?_, ?_⟩
      · intro k s hd
        right
        refine ⟨s1, by rw [clear_step, if_pos hne], .more _ _ _ _ _ _ _ rfl rfl ?_⟩
        rw [hs s hd]
        exact hm k
      · intro s hd
        refine ⟨s1, ?_⟩
        unfold Dkim.canonBody canonBodyBlk
        simp only [if_pos hne]
        rw [hs s hd, hd, hl]
        rfl
  · refine ⟨0, finish b { size := b.size }, ?_, ?_⟩
    · intro k s _
      left
      rw [clear_step, if_neg hne]
    · intro s _
      refine ⟨s, ?_⟩
      unfold Dkim.canonBody canonBodyBlk
      simp only [if_neg hne]
      rfl

/-- A program that only makes body checks on streams with the data `D`, its result and an upper bound for the accesses. -/
inductive Expects (D : Nat → Bytes) : Prog α → α → Nat → Prop
  | ret (a) : Expects D (.ret a) a 0
  | clear (i b k m r a n) : BodyGives α (D i) i b m r → Expects D (k r) a n → Expects D (.clear i b k) a (n + m + 1)

/-- A thread in the midst of such a program. -/
def Live (D : Nat → Bytes) (f : Nat → IStream) (p : Prog α) (a : α) (n : Nat) : Prop :=
  Expects D p a n ∨ ∃ i m q s' n', p.inBody = some i ∧ Mid i m p (f i) q s' ∧ Expects D q a n' ∧ n = n' + m

theorem Expects.notIn {D : Nat → Bytes} {p : Prog α} {a : α} {n : Nat} (h : Expects D p a n) : p.inBody = none := by
  cases h <;> rfl

structure Inv (D : Nat → Bytes) (w : World α) (as : List α) (ns : List Nat) : Prop where
  data : ∀ i, (w.files i).data = D i
  la : w.threads.length = as.length
  ln : w.threads.length = ns.length
  live : ∀ (t : Nat) (h : t < w.threads.length), Live D w.files w.threads[t] (as[t]'(la ▸ h)) (ns[t]'(ln ▸ h))
  one : ∀ (t t' : Nat) (h : t < w.threads.length) (h' : t' < w.threads.length) (i : Nat), t ≠ t' →
    w.threads[t].inBody = some i → w.threads[t'].inBody ≠ some i

/-- A thread's turn has no effect. -/
def Idle (w : World α) (t : Nat) : Prop :=
  ∀ p, w.threads[t]? = some p → (∃ a, p = .ret a) ∨ (p.atBody.isSome ∧ ∃ q ∈ w.threads, q.inBody = p.atBody)

theorem sum_set_lt : ∀ (ns : List Nat) (t : Nat) (h : t < ns.length) (n : Nat), n < ns[t] → (ns.set t n).sum < ns.sum
  | [], _, h, _, _ => by simp at h
  | x :: ns, 0, _, n, hn => by simp at hn ⊢; omega
  | x :: ns, t + 1, h, n, hn => by
    simp only [List.getElem_cons_succ] at hn
    have := sum_set_lt ns t (by simpa using h) n hn
    simp; omega

/-- Replacing one thread that made an access to stream `i`. -/
theorem Inv.replace {D : Nat → Bytes} {w : World α} {as : List α} {ns : List Nat} (hi : Inv D w as ns) (t : Nat)
    (ht : t < w.threads.length) (p' : Prog α) (i : Nat) (s' : IStream) (hd : s'.data = D i) (n' : Nat)
    (hl : Live D (put w.files i s') p' (as[t]'(hi.la ▸ ht)) n')
    (hex : ∀ (t' : Nat) (h' : t' < w.threads.length), t' ≠ t → w.threads[t'].inBody ≠ some i)
    (hin : p'.inBody = none ∨ p'.inBody = some i) :
    Inv D { files := put w.files i s', threads := w.threads.set t p' } as (ns.set t n') := by
  refine ⟨?_, by simp [hi.la], by simp [hi.ln], ?_, ?_⟩
  · intro j
    by_cases hj : j = i
    · subst hj; simp only [put_at]; exact hd
    · simp only [put_ne _ _ hj]; exact hi.data j
  · intro t' h0'
    have h' : t' < w.threads.length := by simpa using h0'
    by_cases he : t' = t
    · subst he
      simp only [List.getElem_set_self]
      exact hl
    · simp only [List.getElem_set_ne (Ne.symm he)]
      rcases hi.live t' h' with h | ⟨j, m, q, s1, n1, h1, h2, h3, h4⟩
      · exact .inl h
      · refine .inr ⟨j, m, q, s1, n1, h1, ?_, h3, h4⟩
        have : j ≠ i := by rintro rfl; exact hex t' h' he h1
        rw [put_ne _ _ this]
        exact h2
  · intro t1 t2 h01 h02 j hne
    have h1 : t1 < w.threads.length := by simpa using h01
    have h2 : t2 < w.threads.length := by simpa using h02
    by_cases e1 : t1 = t
    · subst e1
      simp only [List.getElem_set_self, List.getElem_set_ne hne]
      intro hb hb'
      rcases hin with h | h
      · rw [h] at hb; cases hb
      · rw [h] at hb; cases hb
        exact hex t2 h2 (Ne.symm hne) hb'
    · by_cases e2 : t2 = t
      · subst e2
        simp only [List.getElem_set_self, List.getElem_set_ne (Ne.symm e1)]
        intro hb hb'
        rcases hin with h | h
        · rw [h] at hb'; cases hb'
        · rw [h] at hb'; cases hb'
          exact hex t1 h1 e1 hb
      · simp only [List.getElem_set_ne (Ne.symm e1), List.getElem_set_ne (Ne.symm e2)]
        exact hi.one t1 t2 h1 h2 j hne

theorem Inv.turn {D : Nat → Bytes} {w : World α} {as : List α} {ns : List Nat} (hi : Inv D w as ns) (t : Nat) :
    (∃ ns', Inv D (w.turn true t) as ns' ∧ ns'.sum < ns.sum) ∨ (w.turn true t = w ∧ Idle w t) := by
  unfold World.turn
  by_cases ht : t < w.threads.length
  · rw [List.getElem?_eq_getElem ht]
    simp only []
    generalize hp : w.threads[t] = p
    have hlive := hi.live t ht
    rw [hp] at hlive
    rcases hlive with hex | ⟨i, m, q, s', n', hb, hm, hq, hn⟩
    · generalize ha : as[t]'(hi.la ▸ ht) = a at hex
      generalize hn : ns[t]'(hi.ln ▸ ht) = n at hex
      cases hex with
      | ret a =>
        right
        rw [if_neg (by simp [Prog.atBody])]
        refine ⟨?_, ?_⟩
        · show ({ files := w.files, threads := w.threads.set t (.ret a) } : World α) = w
          have : w.threads.set t (.ret a) = w.threads := by
            rw [← hp]; exact List.set_getElem_self ht
          rw [this]
        · intro p' hp'
          rw [List.getElem?_eq_getElem ht, hp] at hp'
          cases hp'
          exact .inl ⟨_, rfl⟩
      | clear i b k m r _ n hg he =>
        by_cases hblk : w.threads.any (fun q => decide (q.inBody = some i)) = true
        · right
          rw [if_pos ⟨trivial, rfl, hblk⟩]
          refine ⟨rfl, ?_⟩
          intro p' hp'
          rw [List.getElem?_eq_getElem ht, hp] at hp'
          cases hp'
          right
          obtain ⟨q, hq, hq'⟩ := List.any_eq_true.1 hblk
          exact ⟨rfl, q, hq, of_decide_eq_true hq'⟩
        · left
          rw [if_neg (fun h => hblk h.2.2)]
          have hfree : ∀ (t' : Nat) (h' : t' < w.threads.length), t' ≠ t → w.threads[t'].inBody ≠ some i := by
            intro t' h' _ hb
            exact hblk (List.any_eq_true.2 ⟨_, List.getElem_mem h', decide_eq_true hb⟩)
          have hgo : (Prog.clear i b k).go w.files =
              (((Prog.clear i b k).step (w.files i)).1, put w.files i ((Prog.clear i b k).step (w.files i)).2) := rfl
          rw [hgo]
          simp only []
          rcases hg k (w.files i) (hi.data i) with h1 | ⟨s', h1, h2⟩
          · rw [h1]
            refine ⟨ns.set t n, hi.replace t ht _ i _ (hi.data i) n (by rw [ha]; exact .inl he) hfree (.inl he.notIn), ?_⟩
            exact sum_set_lt ns t (hi.ln ▸ ht) n (by rw [hn]; omega)
          · rw [h1]
            refine ⟨ns.set t (n + m), hi.replace t ht (.seek i b k) i (w.files i).clear (hi.data i) (n + m) ?_ hfree (.inr rfl), ?_⟩
            · rw [ha]
              refine .inr ⟨i, m, k r, s', n, rfl, ?_, he, rfl⟩
              rw [put_at]
              exact h2
            · exact sum_set_lt ns t (hi.ln ▸ ht) _ (by rw [hn]; omega)
    · left
      have hno : p.atBody = none := by cases p <;> first | rfl | cases hb
      rw [if_neg (by rw [hno]; simp)]
      have hgo : p.go w.files = ((p.step (w.files i)).1, put w.files i (p.step (w.files i)).2) := by
        unfold Prog.go; rw [inBody_stream hb]
      have hfree : ∀ (t' : Nat) (h' : t' < w.threads.length), t' ≠ t → w.threads[t'].inBody ≠ some i := by
        intro t' h' hne
        exact hi.one t t' ht h' i (Ne.symm hne) (by rw [hp]; exact hb)
      have hsd : (p.step (w.files i)).2.data = D i := (step_data p _).trans (hi.data i)
      rw [hgo]
      simp only []
      generalize hfi : w.files i = s at hm hsd
      cases hm with
      | last _ _ _ _ _ e =>
        rw [e] at hsd ⊢
        refine ⟨ns.set t n', hi.replace t ht _ i _ hsd n' (.inl hq) hfree (.inl hq.notIn), ?_⟩
        exact sum_set_lt ns t (hi.ln ▸ ht) _ (by rw [hn]; omega)
      | more m _ _ p1 s1 _ _ _ e hm' =>
        rw [e] at hsd ⊢
        have hb1 : p1.inBody = some i := by cases hm' <;> assumption
        refine ⟨ns.set t (n' + m), hi.replace t ht _ i _ hsd (n' + m) ?_ hfree (.inr hb1), ?_⟩
        · refine .inr ⟨i, m, q, s', n', hb1, ?_, hq, rfl⟩
          rw [put_at]
          exact hm'
        · exact sum_set_lt ns t (hi.ln ▸ ht) _ (by rw [hn]; omega)
  · right
    rw [List.getElem?_eq_none (by omega)]
    refine ⟨rfl, ?_⟩
    intro p hp
    rw [List.getElem?_eq_none (by omega)] at hp
    cases hp

/-- A schedule either brings the threads nearer to their ends or finds nothing to do. -/
theorem Inv.run {D : Nat → Bytes} {as : List α} : ∀ (r : List Nat) {w : World α} {ns : List Nat}, Inv D w as ns →
    (∃ ns', Inv D (w.run true r) as ns' ∧ ns'.sum < ns.sum) ∨ (w.run true r = w ∧ ∀ t ∈ r, Idle w t)
  | [], w, ns, _ => .inr ⟨rfl, by simp⟩
  | t :: r, w, ns, hi => by
    have e : w.run true (t :: r) = (w.turn true t).run true r := rfl
    rw [e]
    rcases hi.turn t with ⟨ns', h1, h2⟩ | ⟨h1, h2⟩
    · rcases h1.run r with ⟨ns'', h3, h4⟩ | ⟨h3, _⟩
      · exact .inl ⟨ns'', h3, by omega⟩
      · rw [h3]; exact .inl ⟨ns', h1, h2⟩
    · rw [h1]
      rcases hi.run r with h3 | ⟨h3, h4⟩
      · exact .inl h3
      · exact .inr ⟨h3, by
          intro t' ht'
          rcases List.mem_cons.1 ht' with rfl | h
          · exact h2
          · exact h4 t' h⟩

/-- After any schedule the threads are still on their way. -/
theorem Inv.after {D : Nat → Bytes} {as : List α} {w : World α} {ns : List Nat} (hi : Inv D w as ns) (r : List Nat) :
    ∃ ns', Inv D (w.run true r) as ns' := by
  rcases hi.run r with ⟨ns', h, _⟩ | ⟨h, _⟩
  · exact ⟨ns', h⟩
  · rw [h]; exact ⟨ns, hi⟩

theorem Inv.result {D : Nat → Bytes} {as : List α} {w : World α} {ns : List Nat} (hi : Inv D w as ns) {t : Nat} {r a : α}
    (h : w.threads[t]? = some (.ret r)) (ha : as[t]? = some a) : r = a := by
  obtain ⟨ht, e⟩ := List.getElem?_eq_some_iff.1 h
  obtain ⟨ht', e'⟩ := List.getElem?_eq_some_iff.1 ha
  have := hi.live t ht
  rw [e, e'] at this
  rcases this with h | ⟨i, m, q, s', n', h1, _⟩
  · generalize ns[t]'(hi.ln ▸ ht) = n at h
    cases h; rfl
  · cases h1

/-- Nothing left to do: all threads are at their ends. -/
theorem Inv.idle {D : Nat → Bytes} {as : List α} {w : World α} {ns : List Nat} (hi : Inv D w as ns)
    (h : ∀ t, t < w.threads.length → Idle w t) (t : Nat) (a : α) (ha : as[t]? = some a) : w.threads[t]? = some (.ret a) := by
  obtain ⟨ht, _⟩ := List.getElem?_eq_some_iff.1 ha
  rw [← hi.la] at ht
  have hg := List.getElem?_eq_getElem ht
  rcases h t ht _ hg with ⟨r, hr⟩ | ⟨hs, q, hq, hb⟩
  · rw [hg, hr]
    rw [hr] at hg
    rw [hi.result hg ha]
  · -- the one inside the body check is not idle
    obtain ⟨t', ht', rfl⟩ := List.getElem_of_mem hq
    have hbs : (w.threads[t'].inBody).isSome := by rw [hb]; exact hs
    rcases h t' ht' _ (List.getElem?_eq_getElem ht') with ⟨r, hr⟩ | ⟨hs', _⟩
    · rw [hr] at hbs; cases hbs
    · generalize w.threads[t'] = p at hbs hs'
      cases p <;> first | (cases hbs; done) | (cases hs'; done)

theorem turn_length (mutex : Bool) (w : World α) (t : Nat) : (w.turn mutex t).threads.length = w.threads.length := by
  unfold World.turn
  split
  · rfl
  · split
    · rfl
    · simp

theorem run_length (mutex : Bool) (r : List Nat) (w : World α) : (w.run mutex r).threads.length = w.threads.length := by
  induction r generalizing w with
  | nil => rfl
  | cons t r ih => exact (ih _).trans (turn_length mutex w t)

theorem run_append (mutex : Bool) (r r' : List Nat) (w : World α) : w.run mutex (r ++ r') = (w.run mutex r).run mutex r' := by
  unfold World.run; rw [List.foldl_append]

/-- Enough rounds bring all threads to their ends. -/
theorem Inv.finish {D : Nat → Bytes} {as : List α} {k N : Nat} {schedule : List Nat} (hr : Rounds k N schedule) :
    ∀ {w : World α} {ns : List Nat}, Inv D w as ns → w.threads.length = k → ns.sum < N →
      ∀ (t : Nat) (a : α), as[t]? = some a → (w.run true schedule).threads[t]? = some (.ret a) := by
  induction hr with
  | none => intro w ns _ _ h; omega
  | round n r rest hall _ ih =>
    intro w ns hi hk hN t a ha
    rw [run_append]
    rcases hi.run r with ⟨ns', h1, h2⟩ | ⟨h1, h2⟩
    · exact ih h1 ((run_length _ _ _).trans hk) (by omega) t a ha
    · rw [h1]
      have hend := hi.idle (fun t ht => h2 t (hall t (hk ▸ ht)))
      obtain ⟨ns2, h3⟩ := hi.after rest
      -- all at their ends: nothing changes any more
      have hfix : ∀ (r : List Nat), w.run true r = w := by
        intro r
        have hidle : ∀ t, w.turn true t = w := by
          intro t
          rcases hi.turn t with ⟨ns', h4, h5⟩ | h4
          · have hz : ∀ (w : World α) (ns : List Nat), Inv D w as ns → (∀ (t : Nat) (a : α), as[t]? = some a → w.threads[t]? = some (.ret a)) →
                ∀ x ∈ ns, x = 0 := by
              intro w ns hi he x hx
              obtain ⟨j, hj, rfl⟩ := List.getElem_of_mem hx
              have hj' : j < w.threads.length := by rw [hi.ln]; exact hj
              have hja : j < as.length := by rw [← hi.la]; exact hj'
              have h6 := he j _ (List.getElem?_eq_getElem hja)
              have := hi.live j hj'
              rw [List.getElem?_eq_getElem hj', Option.some.injEq] at h6
              rw [h6] at this
              rcases this with h | ⟨i, m, q, s', n', h7, _⟩
              · generalize ns[j]'(hi.ln ▸ hj') = n at h
                cases h
                rfl
              · cases h7
            have hs : ns.sum = 0 := by
              have := hz w ns hi hend
              clear hi h1 h2 hN h5 h4
              induction ns with
              | nil => rfl
              | cons x ns ihn =>
                rw [List.sum_cons, this x (by simp), ihn (fun y hy => this y (by simp [hy]))]
            omega
          · exact h4.1
        induction r with
        | nil => rfl
        | cons t r ihr =>
          show (w.turn true t).run true r = w
          rw [hidle t]; exact ihr
      rw [hfix rest]
      exact hend t a ha

/-! ### Verification as such a program -/

theorem checkBodyHash_expects {D : Nat → Bytes} (v : Validatory) (i : Nat) (hd : v.file.data = D i)
    (hoff : ValidOffset v.file v.msg.bodyOffset) (sig : Signature) (k : Except Err Unit → Prog α) (a : α) (n : Nat)
    (h : Expects D (k (v.checkBodyHash E sig).1) a n) : ∃ n', Expects D (checkBodyHash E i v.msg sig k) a n' := by
  obtain ⟨m, r, hg, hr⟩ := body_gives α (D i) i ⟨sig.canonBody, v.msg.bodyOffset, sig.bodySizeLimit, sig.bodySize⟩
    (by unfold ValidOffset at hoff; rw [← hd]; exact hoff)
  obtain ⟨s', hs⟩ := hr v.file hd
  refine ⟨n + m + 1, .clear _ _ _ m r a n hg ?_⟩
  have e : (v.checkBodyHash E sig).1 = if sig.bh = E.hash sig.digest r.1.flatten then .ok () else .error (.perm .bodyHashMismatch .fail) := by
    unfold Validatory.checkBodyHash
    rw [show Dkim.canonBody v.file sig.canonBody v.msg.bodyOffset sig.bodySizeLimit sig.bodySize = .ok (r, s') from hs]
    simp only
    split <;> rfl
  rw [e] at h
  exact h

theorem verifyOne_expects {D : Nat → Bytes} (v : Validatory) (i : Nat) (hd : v.file.data = D i)
    (hoff : ValidOffset v.file v.msg.bodyOffset) (now : Int) (resolver : Bytes → Bool × Bytes) (h : Header) (e : Bool)
    (k : Except Err Unit → SigSt → PublicKey E → Prog α) (a : α) (n : Nat)
    (hk : Expects D (k (v.verifyOne E now resolver h e).1 (v.verifyOne E now resolver h e).2.1
      (v.verifyOne E now resolver h e).2.2.1) a n) :
    ∃ n', Expects D (verifyOne E now resolver i v.msg h e k) a n' := by
  unfold verifyOne getSignature
  unfold Validatory.verifyOne Validatory.getSignature at hk
  cases hp : Signature.parse E now h { erange := e } with
  | error er st =>
    rw [hp] at hk
    exact ⟨n, hk⟩
  | ok u st =>
    rw [hp] at hk
    simp only at hk ⊢
    apply checkBodyHash_expects v i hd hoff st.sig _ a n
    obtain ⟨s', _, hc⟩ := checkBodyHash_eq (E := E) v hoff st.sig
    generalize hx : v.checkBodyHash E st.sig = x at hk hc
    obtain ⟨r, v'⟩ := x
    have hv' : v'.msg = v.msg := by cases hc; rfl
    cases r with
    | error er => exact hk
    | ok u =>
      simp only at hk ⊢
      cases hq : getPublicKey resolver st.sig ({} : PublicKey E) with
      | error er pub => rw [hq] at hk; exact hk
      | ok u pub => rw [hq] at hk; simp only [hv'] at hk; exact hk

theorem verifyOne_same {v w : Validatory} (h : SameMessage v w) (now : Int) (resolver : Bytes → Bool × Bytes) (hd : Header)
    (e : Bool) : SameMessage (v.verifyOne E now resolver hd e).2.2.2 w := by
  unfold Validatory.verifyOne Validatory.getSignature
  cases hp : Signature.parse E now hd { erange := e } with
  | error er st => exact h
  | ok u st =>
    simp only
    have hs := (checkBodyHash_same (E := E) h st.sig).2
    generalize v.checkBodyHash E st.sig = x at hs
    obtain ⟨r, v'⟩ := x
    cases r with
    | error er => exact hs
    | ok u =>
      simp only
      cases getPublicKey resolver st.sig ({} : PublicKey E) <;> exact hs

theorem verifyAll_expects {D : Nat → Bytes} (i : Nat) (now : Int) (resolver : Bytes → Bool × Bytes) (w : Validatory) :
    ∀ (hs : List Header) (v : Validatory) (e : Bool) (k : List (Except Err Unit) → Prog α) (a : α) (n : Nat),
      SameMessage v w → v.file.data = D i →
      Expects D (k (inTurn (fun v => v.verifyOne E now resolver) v e hs)) a n →
      ∃ n', Expects D (verifyAll E now resolver i w.msg e hs k) a n'
  | [], v, e, k, a, n, _, _, h => ⟨n, h⟩
  | h :: hs, v, e, k, a, n, hsame, hd, hk => by
    unfold verifyAll
    unfold Spec.inTurn at hk
    have hs' := verifyOne_same (E := E) hsame now resolver h e
    have hm : w.msg = v.msg := hsame.2.1.symm
    have hx : ∃ n', Expects D (verifyAll E now resolver i w.msg (v.verifyOne E now resolver h e).2.1.erange hs
        (fun rs => k ((v.verifyOne E now resolver h e).1 :: rs))) a n' := by
      apply verifyAll_expects i now resolver w hs (v.verifyOne E now resolver h e).2.2.2 _ _ a n hs'
      · exact hs'.1.trans (hsame.1.symm.trans hd)
      · exact hk
    obtain ⟨n', hn'⟩ := hx
    rw [hm] at hn' ⊢
    exact verifyOne_expects v i hd hsame.2.2.2 now resolver h e _ a n' hn'

/-! ### Threads with streams of their own -/

/-- A program that accesses no other stream. -/
inductive Only (i : Nat) : Prog α → Prop
  | ret (a) : Only i (.ret a)
  | line (m k) : (∀ m', Only i (k m')) → Only i (.line i m k)
  | tell (m k) : (∀ m', Only i (k m')) → Only i (.tell i m k)
  | clear (b k) : (∀ r, Only i (k r)) → Only i (.clear i b k)
  | seek (b k) : (∀ r, Only i (k r)) → Only i (.seek i b k)
  | test (b a k) : (∀ r, Only i (k r)) → Only i (.test i b a k)
  | read (b a k) : (∀ r, Only i (k r)) → Only i (.read i b a k)

theorem Only.again {i : Nat} {k : Message → Prog α} (h : ∀ m, Only i (k m)) (ok : Bool) (m : Message) :
    Only i (Thr.again i ok m k) := by
  unfold Thr.again
  split
  · exact .line _ _ h
  · exact h m

theorem Only.step {i : Nat} {p : Prog α} (h : Only i p) (s : IStream) : Only i (p.step s).1 := by
  cases h with
  | ret a => exact .ret a
  | line m k h =>
    rw [line_step]
    cases s.getline with
    | mk o s1 =>
      cases o with
      | none =>
        show Only i (Thr.again i false _ k)
        exact Only.again h _ _
      | some l =>
        simp only
        cases chopCR l with
        | nil => exact .tell _ _ h
        | cons c cs => exact Only.again h _ _
  | tell m k h =>
    show Only i (Thr.again i true { m with bodyOffset := s.tellg.1, done := true } k)
    exact Only.again h _ _
  | clear b k h =>
    rw [clear_step]
    split
    · exact .seek _ _ h
    · exact h _
  | seek b k h => exact .test _ _ _ h
  | test b a k h =>
    rw [test_step]
    split
    · exact h _
    · split
      · exact h _
      · exact .read _ _ _ h
  | read b a k h => exact .test _ _ _ h

theorem Only.stream {i : Nat} {p : Prog α} (h : Only i p) : p.stream = none ∨ p.stream = some i := by
  cases h <;> first | exact .inl rfl | exact .inr rfl

theorem Only.inBody {i j : Nat} {p : Prog α} (h : Only i p) (hb : p.inBody = some j) : j = i := by
  cases h <;> cases hb <;> rfl

theorem Only.atBody {i j : Nat} {p : Prog α} (h : Only i p) (hb : p.atBody = some j) : j = i := by
  cases h <;> cases hb <;> rfl

theorem atBody_inBody {p : Prog α} (h : p.atBody.isSome) : p.inBody = none := by
  cases p <;> first | rfl | cases h

theorem Only.go {i : Nat} {p : Prog α} (h : Only i p) (f : Nat → IStream) : Only i (p.go f).1 := by
  unfold Prog.go
  rcases h.stream with e | e <;> rw [e]
  · exact h
  · exact h.step _

theorem Only.go_same {i : Nat} {p : Prog α} (h : Only i p) {f g : Nat → IStream} (e : f i = g i) :
    (p.go f).1 = (p.go g).1 ∧ (p.go f).2 i = (p.go g).2 i ∧ ∀ j, j ≠ i → (p.go f).2 j = f j := by
  unfold Prog.go
  rcases h.stream with h1 | h1 <;> rw [h1]
  · exact ⟨rfl, e, fun _ _ => rfl⟩
  · simp only [e]
    exact ⟨trivial, by rw [put_at, put_at], fun j hj => put_ne _ _ hj⟩

theorem alone_succ (n : Nat) (p : Prog α) (f : Nat → IStream) :
    p.alone (n + 1) f = (p.alone n f).1.go (p.alone n f).2 := by
  induction n generalizing p f with
  | zero => rfl
  | succ n ih => exact ih (p.go f).1 (p.go f).2

theorem alone_ret (a : α) (f : Nat → IStream) : ∀ n, (Prog.ret a).alone n f = (.ret a, f)
  | 0 => rfl
  | n + 1 => alone_ret a f n

theorem alone_add (n m : Nat) (p : Prog α) (f : Nat → IStream) :
    p.alone (n + m) f = (p.alone n f).1.alone m (p.alone n f).2 := by
  induction n generalizing p f with
  | zero => rw [Nat.zero_add]; rfl
  | succ n ih =>
    rw [show n + 1 + m = (n + m) + 1 by omega]
    exact ih (p.go f).1 (p.go f).2

/-- Threads each of which uses only the stream with its own number: every thread is where it would be alone. -/
theorem own_run (mutex : Bool) (ps : List (Prog α)) (f : Nat → IStream)
    (ho : ∀ (t : Nat) (p : Prog α), ps[t]? = some p → Only t p) : ∀ (schedule : List Nat) (t : Nat) (p : Prog α),
      ps[t]? = some p →
      let w := World.run mutex { files := f, threads := ps } schedule
      w.threads[t]? = some (p.alone (schedule.count t) f).1 ∧ w.files t = (p.alone (schedule.count t) f).2 t := by
  intro schedule
  -- from the end
  generalize hr : schedule.reverse = r
  have hsr : schedule = r.reverse := by rw [← hr, List.reverse_reverse]
  subst hsr
  clear hr
  induction r with
  | nil => intro t p hp; exact ⟨hp, rfl⟩
  | cons u r ih =>
    intro t p hp
    simp only [List.reverse_cons, run_append, List.count_append]
    simp only at ih
    generalize hw : World.run mutex { files := f, threads := ps } r.reverse = w at ih
    have hlen : w.threads.length = ps.length := by rw [← hw]; exact run_length _ _ _
    have honly : ∀ (t : Nat) (p : Prog α), ps[t]? = some p → ∀ n, Only t (p.alone n f).1 := by
      intro t p hp n
      induction n with
      | zero => exact ho t p hp
      | succ n ihn => rw [alone_succ]; exact ihn.go _
    have e : w.run mutex [u] = w.turn mutex u := rfl
    rw [e]
    unfold World.turn
    cases hu : ps[u]? with
    | none =>
      have hut : u ≠ t := by rintro rfl; rw [hp] at hu; cases hu
      have : w.threads[u]? = none := by
        rw [List.getElem?_eq_none_iff] at hu ⊢; omega
      rw [this]
      simp only [List.count_cons, List.count_nil, Nat.zero_add, beq_iff_eq, if_neg hut, Nat.add_zero]
      exact ih t p hp
    | some q =>
      obtain ⟨h1, h2⟩ := ih u q hu
      rw [h1]
      simp only
      have hq := honly u q hu (r.reverse.count u)
      rw [if_neg (by
        rintro ⟨_, hs, hany⟩
        obtain ⟨x, hx, hx'⟩ := List.any_eq_true.1 hany
        replace hx' := of_decide_eq_true hx'
        obtain ⟨j, hj⟩ := Option.isSome_iff_exists.1 hs
        rw [hj] at hx'
        have hju := hq.atBody hj
        subst hju
        obtain ⟨t', ht', rfl⟩ := List.getElem_of_mem hx
        have ht'' : t' < ps.length := by omega
        have h3 := (ih t' _ (List.getElem?_eq_getElem ht'')).1
        rw [List.getElem?_eq_getElem ht', Option.some.injEq] at h3
        have h4 := honly t' _ (List.getElem?_eq_getElem ht'') (r.reverse.count t')
        rw [← h3] at h4
        have h5 := h4.inBody hx'
        subst h5
        rw [List.getElem?_eq_getElem ht', Option.some.injEq] at h1
        rw [h1, atBody_inBody hs] at hx'
        cases hx')]
      obtain ⟨g1, g2, g3⟩ := hq.go_same h2
      by_cases hut : u = t
      · subst hut
        rw [hp] at hu
        cases hu
        have hlt : u < w.threads.length := by
          rw [hlen]; exact (List.getElem?_eq_some_iff.1 hp).1
        simp only [List.count_cons_self, List.count_nil, Nat.zero_add]
        rw [alone_succ]
        refine ⟨?_, g2⟩
        rw [List.getElem?_set_self hlt, g1]
      · simp only [List.count_cons, List.count_nil, Nat.zero_add, beq_iff_eq, if_neg hut, Nat.add_zero]
        rw [List.getElem?_set_ne hut, g3 t (Ne.symm hut)]
        exact ih t p hp

theorem checkBodyHash_only {i : Nat} (msg : Message) (sig : Signature) {k : Except Err Unit → Prog α} (h : ∀ r, Only i (k r)) :
    Only i (checkBodyHash E i msg sig k) := .clear _ _ (fun _ => h _)

theorem verifyOne_only {i : Nat} (now : Int) (resolver : Bytes → Bool × Bytes) (msg : Message) (hd : Header) (e : Bool)
    {k : Except Err Unit → SigSt → PublicKey E → Prog α} (h : ∀ r st pub, Only i (k r st pub)) :
    Only i (verifyOne E now resolver i msg hd e k) := by
  unfold verifyOne getSignature
  cases Signature.parse E now hd { erange := e } with
  | error er st => exact h _ _ _
  | ok u st =>
    apply checkBodyHash_only
    intro r
    cases r with
    | error er => exact h _ _ _
    | ok u =>
      simp only
      cases getPublicKey resolver st.sig ({} : PublicKey E) <;> exact h _ _ _

theorem verifyAll_only {i : Nat} (now : Int) (resolver : Bytes → Bool × Bytes) (msg : Message) :
    ∀ (hs : List Header) (e : Bool) {k : List (Except Err Unit) → Prog α}, (∀ rs, Only i (k rs)) →
      Only i (verifyAll E now resolver i msg e hs k)
  | [], _, _, h => h []
  | _ :: hs, _, _, h => by
    unfold verifyAll
    apply verifyOne_only
    intro r st pub
    exact verifyAll_only now resolver msg hs _ (fun rs => h _)

theorem task_only (i : Nat) (x : Task E) : Only i (x.prog i) := by
  cases x with
  | sign d o clock =>
    refine .line _ _ (fun m => .clear _ _ (fun r => ?_))
    split
    · exact .ret _
    · split <;> exact .ret _
  | verify d type now resolver e => exact .line _ _ (fun m => verifyAll_only _ _ _ _ _ (fun rs => .ret _))

/-- Alone on its stream a program that expects `a` gets it. -/
theorem Expects.leads {D : Nat → Bytes} {i : Nat} {p : Prog α} {a : α} {n : Nat} (h : Expects D p a n) (ho : Only i p) :
    ∀ s : IStream, s.data = D i → ∃ m s', Leads i m p s (.ret a) s' := by
  induction h with
  | ret a => intro s _; exact ⟨0, s, .refl _ _⟩
  | clear j b k m r a n hg _ ih =>
    intro s hd
    cases ho with
    | clear _ _ hk =>
      rcases hg k s hd with h1 | ⟨s', h1, h2⟩
      · obtain ⟨m', s', h3⟩ := ih (hk r) s hd
        exact ⟨m' + 1, s', .step _ _ _ _ _ rfl (by rw [h1]; exact h3)⟩
      · have hs' : s'.data = D i := by
          have : ∀ {n : Nat} {p q : Prog α} {s s' : IStream}, Mid i n p s q s' → s'.data = s.data := by
            intro n p q s s' h
            induction h with
            | last p s q s' _ e => have := step_data p s; rw [e] at this; exact this
            | more n p s p1 s1 q s' _ e _ ih => have := step_data p s; rw [e] at this; exact ih.trans this
          exact (this h2).trans hd
        obtain ⟨m', s'', h3⟩ := ih (hk r) s' hs'
        exact ⟨(m + m') + 1, s'', .step _ _ _ _ _ rfl (by rw [h1]; exact h2.leads.trans h3)⟩

/-- A task alone on its stream. -/
theorem task_alone (i : Nat) (x : Task E) : ∃ r, x.alone = some r ∧
    ∀ f : Nat → IStream, f i = { data := x.text } → ∃ n f', (x.prog i).alone n f = (.ret r, f') := by
  cases x with
  | sign d o clock =>
    refine ⟨_, rfl, ?_⟩
    intro f hf
    obtain ⟨m, s1, _, hp, _⟩ := C20_parse d
    obtain ⟨hv, hd⟩ := parse_valid d m s1 hp
    obtain ⟨calls, s2, h1, h2, h3⟩ := canonBodyBlk_spec 8096 (by decide) s1 o.canonBody m.bodyOffset o.bodySignLength o.bodyLength hv
    obtain ⟨n1, l1⟩ := lines_lead (α := Outcome) i (fun msg =>
      .clear i ⟨o.canonBody, msg.bodyOffset, o.bodySignLength, o.bodyLength⟩ (fun r =>
        if !r.2 then .ret (.signature (.error (.p .bodyLimitExceeded)))
        else
          match signLoop o.canonHead o.headers msg.headers.reverse with
          | .error e => .ret (.signature (.error e))
          | .ok (hashed, names) =>
            .ret (.signature (allSignatures E o clock hashed (names ++ o.oversign.map lower) (E.hash o.digest r.1.flatten) 0 []
              o.signatures.reverse)))) _ _ _ _ _ hp
    obtain ⟨n2, l2⟩ := body_leads (α := Outcome) i ⟨o.canonBody, m.bodyOffset, o.bodySignLength, o.bodyLength⟩ (fun r =>
        if !r.2 then .ret (.signature (.error (.p .bodyLimitExceeded)))
        else
          match signLoop o.canonHead o.headers m.headers.reverse with
          | .error e => .ret (.signature (.error e))
          | .ok (hashed, names) =>
            .ret (.signature (allSignatures E o clock hashed (names ++ o.oversign.map lower) (E.hash o.digest r.1.flatten) 0 []
              o.signatures.reverse))) s1 s2 _ h1
    have hl := (l1.trans l2).alone f hf
    refine ⟨_, put f i s2, hl.trans ?_⟩
    rw [Prod.mk.injEq]
    refine ⟨?_, rfl⟩
    unfold Signatory.createSignature
    rw [show Message.parseAll {} { data := d } = _ from hp]
    simp only
    rw [show Dkim.canonBody s1 o.canonBody m.bodyOffset o.bodySignLength o.bodyLength = _ from h1]
    simp only
    split
    · rfl
    · cases signLoop o.canonHead o.headers m.headers.reverse with
      | error e => rfl
      | ok x => rfl
  | verify d type now resolver e =>
    obtain ⟨m, s1, _, hp, _⟩ := C20_parse d
    obtain ⟨hv, hd⟩ := parse_valid d m s1 hp
    have hmk : Validatory.mk' { data := d } type = .ok { file := s1, msg := m, sigs := m.headers.filter (isSigHeader type) } := by
      unfold Validatory.mk'
      rw [show Message.parseAll {} { data := d } = _ from hp]
    refine ⟨.verdicts (inTurn (fun v => v.verifyOne E now resolver) { file := s1, msg := m, sigs := m.headers.filter (isSigHeader type) } e
      (m.headers.filter (isSigHeader type))), by simp only [Task.alone, hmk], ?_⟩
    intro f hf
    obtain ⟨n1, l1⟩ := lines_lead (α := Outcome) i (fun m => verifyAll E now resolver i m e (m.headers.filter (isSigHeader type))
      (fun rs => .ret (.verdicts rs))) _ _ _ _ _ hp
    obtain ⟨n', hx⟩ := verifyAll_expects (E := E) (D := fun _ => d) i now resolver
      { file := s1, msg := m, sigs := m.headers.filter (isSigHeader type) } (m.headers.filter (isSigHeader type))
      { file := s1, msg := m, sigs := m.headers.filter (isSigHeader type) } e (fun rs => Prog.ret (Outcome.verdicts rs)) _ 0
      ⟨rfl, rfl, rfl, hv⟩ hd (.ret _)
    obtain ⟨m', s', l2⟩ := hx.leads (i := i) (verifyAll_only _ _ _ _ _ (fun rs => .ret _)) s1 hd
    exact ⟨_, _, (l1.trans l2).alone f hf⟩

end Dkim.Thr
