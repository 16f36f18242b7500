import Verif.Spec.DigestFaults
import Verif.Proofs.EState
/-! Lemmas about digest functions that may fail. -/

namespace Dkim
open Spec
namespace Dig

theorem kept_all {u : Nat → Bool} (h : ∀ k, u k = true) (ds : List Bytes) : ∀ k, kept u k ds = ds := by
  induction ds with
  | nil => intro k; rfl
  | cons d ds ih => intro k; simp [kept, h k, ih]

theorem kept_sublist (u : Nat → Bool) (ds : List Bytes) : ∀ k, (kept u k ds).Sublist ds := by
  induction ds with
  | nil => intro k; exact List.Sublist.refl _
  | cons d ds ih =>
    intro k
    unfold kept
    split
    · exact (ih _).cons_cons d
    · exact (ih _).cons d

theorem kept_append (u : Nat → Bool) (a b : List Bytes) : ∀ k, kept u k (a ++ b) = kept u k a ++ kept u (k + a.length) b := by
  induction a with
  | nil => intro k; rfl
  | cons d a ih =>
    intro k
    simp only [List.cons_append, kept, ih, List.length_cons]
    rw [show k + 1 + a.length = k + (a.length + 1) by omega]
    split <;> rfl

theorem create_run (L : DigestLib) (k : Nat) : create L k = .ok (if L.create k then .blank else .null) (k + 1) := by
  unfold create
  rw [es_bind]
  unfold ask
  rw [esBind_ok]
  split <;> rfl

theorem start_run (L : DigestLib) (da : DigestAlg) (k : Nat) :
    start L da k = if L.create k then .ok (if L.init (k + 1) then .ready da [] else .blank) (k + 2) else .error .ub (k + 1) := by
  unfold start
  rw [es_bind, create_run, esBind_ok]
  cases hc : L.create k with
  | true =>
    simp only [if_true]
    unfold init
    simp only
    rw [es_bind]
    unfold ask
    rw [esBind_ok]
    split <;> rfl
  | false => rfl

theorem update_ready (L : DigestLib) (da : DigestAlg) (fed d : Bytes) (k : Nat) :
    update L (.ready da fed) d k = .ok (.ready da (if L.update k then fed ++ d else fed)) (k + 1) := by
  unfold update
  simp only
  rw [es_bind]
  unfold ask
  rw [esBind_ok]
  split <;> rfl

theorem update_blank (L : DigestLib) (d : Bytes) (k : Nat) : update L .blank d k = .ok .blank (k + 1) := rfl

theorem final_ready (E : Env) (L : DigestLib) (da : DigestAlg) (fed : Bytes) (k : Nat) :
    final E L (.ready da fed) k = if L.final k then .ok (E.hash da fed) (k + 1) else .error .ub (k + 1) := by
  unfold final
  simp only
  rw [es_bind]
  unfold ask
  rw [esBind_ok]
  split <;> rfl

theorem final_blank (E : Env) (L : DigestLib) (k : Nat) : final E L .blank k = .error .ub (k + 1) := rfl

theorem feed_ready (L : DigestLib) (da : DigestAlg) (ds : List Bytes) : ∀ (fed : Bytes) (k : Nat),
    feed L (.ready da fed) ds k = .ok (.ready da (fed ++ (kept L.update k ds).flatten)) (k + ds.length) := by
  induction ds with
  | nil => intro fed k; simp [feed, kept, es_pure]
  | cons d ds ih =>
    intro fed k
    rw [feed, es_bind, update_ready, esBind_ok, ih, kept, List.length_cons, show k + 1 + ds.length = k + (ds.length + 1) by omega]
    split <;> simp

theorem feed_blank (L : DigestLib) (ds : List Bytes) : ∀ (k : Nat), feed L .blank ds k = .ok .blank (k + ds.length) := by
  induction ds with
  | nil => intro k; rfl
  | cons d ds ih =>
    intro k
    rw [feed, es_bind, update_blank, esBind_ok, ih, List.length_cons, show k + 1 + ds.length = k + (ds.length + 1) by omega]

/-- A whole digest. -/
theorem digest_run (E : Env) (L : DigestLib) (da : DigestAlg) (ds : List Bytes) (k : Nat) (hc : L.create k = true) :
    ∃ n, (do final E L (← feed L (if L.init (k + 1) then .ready da [] else .blank) ds) : DigM Bytes) (k + 2) =
      match lossyDigest E L k da ds with
      | some md => .ok md n
      | none => .error .ub n := by
  unfold lossyDigest
  simp only [hc, true_and]
  rw [es_bind]
  cases hi : L.init (k + 1) with
  | false =>
    simp only [Bool.false_eq_true, if_false]
    rw [feed_blank, esBind_ok, final_blank]
    exact ⟨k + 2 + ds.length + 1, by simp only [false_and, if_false]⟩
  | true =>
    simp only [if_true]
    rw [feed_ready, esBind_ok, final_ready, List.nil_append]
    cases hf : L.final (k + 2 + ds.length) with
    | true => exact ⟨k + 2 + ds.length + 1, by simp only [if_true, and_self]⟩
    | false => exact ⟨k + 2 + ds.length + 1, by simp only [Bool.false_eq_true, if_false, and_false]⟩

/-- The pieces hashed by the loop over the signed header names. -/
def headPieces (mode : CanonMode) : HeaderCache → List Bytes → Except Err (List Bytes)
  | _, [] => .ok []
  | cache, name :: names =>
    match (cache (lower name)).getLast? with
    | none => headPieces mode cache names
    | some h =>
      match filterHeader mode h.header with
      | .error e => .error e
      | .ok t =>
        match headPieces mode (cache.put (lower name) (cache (lower name)).dropLast) names with
        | .error e => .error e
        | .ok rest => .ok ((t ++ CRLF) :: rest)

theorem headPieces_flatten (mode : CanonMode) (names : List Bytes) : ∀ cache : HeaderCache,
    Dkim.headLoop mode cache names = (match headPieces mode cache names with
      | .error e => .error e
      | .ok ps => .ok ps.flatten) := by
  induction names with
  | nil => intro cache; rfl
  | cons name names ih =>
    intro cache
    unfold Dkim.headLoop headPieces
    simp only
    cases (cache (lower name)).getLast? with
    | none => exact ih cache
    | some h =>
      simp only
      cases filterHeader mode h.header with
      | error e => rfl
      | ok t =>
        simp only
        rw [ih]
        cases headPieces mode (cache.put (lower name) (cache (lower name)).dropLast) names with
        | error e => rfl
        | ok ps => simp

/-- Feeding the pieces and then something else. -/
theorem headLoop_run (L : DigestLib) (mode : CanonMode) (names : List Bytes) : ∀ (c : DigestCtx) (cache : HeaderCache) (k : Nat),
    c ≠ .null → (match headPieces mode cache names with
      | .error e => ∃ n, headLoop L mode c cache names k = .error e n
      | .ok ps => headLoop L mode c cache names k = feed L c ps k) := by
  induction names with
  | nil => intro c cache k _; rfl
  | cons name names ih =>
    intro c cache k hc
    rw [headPieces.eq_def, headLoop.eq_def]
    dsimp only
    cases (cache (lower name)).getLast? with
    | none => exact ih c cache k hc
    | some h =>
      dsimp only
      cases filterHeader mode h.header with
      | error e => exact ⟨_, rfl⟩
      | ok t =>
        dsimp only
        rw [es_bind]
        have hl : liftX (Except.ok t : Except Err Bytes) k = .ok t k := rfl
        rw [hl, esBind_ok, es_bind]
        obtain ⟨c', hu, hc'⟩ : ∃ c', update L c (t ++ CRLF) k = .ok c' (k + 1) ∧ c' ≠ .null := by
          cases c with
          | null => exact absurd rfl hc
          | blank => exact ⟨_, update_blank _ _ _, by simp⟩
          | ready da fed => exact ⟨_, update_ready _ _ _ _ _, by simp⟩
        rw [hu, esBind_ok]
        have := ih c' (cache.put (lower name) (cache (lower name)).dropLast) (k + 1) hc'
        cases hp : headPieces mode (cache.put (lower name) (cache (lower name)).dropLast) names with
        | error e => rw [hp] at this; exact this
        | ok ps =>
          rw [hp] at this
          dsimp only at this ⊢
          rw [this, feed, es_bind, hu, esBind_ok]

/-! ### signing -/

/-- What the steps come to when no update fails: what they should, or undefined behaviour, but this only if a call fails. -/
def Near (L : DigestLib) (f : DigM α) (r : Except Err α) : Prop :=
  ∀ k, ending (f k) = r ∨ (ending (f k) = .error .ub ∧ ¬ Faultless L)

theorem Near.liftX (L : DigestLib) (r : Except Err α) : Near L (Dig.liftX r) r := by
  intro k
  cases r <;> exact Or.inl rfl

theorem Near.pure (L : DigestLib) (a : α) : Near L (Pure.pure a) (.ok a) := fun _ => Or.inl rfl

/-- What follows a step that ends with `r`. -/
def After (L : DigestLib) (r : Except Err α) (g : α → DigM β) (q : Except Err β) : Prop :=
  match r with
  | .ok a => Near L (g a) q
  | .error e => q = .error e

theorem Near.bind {f : DigM α} {r : Except Err α} {g : α → DigM β} {q : Except Err β}
    (h : Near L f r) (h' : After L r g q) : Near L (f >>= g) q := by
  intro k
  rw [es_bind]
  have := h k
  cases hf : f k with
  | error e n =>
    rw [hf] at this
    rw [esBind_error]
    rcases this with this | this
    · cases r with
      | ok a => cases this
      | error e' =>
        cases this
        exact Or.inl h'.symm
    · exact Or.inr ⟨by cases this.1; rfl, this.2⟩
  | ok a n =>
    rw [hf] at this
    rw [esBind_ok]
    rcases this with this | this
    · cases r with
      | ok a' =>
        cases this
        exact h' n
      | error e' => cases this
    · cases this.1

/-- Contexts: what it should be, or without a digest. -/
def Fits (L : DigestLib) (c : DigestCtx) (da : DigestAlg) (fed : Bytes) : Prop :=
  c = .ready da fed ∨ (c = .blank ∧ ¬ Faultless L)

/-- A step that leaves a context that fits, or ends as it should. -/
def Leads (L : DigestLib) (f : DigM α) (P : α → Prop) : Prop :=
  ∀ k, (∃ a n, f k = .ok a n ∧ P a) ∨ ((∃ n, f k = .error .ub n) ∧ ¬ Faultless L)

theorem Near.of_leads {f : DigM α} {P : α → Prop} {g : α → DigM β} {q : Except Err β} (h : Leads L f P)
    (h' : ∀ a, P a → Near L (g a) q) : Near L (f >>= g) q := by
  intro k
  rw [es_bind]
  rcases h k with ⟨a, n, e, p⟩ | ⟨⟨n, e⟩, hl⟩
  · rw [e, esBind_ok]; exact h' a p n
  · rw [e, esBind_error]; exact Or.inr ⟨rfl, hl⟩

theorem start_leads (L : DigestLib) (da : DigestAlg) : Leads L (start L da) (fun c => Fits L c da []) := by
  intro k
  rw [start_run]
  split
  · left
    split
    · exact ⟨_, _, rfl, Or.inl rfl⟩
    · rename_i h
      exact ⟨_, _, rfl, Or.inr ⟨rfl, fun hf => h (hf _).2.1⟩⟩
  · rename_i h
    exact Or.inr ⟨⟨_, rfl⟩, fun hf => h (hf _).1⟩

theorem update_leads {L : DigestLib} (hu : NoUpdateFails L) {c : DigestCtx} {da : DigestAlg} {fed : Bytes} (h : Fits L c da fed)
    (d : Bytes) : Leads L (update L c d) (fun c => Fits L c da (fed ++ d)) := by
  intro k
  left
  rcases h with rfl | ⟨rfl, hl⟩
  · rw [update_ready, hu k]; exact ⟨_, _, rfl, Or.inl rfl⟩
  · exact ⟨_, _, update_blank _ _ _, Or.inr ⟨rfl, hl⟩⟩

theorem feed_leads {L : DigestLib} (hu : NoUpdateFails L) {c : DigestCtx} {da : DigestAlg} {fed : Bytes} (h : Fits L c da fed)
    (ds : List Bytes) : Leads L (feed L c ds) (fun c => Fits L c da (fed ++ ds.flatten)) := by
  intro k
  left
  rcases h with rfl | ⟨rfl, hl⟩
  · rw [feed_ready, kept_all hu]; exact ⟨_, _, rfl, Or.inl rfl⟩
  · exact ⟨_, _, feed_blank _ _ _, Or.inr ⟨rfl, hl⟩⟩

theorem final_near (E : Env) {L : DigestLib} {c : DigestCtx} {da : DigestAlg} {fed : Bytes} (h : Fits L c da fed) :
    Near L (final E L c) (.ok (E.hash da fed)) := by
  intro k
  rcases h with rfl | ⟨rfl, hl⟩
  · rw [final_ready]
    split
    · exact Or.inl rfl
    · rename_i h
      exact Or.inr ⟨rfl, fun hf => h (hf _).2.2.2.2⟩
  · exact Or.inr ⟨rfl, hl⟩

theorem copy_leads {L : DigestLib} {c : DigestCtx} {da : DigestAlg} {fed : Bytes} (h : Fits L c da fed) {dst : DigestCtx}
    (hd : dst = .null → ¬ Faultless L) : Leads L (copy L dst c) (fun c => Fits L c da fed) := by
  intro k
  rcases h with rfl | ⟨rfl, hl⟩
  · cases dst with
    | null => exact Or.inr ⟨⟨_, rfl⟩, hd rfl⟩
    | blank =>
      left
      unfold copy
      simp only
      rw [es_bind]
      unfold ask
      rw [esBind_ok]
      split
      · exact ⟨_, _, rfl, Or.inl rfl⟩
      · rename_i h
        exact ⟨_, _, rfl, Or.inr ⟨rfl, fun hf => h (hf _).2.2.2.1⟩⟩
    | ready a b =>
      left
      unfold copy
      simp only
      rw [es_bind]
      unfold ask
      rw [esBind_ok]
      split
      · exact ⟨_, _, rfl, Or.inl rfl⟩
      · rename_i h
        exact ⟨_, _, rfl, Or.inr ⟨rfl, fun hf => h (hf _).2.2.2.1⟩⟩
  · cases dst with
    | null => exact Or.inr ⟨⟨_, rfl⟩, hd rfl⟩
    | blank => exact Or.inl ⟨_, _, rfl, Or.inr ⟨rfl, hl⟩⟩
    | ready a b => exact Or.inl ⟨_, _, rfl, Or.inr ⟨rfl, hl⟩⟩

theorem create_leads (L : DigestLib) : Leads L (create L) (fun c => c = .null → ¬ Faultless L) := by
  intro k
  rw [create_run]
  refine Or.inl ⟨_, _, rfl, fun h hf => ?_⟩
  rw [(hf k).1] at h
  cases h

/-- The loop over the header fields: it ends as it should, and so fits the context. -/
theorem signLoop_near {L : DigestLib} (hu : NoUpdateFails L) (mode : CanonMode) (sel : List Bytes) (da : DigestAlg)
    (hs : List Header) : ∀ (c : DigestCtx) (fed : Bytes), Fits L c da fed → ∀ k,
    (match Dkim.signLoop mode sel hs with
      | .error e => ∃ n, signLoop L mode sel c hs k = .error e n
      | .ok (bytes, names) => ∃ c' n, signLoop L mode sel c hs k = .ok (c', names) n ∧ Fits L c' da (fed ++ bytes)) := by
  induction hs with
  | nil => intro c fed h k; exact ⟨c, k, rfl, by simpa using h⟩
  | cons h hs ih =>
    intro c fed hc k
    rw [Dkim.signLoop.eq_def, signLoop.eq_def]
    dsimp only
    by_cases hsel : isSelected sel h = true
    · rw [if_pos hsel, if_pos hsel]
      cases filterHeader mode h.header with
      | error e => exact ⟨_, rfl⟩
      | ok t =>
        dsimp only
        rw [es_bind]
        have hl : liftX (Except.ok t : Except Err Bytes) k = .ok t k := rfl
        rw [hl, esBind_ok, es_bind]
        rcases update_leads hu hc (t ++ CRLF) k with ⟨c', n, e, hc'⟩ | ⟨⟨n, e⟩, _⟩
        · rw [e, esBind_ok, es_bind]
          have := ih c' _ hc' n
          cases hq : Dkim.signLoop mode sel hs with
          | error e => rw [hq] at this; obtain ⟨n', e'⟩ := this; exact ⟨n', by rw [e', esBind_error]⟩
          | ok q =>
            obtain ⟨bytes, names⟩ := q
            rw [hq] at this
            obtain ⟨c2, n', e', hf⟩ := this
            refine ⟨c2, n', ?_, by simpa [List.append_assoc] using hf⟩
            rw [e', esBind_ok]
            rfl
        · exfalso
          rcases hc with rfl | ⟨rfl, hl⟩
          · rw [update_ready] at e; cases e
          · rw [update_blank] at e; cases e
    · rw [if_neg hsel, if_neg hsel]
      exact ih c fed hc k

theorem oneSignature_near {E : Env} {L : DigestLib} (hu : NoUpdateFails L) (o : Options E) (s : SigOpts E) (now : Int)
    {head : DigestCtx} {hashed : Bytes} (hh : Fits L head o.digest hashed) (names : List Bytes) (bh : Bytes) :
    Near L (oneSignature E L o s now head names bh) (Dkim.oneSignature E o s now hashed names bh) := by
  unfold oneSignature Dkim.oneSignature
  refine Near.bind (Near.liftX _ _) ?_
  cases sigHeaderText o s now names bh with
  | error e => rfl
  | ok text =>
    dsimp only
    refine Near.of_leads (create_leads L) fun c hd => ?_
    refine Near.of_leads (copy_leads hh hd) fun c hc => ?_
    refine Near.bind (Near.liftX _ _) ?_
    cases filterHeader o.canonHead text with
    | error e => rfl
    | ok t2 =>
      dsimp only
      refine Near.of_leads (update_leads hu hc t2) fun c hc => ?_
      refine Near.bind (final_near E hc) ?_
      show Near L _ _
      refine Near.bind (Near.liftX _ _) ?_
      cases signDigest E s o.digest (E.hash o.digest (hashed ++ t2)) with
      | error e => rfl
      | ok sg =>
        dsimp only
        refine Near.bind (Near.liftX _ _) ?_
        cases foldB ((b64Encode sg).length + 1) 3 (b64Encode sg) with
        | error e => rfl
        | ok b => exact Near.pure _ _

theorem allSignatures_near {E : Env} {L : DigestLib} (hu : NoUpdateFails L) (o : Options E) (clock : Nat → Int)
    {head : DigestCtx} {hashed : Bytes} (hh : Fits L head o.digest hashed) (names : List Bytes) (bh : Bytes)
    (ss : List (SigOpts E)) : ∀ (j : Nat) (acc : Bytes),
    Near L (allSignatures E L o clock head names bh j acc ss) (Dkim.allSignatures E o clock hashed names bh j acc ss) := by
  induction ss with
  | nil => intro j acc; exact Near.pure _ _
  | cons s ss ih =>
    intro j acc
    unfold allSignatures Dkim.allSignatures
    refine Near.bind (oneSignature_near hu o s (clock j) hh names bh) ?_
    cases Dkim.oneSignature E o s (clock j) hashed names bh with
    | error e => rfl
    | ok h => exact ih _ _

end Dig
end Dkim
