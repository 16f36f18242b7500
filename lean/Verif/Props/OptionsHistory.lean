import Verif.Spec.Options
import Verif.Props.Options
import Verif.Tests.Samples
/-!
# Properties C79, C80: options as a function of the history of calls; calls that throw
-/

namespace Dkim
open Spec

variable {E : Env}

theorem take_dashes {k p : Bytes} : k.take p.length = p ↔ ∃ t, k = p ++ t := by
  constructor
  · intro h; exact ⟨k.drop p.length, by rw [← List.take_append_drop p.length k]; simp [h]⟩
  · rintro ⟨t, rfl⟩; simp

/-- The exception and the state of a call. -/
def Spec.endOf {α β : Type} : EStateM.Result Err α β → Option Err × α
  | .ok _ s => (none, s)
  | .error e s => (some e, s)

theorem setsKey_run {k : Bytes} {s : SigOpts E} {e : Option Reason} {s' : SigOpts E} (h : SetsKey k s e s') :
    endOf ((SigOp.privateKey k).run s) = (e.map Err.p, s') := by
  have dash : ∀ t, k = b!"-----" ++ t → k.take 5 = b!"-----" := by rintro t rfl; rfl
  have nodash : (¬ ∃ t, k = b!"-----" ++ t) → k.take 5 ≠ b!"-----" := fun h hk => h (take_dashes (p := b!"-----").1 hk)
  show endOf ((SigOpts.setPrivateKey k : EStateM Err (SigOpts E) Unit) s) = _
  unfold SigOpts.setPrivateKey
  rw [es_bind, es_get, esBind_ok]
  cases h with
  | pem alg d key => obtain ⟨t, d⟩ := d; cases s; cases alg; simp only [key]; rw [if_pos (dash t d)]; rfl
  | pemOther alg d key => obtain ⟨t, d⟩ := d; cases s; cases alg; simp only [key]; rw [if_pos (dash t d)]; rfl
  | pemBad alg d key => obtain ⟨t, d⟩ := d; cases s; cases alg; simp only [key]; rw [if_pos (dash t d)]; rfl
  | der alg d key => cases s; cases alg; simp only [key]; rw [if_neg (nodash d)]; rfl
  | derBad alg d key => cases s; cases alg; simp only [key]; rw [if_neg (nodash d)]; rfl
  | secret alg size => cases s; cases alg; simp only; rw [if_pos size]; rfl
  | secretB64 alg size d => cases s; cases alg; simp only; rw [if_neg size.1, if_neg size.2, if_pos d]; rfl
  | seed alg size => cases s; cases alg; simp only; rw [if_neg (by omega), if_pos size]; rfl
  | seedB64 alg size d => cases s; cases alg; simp only; rw [if_neg size.1, if_neg size.2, if_neg (by omega), if_pos d]; rfl
  | edBad alg size d => cases s; cases alg; simp only; rw [if_neg size.1, if_neg size.2, if_neg d.1, if_neg d.2]; rfl

theorem setsKey_total (k : Bytes) (s : SigOpts E) : ∃ e s', SetsKey k s e s' := by
  cases ha : s.alg with
  | rsa =>
    by_cases hd : ∃ t, k = b!"-----" ++ t
    · cases hp : E.pemPriv k with
      | none => exact ⟨_, _, .pemBad ha hd hp⟩
      | some r =>
        cases r with
        | none => exact ⟨_, _, .pemOther ha hd hp⟩
        | some r => exact ⟨_, _, .pem ha hd hp⟩
    · cases hp : E.derPriv (E.b64dec k) with
      | none => exact ⟨_, _, .derBad ha hd hp⟩
      | some r => exact ⟨_, _, .der ha hd hp⟩
  | ed25519 =>
    by_cases h1 : k.length = 64
    · exact ⟨_, _, .secret ha h1⟩
    · by_cases h2 : k.length = 32
      · exact ⟨_, _, .seed ha h2⟩
      · by_cases h3 : (E.b64dec k).length = 64
        · exact ⟨_, _, .secretB64 ha ⟨h1, h2⟩ h3⟩
        · by_cases h4 : (E.b64dec k).length = 32
          · exact ⟨_, _, .seedB64 ha ⟨h1, h2⟩ h4⟩
          · exact ⟨_, _, .edBad ha ⟨h1, h2⟩ ⟨h3, h4⟩⟩

/-- C79: exactly what `SetPrivateKey` does, for every text and every state of the signature. -/
theorem C79_private_key (k : Bytes) (s : SigOpts E) (e : Option Reason) (s' : SigOpts E) :
    SetsKey k s e s' ↔ endOf ((SigOp.privateKey k).run s) = (e.map Err.p, s') := by
  refine ⟨setsKey_run, fun h => ?_⟩
  obtain ⟨e1, s1, h1⟩ := setsKey_total k s
  rw [setsKey_run h1] at h
  simp only [Prod.mk.injEq] at h
  obtain ⟨h2, rfl⟩ := h
  have : e1 = e := by
    cases e1 <;> cases e <;> simp at h2 <;> simp [h2]
  exact this ▸ h1

theorem after_step {cs : List (SigOp E)} {s : SigOpts E} (h : After cs s) (op : SigOp E) :
    After (cs ++ [op]) (esState (op.run s)) := by
  cases op with
  | privateKey k =>
    obtain ⟨e, s', hk⟩ := setsKey_total k s
    have := setsKey_run hk
    have h2 : esState ((SigOp.privateKey k).run s) = s' := by
      cases hr : (SigOp.privateKey k).run s <;> rw [hr] at this <;> simp only [endOf, Prod.mk.injEq] at this <;> exact this.2
    rw [h2]
    exact .key h hk
  | rsaPrivateKey r => exact .rsa r h
  | alg a => exact .alg a h
  | domain d =>
    by_cases hd : IsDomain d
    · rw [((C24_set_or_throw s d).1 hd).1]; exact .domain hd h
    · rw [((C24_set_or_throw s d).2 hd).1]; exact .noDomain hd h
  | selector d =>
    by_cases hd : IsDomain d
    · rw [((C24_set_or_throw s d).1 hd).2]; exact .selector hd h
    · rw [((C24_set_or_throw s d).2 hd).2]; exact .noSelector hd h

theorem runAt_get (op : SigOp E) (l : List (SigOpts E)) (i j : Nat) :
    (runAt op i l).2[j]? = if i = j then l[j]?.map (fun s => esState (op.run s)) else l[j]? := by
  induction l generalizing i j with
  | nil => cases i <;> simp [runAt]
  | cons s l ih =>
    cases i with
    | zero =>
      unfold runAt
      cases hr : op.run s <;> cases j <;> simp [hr]
    | succ i =>
      unfold runAt
      cases j with
      | zero => simp
      | succ j => simp [ih]

theorem runAt_length (op : SigOp E) (l : List (SigOpts E)) (i : Nat) : (runAt op i l).2.length = l.length := by
  induction l generalizing i with
  | nil => cases i <;> rfl
  | cons s l ih =>
    cases i with
    | zero => unfold runAt; cases hr : op.run s <;> simp [hr]
    | succ i => unfold runAt; simp [ih]

theorem history_snoc (o : Options E) (ops : List (OptOp E)) (op : OptOp E) :
    o.history (ops ++ [op]) = (op.run (o.history ops)).2 := by
  unfold Options.history
  rw [List.foldl_append]
  rfl

theorem callsOn_snoc (j : Nat) (ops : List (OptOp E)) (op : OptOp E) :
    callsOn j (ops ++ [op]) = callsOn j ops ++ callsOn j [op] := List.filterMap_append

theorem addedSigs_snoc (ops : List (OptOp E)) (op : OptOp E) : addedSigs (ops ++ [op]) = addedSigs ops + addedSigs [op] := by
  unfold addedSigs; rw [List.filter_append, List.length_append]

theorem legal_prefix {ops : List (OptOp E)} {op : OptOp E} (h : CallOrder (ops ++ [op])) : CallOrder ops := by
  intro pre i c post e
  exact h pre i c (post ++ [op]) (by rw [e]; simp)

/-- C79: there is one signature for the object and one per `AddAdditionalSignature`, and each is determined by the calls made on it: no
call on one signature, and no other setter, changes another. -/
theorem C79_signatures (ops : List (OptOp E)) (hl : CallOrder ops) :
    (Options.history ({} : Options E) ops).signatures.length = 1 + addedSigs ops ∧
    ∀ j s, (Options.history ({} : Options E) ops).signatures[j]? = some s → After (callsOn j ops) s := by
  have main : ∀ r : List (OptOp E), CallOrder r.reverse →
      (Options.history ({} : Options E) r.reverse).signatures.length = 1 + addedSigs r.reverse ∧
      ∀ j s, (Options.history ({} : Options E) r.reverse).signatures[j]? = some s → After (callsOn j r.reverse) s := by
    intro r
    induction r with
    | nil =>
      intro _
      refine ⟨rfl, ?_⟩
      intro j s h
      cases j with
      | zero => cases h; exact .new
      | succ j => simp [Options.history, Options.signatures] at h
    | cons op r ih =>
      intro hl
      rw [List.reverse_cons] at hl ⊢
      obtain ⟨ih1, ih2⟩ := ih (legal_prefix hl)
      generalize r.reverse = ops at *
      rw [history_snoc, addedSigs_snoc]
      generalize Options.history ({} : Options E) ops = o at *
      have keep : ∀ {o' : Options E}, o'.signatures = o.signatures → callsOn 0 [op] = [] → (∀ j, callsOn (j + 1) [op] = []) → addedSigs [op] = 0 →
          (op.run o).2 = o' → (op.run o).2.signatures.length = 1 + (addedSigs ops + addedSigs [op]) ∧
            ∀ j s, (op.run o).2.signatures[j]? = some s → After (callsOn j (ops ++ [op])) s := by
        intro o' h1 h2 h3 h4 h5
        rw [h5, h1, h4]
        refine ⟨ih1, fun j s h => ?_⟩
        rw [callsOn_snoc]
        cases j with
        | zero => rw [h2, List.append_nil]; exact ih2 _ _ h
        | succ j => rw [h3, List.append_nil]; exact ih2 _ _ h
      cases op with
      | sig i op =>
        cases i with
        | none =>
          have e : (OptOp.run o (.sig none op)).2 = { o with first := esState (op.run o.first) } := by
            show (runFirst op o).2 = _
            unfold runFirst
            cases op.run o.first <;> rfl
          rw [e]
          refine ⟨ih1, fun j s h => ?_⟩
          rw [callsOn_snoc]
          cases j with
          | zero =>
            cases h
            exact after_step (ih2 0 _ rfl) op
          | succ j =>
            have : callsOn (j + 1) [OptOp.sig none op] = [] := by simp [callsOn, about]
            rw [this, List.append_nil]
            exact ih2 (j + 1) s h
        | some i =>
          have hi : i < addedSigs ops := hl ops i op [] (by simp)
          refine ⟨?_, fun j s h => ?_⟩
          · show ((runAt op i o.more).2).length + 1 = 1 + (addedSigs ops + 0)
            rw [runAt_length]; exact ih1
          · rw [callsOn_snoc]
            cases j with
            | zero =>
              have : callsOn 0 [OptOp.sig (some i) op] = [] := by simp [callsOn, about]
              rw [this, List.append_nil]
              exact ih2 0 s h
            | succ j =>
              have h : (runAt op i o.more).2[j]? = some s := h
              rw [runAt_get] at h
              by_cases hij : i = j
              · subst hij
                rw [if_pos rfl] at h
                cases hm : o.more[i]? with
                | none => rw [hm] at h; cases h
                | some s0 =>
                  rw [hm] at h
                  cases h
                  have : callsOn (i + 1) [OptOp.sig (some i) op] = [op] := by simp [callsOn, about]
                  rw [this]
                  exact after_step (ih2 (i + 1) s0 hm) op
              · rw [if_neg hij] at h
                have : callsOn (j + 1) [OptOp.sig (some i) op] = [] := by simp [callsOn, about, hij]
                rw [this, List.append_nil]
                exact ih2 (j + 1) s h
      | addSignature =>
        have e : (OptOp.run o .addSignature).2.signatures = o.signatures ++ [({} : SigOpts E)] := rfl
        rw [e]
        refine ⟨by rw [List.length_append, ih1]; simp [addedSigs]; omega, fun j s h => ?_⟩
        have hc : callsOn j [(.addSignature : OptOp E)] = [] := rfl
        rw [callsOn_snoc, hc, List.append_nil]
        by_cases hj : j < o.signatures.length
        · rw [List.getElem?_append_left hj] at h; exact ih2 j s h
        · rw [List.getElem?_append_right (by omega)] at h
          have hj2 : j - o.signatures.length = 0 := by
            refine Classical.byContradiction fun hn => ?_
            rw [List.getElem?_eq_none (by simp; omega)] at h
            cases h
          rw [hj2] at h
          cases h
          have : callsOn j ops = [] := by
            unfold callsOn
            rw [List.filterMap_eq_nil_iff]
            intro x hx
            obtain ⟨pre, post, e⟩ := List.append_of_mem hx
            cases x with
            | sig i c =>
              cases i with
              | none => simp only [about]; rw [if_neg (by omega)]
              | some i =>
                have hi := hl pre i c (post ++ [.addSignature]) (by rw [e]; simp)
                have : addedSigs pre ≤ addedSigs ops := by
                  rw [e]; unfold addedSigs; rw [List.filter_append, List.length_append]; omega
                simp only [about]
                rw [if_neg (by omega)]
            | _ => rfl
          rw [this]
          exact .new
      | _ => exact keep (o' := (OptOp.run o _).2) rfl rfl (fun _ => rfl) rfl rfl
  have := main ops.reverse (by simpa using hl)
  simpa using this

/-- The algorithm a call sets. -/
def Spec.algArg : SigOp E → Option SigAlg
  | .alg a => some a
  | _ => none

open Classical in
/-- The domain a call sets. -/
noncomputable def Spec.domainArg : SigOp E → Option Bytes
  | .domain d => if IsDomain d then some d else none
  | _ => none

open Classical in
/-- The selector a call sets. -/
noncomputable def Spec.selectorArg : SigOp E → Option Bytes
  | .selector d => if IsDomain d then some d else none
  | _ => none

theorem lastOr_snoc {α : Type} (d : α) (l : List α) (x : α) : lastOr d (l ++ [x]) = x := by simp [lastOr]

theorem setsKey_frame {k : Bytes} {s : SigOpts E} {e : Option Reason} {s' : SigOpts E} (h : SetsKey k s e s') :
    s'.alg = s.alg ∧ s'.domain = s.domain ∧ s'.selector = s.selector := by
  cases h <;> exact ⟨rfl, rfl, rfl⟩

/-- C79: for each signature the last algorithm and the last well-formed domain and selector count. -/
theorem C79_last_wins {cs : List (SigOp E)} {s : SigOpts E} (h : After cs s) :
    s.alg = lastOr .rsa (cs.filterMap algArg) ∧ s.domain = lastOr [] (cs.filterMap domainArg) ∧
    s.selector = lastOr [] (cs.filterMap selectorArg) := by
  induction h with
  | new => exact ⟨rfl, rfl, rfl⟩
  | key h set ih =>
    obtain ⟨h1, h2, h3⟩ := setsKey_frame set
    rw [h1, h2, h3]
    simp only [List.filterMap_append, List.filterMap_cons, List.filterMap_nil, algArg, domainArg, selectorArg, List.append_nil]
    exact ih
  | alg a h ih =>
    simp only [List.filterMap_append, List.filterMap_cons, List.filterMap_nil, algArg, domainArg, selectorArg, List.append_nil, lastOr_snoc]
    exact ⟨trivial, ih.2⟩
  | domain ok h ih =>
    simp only [List.filterMap_append, List.filterMap_cons, List.filterMap_nil, algArg, domainArg, selectorArg, if_pos ok, lastOr_snoc, List.append_nil]
    exact ⟨ih.1, trivial, ih.2.2⟩
  | selector ok h ih =>
    simp only [List.filterMap_append, List.filterMap_cons, List.filterMap_nil, algArg, domainArg, selectorArg, if_pos ok, lastOr_snoc, List.append_nil]
    exact ⟨ih.1, ih.2.1, trivial⟩
  | noDomain bad h ih =>
    simp only [List.filterMap_append, List.filterMap_cons, List.filterMap_nil, algArg, domainArg, selectorArg, if_neg bad, List.append_nil]
    exact ih
  | noSelector bad h ih =>
    simp only [List.filterMap_append, List.filterMap_cons, List.filterMap_nil, algArg, domainArg, selectorArg, if_neg bad, List.append_nil]
    exact ih
  | rsa r h ih =>
    simp only [List.filterMap_append, List.filterMap_cons, List.filterMap_nil, algArg, domainArg, selectorArg, List.append_nil]
    exact ih

/-- C79: every other option has the value of the last call of its setter, or its default. (For the header list see C51.) -/
theorem C79_getters (ops : List (OptOp E)) :
    let o := Options.history ({} : Options E) ops
    let last {α : Type} (d : α) (f : OptOp E → Option α) : α := lastOr d (ops.filterMap f)
    o.digest = last .sha256 (fun c => match c with | .digest a => some a | _ => none) ∧
    o.oversign = last [] (fun c => match c with | .oversign l => some l | _ => none) ∧
    (o.bodySignLength, o.bodyLength) = last (false, 0) (fun c => match c with | .bodyLength n => some (true, n) | _ => none) ∧
    o.arcInstance = last 0 (fun c => match c with | .arcInstance n => some n | _ => none) ∧
    o.canonHead = last .simple (fun c => match c with | .canonHead m => some m | _ => none) ∧
    o.canonBody = last .simple (fun c => match c with | .canonBody m => some m | _ => none) ∧
    (o.timestampSign, o.timestamp) = last (false, -1) (fun c => match c with | .timestamp t => some (true, t) | _ => none) ∧
    (o.expirationSign, o.expiration, o.expirationAbsolute) =
      last (false, -1, true) (fun c => match c with | .expiration t a => some (true, t, a) | _ => none) ∧
    o.identity = last [] (fun c => match c with | .identity s => some s | _ => none) := by
  have gen : ∀ {α : Type} (g : Options E → α) (f : OptOp E → Option α),
      (∀ o op, g (op.run o).2 = (f op).getD (g o) ∨ ∃ i c, op = .sig i c ∧ f op = none) →
      (∀ o s m, g { o with first := s, more := m } = g o) →
      g (Options.history ({} : Options E) ops) = lastOr (g {}) (ops.filterMap f) := by
    intro α g f hf0 hs
    have hf : ∀ o op, g (op.run o).2 = (f op).getD (g o) := by
      intro o op
      rcases hf0 o op with h | ⟨i, c, rfl, h⟩
      · exact h
      · rw [h]
        cases i with
        | none =>
          show g (runFirst c o).2 = _
          unfold runFirst
          cases c.run o.first <;> exact hs o _ o.more
        | some i => exact hs o o.first _
    have : ∀ o : Options E, g (o.history ops) = lastOr (g o) (ops.filterMap f) := by
      induction ops with
      | nil => intro o; rfl
      | cons op ops ih =>
        intro o
        have h1 : o.history (op :: ops) = Options.history (op.run o).2 ops := rfl
        rw [h1, ih, hf, List.filterMap_cons]
        cases f op with
        | none => rfl
        | some a => simp [lastOr, List.getLast?_cons]
    exact this _
  intro o last
  refine ⟨gen (·.digest) _ ?_ (fun _ _ _ => rfl), gen (·.oversign) _ ?_ (fun _ _ _ => rfl),
    gen (fun o => (o.bodySignLength, o.bodyLength)) _ ?_ (fun _ _ _ => rfl), gen (·.arcInstance) _ ?_ (fun _ _ _ => rfl),
    gen (·.canonHead) _ ?_ (fun _ _ _ => rfl), gen (·.canonBody) _ ?_ (fun _ _ _ => rfl),
    gen (fun o => (o.timestampSign, o.timestamp)) _ ?_ (fun _ _ _ => rfl),
    gen (fun o => (o.expirationSign, o.expiration, o.expirationAbsolute)) _ ?_ (fun _ _ _ => rfl), gen (·.identity) _ ?_ (fun _ _ _ => rfl)⟩ <;>
    intro o op <;> cases op <;> first | exact Or.inl rfl | exact Or.inr ⟨_, _, rfl, rfl⟩

/-- A history with two signatures; the calls are interleaved, one throws. -/
example : CallOrder ([.sig none (.domain b!"a.b"), .addSignature, .sig (some 0) (.domain b!"c.d"), .sig none (.domain b!"x;y"), .timestamp 5,
      .sig (some 0) (.alg .ed25519), .timestamp 7] : List (OptOp toyEnv)) ∧
    callsOn 1 ([.sig none (.domain b!"a.b"), .addSignature, .sig (some 0) (.domain b!"c.d"), .sig none (.domain b!"x;y"), .timestamp 5,
      .sig (some 0) (.alg .ed25519), .timestamp 7] : List (OptOp toyEnv)) = [.domain b!"c.d", .alg .ed25519] := by
  refine ⟨?_, rfl⟩
  intro pre i op post e
  have : ∀ n, n ≤ 7 → pre.length = n → i < addedSigs pre := by
    intro n hn hl
    match n, pre, hl with
    | 0, [], _ => simp at e
    | 1, [a], _ => simp at e
    | 2, [a, b], _ => simp at e; obtain ⟨rfl, rfl, ⟨rfl, _⟩, _⟩ := e; decide
    | 3, [a, b, c], _ => simp at e
    | 4, [a, b, c, d], _ => simp at e
    | 5, [a, b, c, d, f], _ => simp at e; obtain ⟨rfl, rfl, rfl, rfl, rfl, ⟨rfl, _⟩, _⟩ := e; decide
    | 6, [a, b, c, d, f, g], _ => simp at e
    | 7, [a, b, c, d, f, g, h], _ => simp at e
  refine this _ ?_ rfl
  have := congrArg List.length e
  simp at this
  omega

/-! ### Calls that throw -/

/-- C80 (all calls but one kind, see the witness): a setter that throws leaves the options exactly as they were, except that
`SetPrivateKey` on a signature for RSA, given a text that is neither PEM nor base64 of a DER key, has removed the RSA key stored before. -/
theorem C80_throwing_call_partial (o : Options E) (op : OptOp E) (e : Err) (h : (op.run o).1 = some e) :
    (op.run o).2 = o ∨
    ∃ i k s, op = .sig i (.privateKey k) ∧ e = .p .badDer ∧ s.alg = .rsa ∧
      ((i = none ∧ s = o.first ∧ (op.run o).2 = { o with first := { s with rsa := none } }) ∨
       ∃ n, i = some n ∧ o.more[n]? = some s ∧ (op.run o).2 = { o with more := o.more.set n { s with rsa := none } }) := by
  have one : ∀ (c : SigOp E) (s s' : SigOpts E) (e : Err), c.run s = .error e s' →
      s' = s ∨ ∃ k, c = .privateKey k ∧ e = .p .badDer ∧ s.alg = .rsa ∧ s' = { s with rsa := none } := by
    intro c s s' e hr
    cases c with
    | privateKey k =>
      obtain ⟨e1, s1, hk⟩ := setsKey_total k s
      have h1 := setsKey_run hk
      rw [hr] at h1
      simp only [endOf, Prod.mk.injEq] at h1
      obtain ⟨h1, rfl⟩ := h1
      cases hk with
      | pem alg d key => simp at h1
      | der alg d key => simp at h1
      | secret alg size => simp at h1
      | secretB64 alg size d => simp at h1
      | seed alg size => simp at h1
      | seedB64 alg size d => simp at h1
      | pemOther alg d key => exact Or.inl rfl
      | pemBad alg d key => exact Or.inl rfl
      | edBad alg size d => exact Or.inl rfl
      | derBad alg d key =>
        simp only [Option.map_some, Option.some.injEq] at h1
        exact Or.inr ⟨k, rfl, h1, alg, rfl⟩
    | rsaPrivateKey r => cases hr
    | alg a => cases hr
    | domain d =>
      by_cases hd : IsDomain d
      · rw [((C24_set_or_throw s d).1 hd).1] at hr; cases hr
      · rw [((C24_set_or_throw s d).2 hd).1] at hr; cases hr; exact Or.inl rfl
    | selector d =>
      by_cases hd : IsDomain d
      · rw [((C24_set_or_throw s d).1 hd).2] at hr; cases hr
      · rw [((C24_set_or_throw s d).2 hd).2] at hr; cases hr; exact Or.inl rfl
  cases op with
  | sig i c =>
    cases i with
    | none =>
      have hrun : OptOp.run o (.sig none c) = runFirst c o := rfl
      rw [hrun] at h ⊢
      unfold runFirst at h ⊢
      cases hr : c.run o.first with
      | ok u s => rw [hr] at h; cases h
      | error e' s' =>
        rw [hr] at h
        cases h
        rcases one c _ _ _ hr with rfl | ⟨k, rfl, he, ha, rfl⟩
        · exact Or.inl rfl
        · exact Or.inr ⟨none, k, o.first, rfl, he, ha, Or.inl ⟨rfl, rfl, rfl⟩⟩
    | some n =>
      have at_ : ∀ (l : List (SigOpts E)) (n : Nat) (e : Err), (runAt c n l).1 = some e →
          (runAt c n l).2 = l ∨ ∃ k s, c = .privateKey k ∧ e = .p .badDer ∧ s.alg = .rsa ∧ l[n]? = some s ∧
            (runAt c n l).2 = l.set n { s with rsa := none } := by
        intro l
        induction l with
        | nil => intro n e h; cases n <;> cases h
        | cons s l ih =>
          intro n e h
          cases n with
          | zero =>
            unfold runAt at h ⊢
            cases hr : c.run s with
            | ok u s' => rw [hr] at h; cases h
            | error e' s' =>
              rw [hr] at h
              cases h
              rcases one c _ _ _ hr with rfl | ⟨k, rfl, he, ha, rfl⟩
              · exact Or.inl rfl
              · exact Or.inr ⟨k, s, rfl, he, ha, rfl, rfl⟩
          | succ n =>
            rcases ih n e h with h1 | ⟨k, s0, h1, h2, h3, h4, h5⟩
            · exact Or.inl (by show s :: (runAt c n l).2 = _; rw [h1])
            · exact Or.inr ⟨k, s0, h1, h2, h3, h4, by show s :: (runAt c n l).2 = _; rw [h5]; rfl⟩
      rcases at_ o.more n e h with h1 | ⟨k, s, rfl, h2, h3, h4, h5⟩
      · refine Or.inl ?_
        show { o with more := (runAt c n o.more).2 } = o
        rw [h1]
      · refine Or.inr ⟨some n, k, s, rfl, h2, h3, Or.inr ⟨n, rfl, h4, ?_⟩⟩
        show { o with more := (runAt (.privateKey k) n o.more).2 } = _
        rw [h5]
  | _ => cases h

/-- C80 is false of the code: these options sign the sample message; after a call of `SetPrivateKey` that throws (and changes nothing a
user can see in the text given), they cannot sign any more. -/
theorem C80_failed_key_witness :
    let op : OptOp toyEnv := .sig none (.privateKey b!"")
    Samples.verify Samples.rsaRec (Samples.signed Samples.rsaOpts Samples.message) = some (.ok ()) ∧
    (op.run Samples.rsaOpts).1 = some (.p .badDer) ∧
    Samples.sign (op.run Samples.rsaOpts).2 Samples.message = .error (.p .noRsaKey) := by
  refine ⟨by decide +kernel, by decide +kernel, by decide +kernel⟩

/-- A throwing call that changes nothing. -/
example : ((.sig none (.domain b!"a b") : OptOp toyEnv).run Samples.rsaOpts).1 = some (.p .badDomain) := by decide +kernel

end Dkim
