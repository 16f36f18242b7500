import Verif.Proofs.Domain
import Verif.Proofs.EState
import Verif.Tests.Toy
import Verif.Model.Signatory
/-!
# Properties C23, C24, C51: domain validation and the signing options
-/

namespace Dkim
open Spec

/-- C23: `ValidateDomain` accepts exactly dot-separated LDH labels. -/
theorem C23_validateDomain (s : Bytes) : validateDomain s = true ↔ IsDomain s := validateDomain_iff s

example : IsDomain b!"mail-1.Example.org" := (C23_validateDomain _).1 (by decide)
example : ¬ IsDomain b!"" := fun h => absurd ((C23_validateDomain _).2 h) (by decide)
example : ¬ IsDomain b!"a..b" := fun h => absurd ((C23_validateDomain _).2 h) (by decide)
example : ¬ IsDomain b!"a-.b" := fun h => absurd ((C23_validateDomain _).2 h) (by decide)
example : ¬ IsDomain b!"a.b\r\nX: y" := fun h => absurd ((C23_validateDomain _).2 h) (by decide)

/-- Never set, or a well-formed domain. -/
def Spec.UnsetOrDomain (s : Bytes) : Prop := s = [] ∨ IsDomain s

/-- Every domain and selector in the options. -/
def Spec.SafeOptions {E : Env} (o : Options E) : Prop :=
  ∀ s ∈ o.signatures, UnsetOrDomain s.domain ∧ UnsetOrDomain s.selector

/-- A per-signature setter keeps domain and selector unset or well-formed, throwing or not. -/
theorem sigOp_safe {E : Env} (op : SigOp E) (s : SigOpts E)
    (h : UnsetOrDomain s.domain ∧ UnsetOrDomain s.selector) :
    UnsetOrDomain (esState (op.run s)).domain ∧ UnsetOrDomain (esState (op.run s)).selector := by
  cases op with
  | privateKey k =>
    have : (esState ((SigOpts.setPrivateKey k : EStateM Err (SigOpts E) Unit) s)).domain = s.domain ∧
        (esState ((SigOpts.setPrivateKey k : EStateM Err (SigOpts E) Unit) s)).selector = s.selector := by
      unfold SigOpts.setPrivateKey
      rw [es_bind, es_get, esBind_ok]
      cases s.alg with
      | rsa =>
        simp only
        split
        · cases E.pemPriv k with
          | none => exact ⟨rfl, rfl⟩
          | some r => cases r <;> exact ⟨rfl, rfl⟩
        · cases E.derPriv (E.b64dec k) <;> exact ⟨rfl, rfl⟩
      | ed25519 =>
        simp only
        repeat' split
        all_goals exact ⟨rfl, rfl⟩
    show UnsetOrDomain (esState ((SigOpts.setPrivateKey k : EStateM Err (SigOpts E) Unit) s)).domain ∧
      UnsetOrDomain (esState ((SigOpts.setPrivateKey k : EStateM Err (SigOpts E) Unit) s)).selector
    rw [this.1, this.2]
    exact h
  | rsaPrivateKey r => exact h
  | selector x =>
    simp only [SigOp.run, SigOpts.setSelector]
    cases hv : validateDomain x with
    | false => exact h
    | true => exact ⟨h.1, Or.inr ((C23_validateDomain x).1 hv)⟩
  | domain x =>
    simp only [SigOp.run, SigOpts.setDomain]
    cases hv : validateDomain x with
    | false => exact h
    | true => exact ⟨Or.inr ((C23_validateDomain x).1 hv), h.2⟩
  | alg a => exact h

theorem runAt_safe {E : Env} (op : SigOp E) (i : Nat) (l : List (SigOpts E))
    (h : ∀ s ∈ l, UnsetOrDomain s.domain ∧ UnsetOrDomain s.selector) :
    ∀ s ∈ (runAt op i l).2, UnsetOrDomain s.domain ∧ UnsetOrDomain s.selector := by
  induction l generalizing i with
  | nil => simp [runAt]
  | cons x l ih =>
    cases i with
    | zero =>
      have hx := sigOp_safe op x (h x (by simp))
      intro s hs
      unfold runAt at hs
      cases hr : op.run x with
      | ok u s' =>
        rw [hr] at hs hx
        rcases List.mem_cons.1 hs with rfl | hs
        · exact hx
        · exact h s (by simp [hs])
      | error e s' =>
        rw [hr] at hs hx
        rcases List.mem_cons.1 hs with rfl | hs
        · exact hx
        · exact h s (by simp [hs])
    | succ i =>
      intro s hs
      rcases List.mem_cons.1 (show s ∈ x :: (runAt op i l).2 from hs) with rfl | hs
      · exact h s (by simp)
      · exact ih i (fun s hs => h s (by simp [hs])) s hs

/-- One setter call, throwing or not, keeps the options safe. -/
theorem optOp_safe {E : Env} (o : Options E) (op : OptOp E) (h : SafeOptions o) :
    SafeOptions (op.run o).2 := by
  have keep : ∀ o' : Options E, o'.first = o.first → o'.more = o.more → SafeOptions o' := by
    intro o' h1 h2 s hs
    exact h s (by simpa [Options.signatures, h1, h2] using hs)
  cases op with
  | sig i op =>
    cases i with
    | none =>
      have hx := sigOp_safe op o.first (h o.first (by simp [Options.signatures]))
      show SafeOptions (runFirst op o).2
      unfold runFirst
      cases hr : op.run o.first <;> rw [hr] at hx <;> intro s hs <;>
        rcases List.mem_cons.1 hs with rfl | hs
      · exact hx
      · exact h s (List.mem_cons_of_mem _ hs)
      · exact hx
      · exact h s (List.mem_cons_of_mem _ hs)
    | some i =>
      intro s hs
      rcases List.mem_cons.1 hs with rfl | hs
      · exact h _ (by simp [Options.signatures, OptOp.run])
      · exact runAt_safe op i o.more (fun s hs => h s (List.mem_cons_of_mem _ hs)) s hs
  | addSignature =>
    intro s hs
    have : s = o.first ∨ s ∈ o.more ∨ s = {} := by
      simpa [Options.signatures, OptOp.run] using hs
    rcases this with rfl | hs | rfl
    · exact h _ (by simp [Options.signatures])
    · exact h s (List.mem_cons_of_mem _ hs)
    · exact ⟨Or.inl rfl, Or.inl rfl⟩
  | _ => exact keep _ rfl rfl

/-- C24: after any history of setter calls on a new options object, including calls that threw,
every stored domain and selector is unset or a well-formed domain. -/
theorem C24_history_safe {E : Env} (ops : List (OptOp E)) :
    SafeOptions (Options.history ({} : Options E) ops) := by
  have : ∀ o : Options E, SafeOptions o → SafeOptions (o.history ops) := by
    induction ops with
    | nil => exact fun o h => h
    | cons op ops ih => exact fun o h => ih _ (optOp_safe o op h)
  refine this _ ?_
  intro s hs
  have : s = {} := by simpa [Options.signatures] using hs
  subst this
  exact ⟨Or.inl rfl, Or.inl rfl⟩

/-- C24: `SetDomain`/`SetSelector` store exactly the argument if it is a domain, and otherwise throw
and leave the object as it was. -/
theorem C24_set_or_throw {E : Env} (s : SigOpts E) (x : Bytes) :
    (IsDomain x → (SigOp.domain x).run s = .ok () { s with domain := x } ∧
      (SigOp.selector x).run s = .ok () { s with selector := x }) ∧
    (¬ IsDomain x → (SigOp.domain x).run s = .error (.p .badDomain) s ∧
      (SigOp.selector x).run s = .error (.p .badSelector) s) := by
  simp only [SigOp.run, SigOpts.setDomain, SigOpts.setSelector]
  constructor
  · intro h
    rw [(C23_validateDomain x).2 h]
    exact ⟨rfl, rfl⟩
  · intro h
    have : validateDomain x = false := by
      cases hv : validateDomain x with
      | false => rfl
      | true => exact absurd ((C23_validateDomain x).1 hv) h
    rw [this]
    exact ⟨rfl, rfl⟩

/-- C24: a well-formed domain consists of letters, digits, `-` and `.` only: no byte that could end
a tag, a line or a header. -/
theorem C24_no_injection (s : Bytes) (h : UnsetOrDomain s) : ∀ c ∈ s, IsLetDig c ∨ c = 45 ∨ c = 46 := by
  rcases h with rfl | ⟨ls, _, hl, rfl⟩
  · simp
  · have : ∀ ls : List Bytes, (∀ l ∈ ls, IsLabel l) → ∀ c ∈ joinDots ls, IsLetDig c ∨ c = 45 ∨ c = 46 := by
      intro ls
      induction ls with
      | nil => simp [joinDots]
      | cons x r ih =>
        intro hl c hc
        cases r with
        | nil => rcases (hl x (by simp)).1 c hc with h | h <;> simp [h]
        | cons y q =>
          rw [joinDots] at hc
          rcases List.mem_append.1 hc with hc | hc
          · rcases (hl x (by simp)).1 c hc with h | h <;> simp [h]
          · rcases List.mem_cons.1 hc with rfl | hc
            · simp
            · exact ih (fun l hm => hl l (by simp_all)) c hc
    exact this ls hl

example : (Options.history ({} : Options toyEnv)
    [.sig none (.domain b!"a.b"), .sig none (.domain b!"a;b"), .addSignature,
     .sig (some 0) (.selector b!"s1"), .sig (some 0) (.selector b!"")]).signatures.map
      (fun s => (s.domain, s.selector)) = [(b!"a.b", []), ([], b!"s1")] := rfl

/-! ## C51: the header selection list -/

/-- The three list edits. -/
inductive Spec.HeaderEdit
  | replace (l : List Bytes)
  | append (l : List Bytes)
  | remove (l : List Bytes)

/-- What an edit does to the list. -/
def Spec.HeaderEdit.apply (hs : List Bytes) : HeaderEdit → List Bytes
  | .replace l => l
  | .append l => hs ++ l
  | .remove l => hs.filter (fun x => decide (x ∉ l))

/-- The edit a setter call stands for. -/
def Spec.headerEdit {E : Env} : OptOp E → Option HeaderEdit
  | .setHeaders l => some (.replace l)
  | .addHeaders l => some (.append l)
  | .delHeaders l => some (.remove l)
  | _ => none

theorem removeHeaders_eq (hs l : List Bytes) : removeHeaders hs l = hs.filter (fun x => decide (x ∉ l)) := by
  unfold removeHeaders
  induction l generalizing hs with
  | nil => simpa using (List.filter_eq_self.2 (by simp)).symm
  | cons a l ih =>
    rw [List.foldl_cons, ih, List.filter_filter]
    congr 1
    funext x
    by_cases h1 : x = a <;> by_cases h2 : x ∈ l <;> simp [h1, h2]

theorem optOp_headers {E : Env} (o : Options E) (op : OptOp E) :
    (op.run o).2.headers = match headerEdit op with
      | some e => e.apply o.headers
      | none => o.headers := by
  cases op with
  | delHeaders l => exact removeHeaders_eq _ _
  | sig i op =>
    cases i with
    | none =>
      show (runFirst op o).2.headers = o.headers
      unfold runFirst; cases op.run o.first <;> rfl
    | some i => rfl
  | _ => rfl

/-- C51: after any history the selection list is the result of the list edits, in order, on the
default list; all other setters (throwing or not) leave it alone. -/
theorem C51_headers {E : Env} (ops : List (OptOp E)) :
    (Options.history ({} : Options E) ops).headers =
      (ops.filterMap headerEdit).foldl HeaderEdit.apply defaultHeaders := by
  have : ∀ o : Options E, (o.history ops).headers =
      (ops.filterMap headerEdit).foldl HeaderEdit.apply o.headers := by
    induction ops with
    | nil => exact fun o => rfl
    | cons op ops ih =>
      intro o
      have h1 : o.history (op :: ops) = Options.history (op.run o).2 ops := rfl
      rw [h1, ih, optOp_headers, List.filterMap_cons]
      cases headerEdit op <;> rfl
  exact this _

/-- C51: `DelHeaders` removes every equal entry, and nothing else, keeping the order. -/
theorem C51_delHeaders {E : Env} (o : Options E) (l : List Bytes) (x : Bytes) :
    (x ∈ ((OptOp.delHeaders l).run o).2.headers ↔ x ∈ o.headers ∧ x ∉ l) ∧
    (((OptOp.delHeaders l).run o).2.headers).Sublist o.headers := by
  have : ((OptOp.delHeaders l).run o).2.headers = o.headers.filter (fun x => decide (x ∉ l)) :=
    removeHeaders_eq _ _
  rw [this]
  exact ⟨by simp, List.filter_sublist⟩

example : (Options.history ({} : Options toyEnv) [.setHeaders [b!"from", b!"to", b!"from"],
    .addHeaders [b!"x", b!"cc"], .delHeaders [b!"from", b!"x"]]).headers = [b!"to", b!"cc"] := by decide

end Dkim
