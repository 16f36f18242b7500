import Verif.Proofs.StepKey
import Verif.Spec.Steps
/-!
# Quadratic lower bounds for whole calls
-/

namespace Dkim.Steps
open Spec (spaces)
open SS (toChar)

variable {α β : Type}

/-- A program never takes back steps. -/
def Mono (m : CM α) : Prop := ∀ s n, n ≤ cnt (m (s, n))

theorem Mono.bind {m : CM α} {f : α → CM β} (h : Mono m) (h2 : ∀ a, Mono (f a)) : Mono (m >>= f) := fun s n =>
  Nat.le_trans (h s n) (cnt_bind h2 s n)

theorem Mono.ite {c : Prop} [Decidable c] {a b : CM α} (h : Mono a) (h2 : Mono b) : Mono (if c then a else b) := by
  split
  · exact h
  · exact h2

theorem run_at (pre : Bytes) (k : Nat) (post : Bytes) :
    Run_ (pre ++ spaces k ++ CRLF ++ post) pre.length k CR := by
  refine ⟨fun j hj => ?_, ?_⟩
  · rw [List.append_assoc, List.append_assoc, List.getElem?_append_right (by omega), List.getElem?_append_left (by simp [spaces]; omega)]
    simp [spaces, List.getElem?_replicate]; omega
  · rw [List.append_assoc, List.append_assoc, List.getElem?_append_right (by omega), List.getElem?_append_right (by simp [spaces])]
    simp [spaces, CRLF]

theorem lf_at (pre : Bytes) (k : Nat) (post : Bytes) : (pre ++ spaces k ++ CRLF ++ post)[pre.length + k + 1]? = some LF := by
  rw [List.append_assoc, List.append_assoc, List.getElem?_append_right (by omega), List.getElem?_append_right (by simp [spaces]; omega)]
  rw [show pre.length + k + 1 - pre.length - (spaces k).length = 1 from by simp [spaces]; omega]
  rfl

theorem next_at (pre : Bytes) (k : Nat) (c : Byte) (post : Bytes) : (pre ++ spaces k ++ CRLF ++ c :: post)[pre.length + k + 2]? = some c := by
  rw [List.append_assoc, List.append_assoc, List.getElem?_append_right (by omega), List.getElem?_append_right (by simp [spaces]; omega)]
  rw [show pre.length + k + 2 - pre.length - (spaces k).length = 2 from by simp [spaces]; omega]
  rfl

/-- The text of the witnesses. -/
theorem valueList_lower (lr : Bool) (k : Nat) (a c : Byte) (ha : a ≠ SP ∧ a ≠ TAB ∧ a ≠ CR ∧ a ≠ COLON) (h1 : c ≠ SP) (h2 : c ≠ TAB) (post : Bytes) :
    k * k ≤ (valueList lr ([a] ++ spaces k ++ CRLF ++ c :: post)).2 := by
  have hr := run_at [a] k (c :: post)
  have hl := lf_at [a] k (c :: post)
  have hn := next_at [a] k c post
  have h0 : ([a] ++ spaces k ++ CRLF ++ c :: post)[0]? = some a := rfl
  generalize hi : [a] ++ spaces k ++ CRLF ++ c :: post = input at *
  have hlen : k + 2 ≤ input.length := by rw [← hi]; simp [spaces, CRLF]
  unfold valueList
  rw [run_cnt]
  unfold valueListLoop
  rw [es_bind]
  show _ ≤ cnt (esBind (.ok (input.length - 0) (at' input 0, 0)) _)
  rw [esBind_ok, es_bind]
  unfold skipFWS
  rw [es_bind, ex_fws_no lr h0 ha.1 ha.2.1 ha.2.2.1, esBind_ok, if_pos (by rfl), es_pure, esBind_ok, es_bind, ex_eof h0, esBind_ok, if_neg (by decide),
    es_bind]
  show _ ≤ cnt (esBind (.ok (input.length - 0) (at' input 0, _)) _)
  rw [esBind_ok]
  refine Nat.le_trans ?_ (cnt_bind ?_ _ _)
  · unfold valueLoop
    rw [es_bind, ex_fws_no lr h0 ha.1 ha.2.1 ha.2.2.1, esBind_ok, if_pos (by rfl), es_bind, ex_or (ex_is h0 COLON) (ex_eof h0)]
    rw [if_neg (by simpa using ha.2.2.2), esBind_ok, if_neg (by decide), es_bind, ex_get h0, esBind_ok]
    refine Nat.le_trans ?_ (lower_valueLoop lr h1 h2 k _ 1 _ _ _ (by omega) hr hl hn)
    omega
  · intro v
    refine Mono.ite ?_ (Mono.bind sim_get.mono fun _ => Mono.ite ?_ ?_)
    · exact fun s n => (sim_throwPos _).mono s n
    · exact fun s n => (sim_pure _).mono s n
    · exact fun s n => (sim_valueListLoop lr _ _).mono s n

theorem collapse_lower (lr : Bool) (k : Nat) (a b c : Byte) (ha : a ≠ SP ∧ a ≠ TAB ∧ a ≠ CR) (hb : b ≠ SP ∧ b ≠ TAB ∧ b ≠ CR) (h1 : c ≠ SP) (h2 : c ≠ TAB)
    (post x : Bytes) (fuel : Nat) (hf : k + 2 ≤ fuel) :
    k * k ≤ (run (collapse lr fuel x) ([a, b] ++ spaces k ++ CRLF ++ c :: post)).2 := by
  have hr := run_at [a, b] k (c :: post)
  have hl := lf_at [a, b] k (c :: post)
  have hn := next_at [a, b] k c post
  have h0 : ([a, b] ++ spaces k ++ CRLF ++ c :: post)[0]? = some a := rfl
  have h01 : ([a, b] ++ spaces k ++ CRLF ++ c :: post)[1]? = some b := rfl
  generalize hi : [a, b] ++ spaces k ++ CRLF ++ c :: post = input at *
  rw [run_cnt]
  obtain ⟨fuel, rfl⟩ := Nat.exists_eq_succ_of_ne_zero (by omega : fuel ≠ 0)
  obtain ⟨fuel, rfl⟩ := Nat.exists_eq_succ_of_ne_zero (by omega : fuel ≠ 0)
  unfold collapse
  rw [es_bind]
  show _ ≤ cnt (esBind (.ok (input.length - 0) (at' input 0, 0)) _)
  rw [esBind_ok, es_bind]
  unfold skipFWS
  rw [es_bind, ex_fws_no lr h0 ha.1 ha.2.1 ha.2.2, esBind_ok, if_pos (by rfl), es_pure, esBind_ok, es_bind, ex_eof h0, esBind_ok, if_neg (by decide),
    if_neg (by decide), es_bind, ex_get h0, esBind_ok]
  unfold collapse
  rw [es_bind]
  show _ ≤ cnt (esBind (.ok (input.length - 1) (at' input 1, _)) _)
  rw [esBind_ok, es_bind]
  unfold skipFWS
  rw [es_bind, ex_fws_no lr h01 hb.1 hb.2.1 hb.2.2, esBind_ok, if_pos (by rfl), es_pure, esBind_ok, es_bind, ex_eof h01, esBind_ok, if_neg (by decide),
    if_neg (by decide), es_bind, ex_get h01, esBind_ok]
  refine Nat.le_trans ?_ (lower_collapse lr h1 h2 k _ 2 _ _ (by omega) hr hl hn)
  omega

theorem address_lower_depth (lr sc : Bool) (depth : Nat) (k : Nat) (c : Byte) (h1 : c ≠ SP) (h2 : c ≠ TAB) (post : Bytes) :
    k * k ≤ (parseAddrDepth lr sc (depth + 1) (spaces k ++ CRLF ++ c :: post)).2 := by
  have hr := run_at [] k (c :: post)
  have hl := lf_at [] k (c :: post)
  have hn := next_at [] k c post
  rw [List.nil_append] at hr hl hn
  unfold parseAddrDepth
  rw [run_cnt]
  generalize hi : spaces k ++ CRLF ++ c :: post = input at *
  have hlen : k + 2 ≤ input.length := by rw [← hi]; simp [spaces, CRLF]
  unfold addrLoop
  rw [if_neg (by decide), es_bind]
  show _ ≤ cnt (esBind (.ok (input.length - 0) (at' input 0, 0)) _)
  rw [esBind_ok]
  refine Nat.le_trans ?_ (cnt_bind ?_ _ _)
  · refine Nat.le_trans ?_ (lower_nextTok lr sc h1 h2 k _ 0 _ _ (by omega) hr hl hn)
    omega
  · intro ⟨ty, tok⟩
    dsimp only
    refine Mono.ite (fun s n => (sim_throwPlain _).mono s n) (Mono.bind (fun s n => (sim_liftErr _).mono s n) fun st => ?_)
    exact fun s n => (sim_addrLoop lr sc (fun _ => rfl) _ _).mono s n

theorem address_lower (lr sc : Bool) (k : Nat) (c : Byte) (h1 : c ≠ SP) (h2 : c ≠ TAB) (post : Bytes) :
    k * k ≤ (parseAddressList lr sc (spaces k ++ CRLF ++ c :: post)).2 :=
  address_lower_depth lr sc _ k c h1 h2 post

/-! ## `PublicKey::Parse` -/

variable {E : Env}

/-- The number of steps at the end. -/
def cntK (x : EStateM.Result Err (PublicKey E × Nat) α) : Nat :=
  match x with
  | .ok _ r => r.2
  | .error _ r => r.2

theorem SimK.mono {mc : KM E α} {m : KeyM E α} (h : SimK mc m) (k : PublicKey E) (n : Nat) : n ≤ cntK (mc (k, n)) := by
  obtain ⟨c, hc⟩ := h k n
  rw [hc]
  cases m k <;> exact Nat.le_add_right _ _

theorem cntK_bind {mc : KM E α} {f : α → KM E β} (hf : ∀ a k n, n ≤ cntK (f a (k, n))) (k : PublicKey E) (n : Nat) :
    cntK (mc (k, n)) ≤ cntK ((mc >>= f) (k, n)) := by
  rw [es_bind]
  cases mc (k, n) with
  | ok a r => exact hf a r.1 r.2
  | error e r => exact Nat.le_refl _

/-- A record with a single tag. -/
theorem parse_single (name value : Bytes) (hn : Spec.IsTagName name) (hv : Spec.IsTagValue value) (hne : value ≠ []) :
    ∃ off, TagList.parse (name ++ [EQ] ++ value) [] = .ok () [(name, { value := value, offset := off })] := by
  have := Spec.TagText.last 0 { pre := [], name := name, gap1 := [], gap2 := [], value := value, post := [] }
    ⟨by intro c hc; simp at hc, hn, by intro c hc; simp at hc, by intro c hc; simp at hc, hv, by intro c hc; simp at hc, fun _ => rfl⟩
  have e : (Spec.TagItem.mk [] name [] [] value []).text = name ++ [EQ] ++ value := by simp [Spec.TagItem.text, Spec.TagItem.lead]
  rw [e] at this
  exact ⟨_, (C11_parse_iff _ _ _).2 ⟨_, this, by simp, by simp, rfl⟩⟩

/-- A record whose h= value is expensive is expensive. -/
theorem keyParse_lower (lr : Bool) (value : Bytes) (hv : Spec.IsTagValue value) (hne : value ≠ []) :
    (valueList lr value).2 ≤ (keyParse E lr (b!"h=" ++ value)).2.2 := by
  obtain ⟨off, hp⟩ := parse_single b!"h" value ⟨by decide, by decide⟩ hv hne
  have h77 := C77_tag_list lr (b!"h=" ++ value) []
  rw [← tagParse_eq lr (b!"h=" ++ value) [], show (b!"h=" ++ value : Bytes) = b!"h" ++ [EQ] ++ value from rfl, hp] at h77
  rw [show (b!"h=" ++ value : Bytes) = b!"h" ++ [EQ] ++ value from rfl]
  generalize b!"h" ++ [EQ] ++ value = txt at *
  have hcnt : (keyParse E lr txt).2.2 = cntK ((do
    keyTagList lr txt
    onKey keyV
    keyH lr
    onKey keyK
    onKey keyP
    keyS lr
    keyT lr : KM E Unit) ({}, 0)) := by
    unfold keyParse cntK
    dsimp only
    split <;> simp_all
  rw [hcnt, es_bind]
  have hd : keyTagList (E := E) lr txt ({}, 0) = match tagParse lr txt [] with
      | ((.ok (), c), t) => .ok () ({ tags := t }, 0 + c)
      | ((.error e, c), t) => .error e.toErr ({ tags := t }, 0 + c) := rfl
  rw [hd]
  revert h77
  obtain ⟨⟨x, c⟩, t⟩ := tagParse lr txt []
  intro h77
  dsimp only at h77
  cases x with
  | error e => cases e <;> cases h77
  | ok u =>
    cases h77
    dsimp only
    rw [esBind_ok, es_bind]
    have hV : onKey (E := E) keyV ({ tags := [(b!"h", { value := value, offset := off })] }, 0 + c) =
      .ok () ({ tags := [(b!"h", { value := value, offset := off })] }, 0 + c) := rfl
    rw [hV, esBind_ok]
    refine Nat.le_trans ?_ (cntK_bind ?_ _ _)
    · unfold keyH
      rw [es_bind]
      have hT : onKey (E := E) (keyTag b!"h") ({ tags := [(b!"h", { value := value, offset := off })] }, 0 + c) =
        .ok (some { value := value, offset := off }) ({ tags := [(b!"h", { value := value, offset := off })] }, 0 + c) := rfl
      rw [hT, esBind_ok]
      dsimp only
      rw [if_neg (by simpa using hne)]
      refine Nat.le_trans ?_ (cntK_bind (fun _ => (simK_onKey _).mono) _ _)
      unfold keyValues
      dsimp only
      obtain ⟨x, c2⟩ := valueList lr value
      cases x <;> · dsimp only [cntK]; omega
    · intro _
      exact SimK.mono (SimK.bind (simK_onKey keyK) fun _ => SimK.bind (simK_onKey keyP) fun _ => SimK.bind (simK_s lr) fun _ => simK_t lr)

end Dkim.Steps
