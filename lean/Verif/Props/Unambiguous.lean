import Verif.Props.VerifyBody
import Verif.Props.Header
/-!
# Property C54: the header block is unambiguous
-/

namespace Dkim
open Spec

variable {E : Env}

/-- One step of the decoding: texts followed by CRLF, where a longer text would have to contain a
CRLF at the place where the shorter one ends. -/
theorem lines_step {P : Bytes → Prop} {c c' R R' : Bytes} (hP : P c) (hP' : P c')
    (hext : ∀ a x r, P (a ++ CR :: LF :: x) → (R = x ++ r ∨ R' = x ++ r) → r ≠ [] → False)
    (h : c ++ CRLF ++ R = c' ++ CRLF ++ R') : c = c' ∧ R = R' := by
  have e : c ++ (CRLF ++ R) = c' ++ (CRLF ++ R') := by simpa using h
  rcases List.append_eq_append_iff.1 e with ⟨x, h1, h2⟩ | ⟨x, h1, h2⟩
  · cases x with
    | nil => simp at h1 h2; exact ⟨h1.symm, h2⟩
    | cons y x =>
      simp at h2
      obtain ⟨rfl, h2⟩ := h2
      cases x with
      | nil => simp at h2; exact absurd h2.1 (by decide)
      | cons z x =>
        simp at h2
        obtain ⟨rfl, h2⟩ := h2
        exact (hext c x (CR :: LF :: R') (h1 ▸ hP') (Or.inl h2) (by simp)).elim
  · cases x with
    | nil => simp at h1 h2; exact ⟨h1, h2.symm⟩
    | cons y x =>
      simp at h2
      obtain ⟨rfl, h2⟩ := h2
      cases x with
      | nil => simp at h2; exact absurd h2.1 (by decide)
      | cons z x =>
        simp at h2
        obtain ⟨rfl, h2⟩ := h2
        exact (hext c' x (CR :: LF :: R) (h1 ▸ hP) (Or.inr h2) (by simp)).elim

theorem lines_inj_noLF (cs cs' : List Bytes) (h1 : ∀ c ∈ cs, LF ∉ c) (h2 : ∀ c ∈ cs', LF ∉ c)
    (h : lines cs = lines cs') : cs = cs' := by
  induction cs generalizing cs' with
  | nil =>
    cases cs' with
    | nil => rfl
    | cons c' cs' => simp [lines] at h
  | cons c cs ih =>
    cases cs' with
    | nil => simp [lines] at h
    | cons c' cs' =>
      simp only [lines, List.flatMap_cons] at h
      obtain ⟨rfl, hR⟩ := lines_step (P := fun t => LF ∉ t) (h1 c (by simp)) (h2 c' (by simp))
        (fun a x r hp _ _ => hp (by simp)) h
      rw [ih cs' (fun d hd => h1 d (by simp [hd])) (fun d hd => h2 d (by simp [hd])) hR]

/-- A folded field that does not start with white space. -/
def Spec.StartsField (c : Bytes) : Prop := WellFolded c ∧ ∃ x r, c = x :: r ∧ isWSP x = false

theorem lines_head {cs : List Bytes} (h : ∀ c ∈ cs, StartsField c) : ∀ y ∈ (lines cs).head?, isWSP y = false := by
  cases cs with
  | nil => simp [lines]
  | cons c cs =>
    obtain ⟨_, x, r, rfl, hx⟩ := h c (by simp)
    intro y hy
    simp [lines] at hy
    rw [← hy]; exact hx

theorem lines_inj_folded (cs cs' : List Bytes) (h1 : ∀ c ∈ cs, StartsField c) (h2 : ∀ c ∈ cs', StartsField c)
    (h : lines cs = lines cs') : cs = cs' := by
  induction cs generalizing cs' with
  | nil =>
    cases cs' with
    | nil => rfl
    | cons c' cs' => simp [lines] at h
  | cons c cs ih =>
    cases cs' with
    | nil => simp [lines] at h
    | cons c' cs' =>
      have t1 := lines_head (cs := cs) (fun d hd => h1 d (by simp [hd]))
      have t2 := lines_head (cs := cs') (fun d hd => h2 d (by simp [hd]))
      simp only [lines, List.flatMap_cons] at h t1 t2
      obtain ⟨rfl, hR⟩ := lines_step (P := StartsField) (h1 c (by simp)) (h2 c' (by simp))
        (fun a x r hp hx hr => by
          obtain ⟨_, w, b', rfl, hw⟩ := hp.1 (a ++ [CR]) x (by simp)
          rcases hx with hx | hx
          · have := t1 w (by rw [hx]; rfl)
            rw [← Spec.isWSP_eq, hw] at this; cases this
          · have := t2 w (by rw [hx]; rfl)
            rw [← Spec.isWSP_eq, hw] at this; cases this) h
      rw [ih cs' (fun d hd => h1 d (by simp [hd])) (fun d hd => h2 d (by simp [hd])) hR]

theorem relaxed_no_LF (s t : Bytes) (h : WellFolded s) (hf : filterHeader .relaxed s = .ok t) : LF ∉ t := by
  by_cases hn : Blank (fieldName s)
  · have hno := (C06_throws_iff s h).1
    have hc : COLON ∈ s ∧ ¬ HasBareCR s := by
      have : ¬ (COLON ∉ s ∨ HasBareCR s) := by
        intro h1; obtain ⟨e, he⟩ := hno.2 h1; rw [hf] at he; cases he
      simp only [not_or, Classical.not_not] at this
      exact this
    rw [C06_blank_name s h hc.2 hc.1 hn] at hf
    cases hf
    have hcl := (canonLine_clean (Spec.unfold (fieldValue s)) (by
      intro c hc; unfold Spec.unfold at hc; simpa using (List.mem_filter.1 hc).2)).dropWhile
    intro hm
    rcases List.mem_append.1 hm with hm | hm
    · split at hm
      · simp at hm
      · simp at hm; exact absurd hm (by decide)
    · rcases List.mem_cons.1 hm with hm | hm
      · exact absurd hm (by decide)
      · exact (hcl.1 _ hm).2.1 rfl
  · intro hm
    exact ((C07_output_clean s t h hf).1.1 _ hm).2.1 rfl

theorem selected_mem {hs : List Header} {names : List Bytes} {f : Header} (h : f ∈ selected hs names) : f ∈ hs := by
  unfold selected at h
  obtain ⟨p, _, hp⟩ := List.mem_filterMap.1 h
  unfold fromBottom fieldsNamed at hp
  have := List.mem_of_getElem? hp
  rw [List.mem_reverse] at this
  exact (List.mem_filter.1 this).1

theorem joinLines_head {l : Bytes} {ls : List Bytes} (hl : l ≠ []) : (joinLines (l :: ls)).head? = l.head? := by
  cases ls with
  | nil => rfl
  | cons l2 ls => cases l with
    | nil => exact absurd rfl hl
    | cons c l => rfl

theorem HeadText.nonempty {pos : Nat} {s : Bytes} {ls : List Bytes} {off : Int} (h : HeadText pos s ls off) :
    (∀ l ∈ ls, l ≠ []) ∧ ∀ l ∈ ls.head?, l.head? = s.head? := by
  induction h with
  | none => simp
  | blankLF => simp
  | blankCRLF => simp
  | blankEnd => simp
  | lastLine pos l hl _ _ => simp [hl]
  | lastLineCR pos l hl _ =>
    refine ⟨by simp [hl], ?_⟩
    cases l with
    | nil => exact absurd rfl hl
    | cons c l => simp
  | lineLF pos l r ls off hl _ _ _ ih =>
    refine ⟨?_, ?_⟩
    · intro x hx
      rcases List.mem_cons.1 hx with rfl | hx
      · exact hl
      · exact ih.1 x hx
    · cases l with
      | nil => exact absurd rfl hl
      | cons c l => simp
  | lineCRLF pos l r ls off hl _ _ ih =>
    refine ⟨?_, ?_⟩
    · intro x hx
      rcases List.mem_cons.1 hx with rfl | hx
      · exact hl
      · exact ih.1 x hx
    · cases l with
      | nil => exact absurd rfl hl
      | cons c l => simp

/-- In a message that does not start with white space every field starts with another byte. -/
theorem fields_start (d : Bytes) (m : Message) (s' : IStream) (h : Message.parseAll {} (freshStream d) = .ok (m, s'))
    (hd : ∀ c ∈ d.head?, isWSP c = false) (f : Header) (hf : f ∈ m.headers) : StartsField f.header := by
  refine ⟨(C22_fields d m s' h f hf).1, ?_⟩
  obtain ⟨ls, ht, _, groups, hg, hm, hall, htail⟩ := C20_lossless d m s' h
  obtain ⟨n1, n2⟩ := HeadText.nonempty ht
  have hfm : f.header ∈ groups.map joinLines := by rw [← hm]; exact List.mem_map_of_mem hf
  obtain ⟨g, hgm, hge⟩ := List.mem_map.1 hfm
  obtain ⟨hgne, _⟩ := hall g hgm
  match g, hgne with
  | l :: g', _ =>
    have hl : l ≠ [] := n1 l (by rw [← hg]; exact List.mem_flatten.2 ⟨_, hgm, by simp⟩)
    have hh := joinLines_head (ls := g') hl
    rw [hge] at hh
    cases l with
    | nil => exact absurd rfl hl
    | cons x l =>
      rw [List.head?_cons] at hh
      have hw : isWSP x = false := by
        match groups, hgm with
        | g0 :: gs, hgm =>
          rcases List.mem_cons.1 hgm with e | e
          · -- the first field: the first byte of the message
            subst e
            have : ls.head? = some (x :: l) := by rw [← hg]; rfl
            have := n2 _ (by rw [this]; rfl)
            exact hd x (by rw [← this]; rfl)
          · have := htail _ e (x :: l) (by rfl)
            exact this
      cases hx : f.header with
      | nil => rw [hx] at hh; cases hh
      | cons y r =>
        rw [hx] at hh
        simp at hh
        exact ⟨y, r, rfl, hh ▸ hw⟩

theorem Spec.CanonAll.of_mem' {mode : CanonMode} {fs : List Header} {cs : List Bytes} (h : CanonAll mode fs cs) (c : Bytes) (hc : c ∈ cs) :
    ∃ f ∈ fs, filterHeader mode f.header = .ok c := by
  unfold CanonAll at h
  have : (Except.ok c : Except Err Bytes) ∈ fs.map (fun f => filterHeader mode f.header) := by
    rw [h]; exact List.mem_map_of_mem hc
  obtain ⟨f, hf, he⟩ := List.mem_map.1 this
  exact ⟨f, hf, he⟩

/-- C54: if two messages give the same hash input for the same signature header, the fields covered
have the same canonical forms, one by one (in simple mode, for messages that do not start with white
space). -/
theorem C54_unambiguous (d d' : Bytes) (m m' : Message) (s s' : IStream)
    (hm : Message.parseAll {} (freshStream d) = .ok (m, s)) (hm' : Message.parseAll {} (freshStream d') = .ok (m', s'))
    (h : Header) (sig : Signature) (x : Bytes)
    (hd : sig.canonHeader = .simple → (∀ c ∈ d.head?, Spec.isWSP c = false) ∧ (∀ c ∈ d'.head?, Spec.isWSP c = false))
    (hx : headerHashInput m h sig = .ok x) (hx' : headerHashInput m' h sig = .ok x) :
    ∃ cs, CanonAll sig.canonHeader (selected m.headers sig.headers) cs ∧
      CanonAll sig.canonHeader (selected m'.headers sig.headers) cs := by
  obtain ⟨cs, t, c, k1, k2, k3, rfl⟩ := (headerHashInput_ok _ _ _ _).1 hx
  obtain ⟨cs', t', c', k1', k2', k3', k4'⟩ := (headerHashInput_ok _ _ _ _).1 hx'
  rw [k2] at k2'; cases k2'
  rw [k3] at k3'; cases k3'
  have hl : lines cs = lines cs' := List.append_cancel_right k4'
  have : cs = cs' := by
    cases hmode : sig.canonHeader with
    | relaxed =>
      rw [hmode] at k1 k1'
      apply lines_inj_noLF _ _ _ _ hl
      · intro c hc
        obtain ⟨f, hf, he⟩ := Spec.CanonAll.of_mem' k1 c hc
        exact relaxed_no_LF _ _ (C22_fields d m s hm f (selected_mem hf)).1 he
      · intro c hc
        obtain ⟨f, hf, he⟩ := Spec.CanonAll.of_mem' k1' c hc
        exact relaxed_no_LF _ _ (C22_fields d' m' s' hm' f (selected_mem hf)).1 he
    | simple =>
      rw [hmode] at k1 k1'
      obtain ⟨d1, d2⟩ := hd hmode
      apply lines_inj_folded _ _ _ _ hl
      · intro c hc
        obtain ⟨f, hf, he⟩ := Spec.CanonAll.of_mem' k1 c hc
        cases he
        exact fields_start d m s hm d1 f (selected_mem hf)
      · intro c hc
        obtain ⟨f, hf, he⟩ := Spec.CanonAll.of_mem' k1' c hc
        cases he
        exact fields_start d' m' s' hm' d2 f (selected_mem hf)
  exact ⟨cs, k1, this ▸ k1'⟩

/-- C54: consequence for verification: if the same signature header with the same key verifies in
two messages, the covered fields have the same canonical forms, or the digest function has a
collision, or the primitive accepts the same signature data for two different digests. -/
theorem C54_verified_twice (d d' : Bytes) (m m' : Message) (s s' : IStream)
    (hm : Message.parseAll {} (freshStream d) = .ok (m, s)) (hm' : Message.parseAll {} (freshStream d') = .ok (m', s'))
    (h : Header) (sig : Signature) (pub : PublicKey E)
    (hd : sig.canonHeader = .simple → (∀ c ∈ d.head?, Spec.isWSP c = false) ∧ (∀ c ∈ d'.head?, Spec.isWSP c = false))
    (hc : checkSignature E m h sig pub = .ok ()) (hc' : checkSignature E m' h sig pub = .ok ()) :
    (∃ cs, CanonAll sig.canonHeader (selected m.headers sig.headers) cs ∧
      CanonAll sig.canonHeader (selected m'.headers sig.headers) cs) ∨
    (∃ x y, Collision E sig.digest x y) ∨
    (∃ md md', md ≠ md' ∧ PrimitiveAccepts E sig pub md ∧ PrimitiveAccepts E sig pub md') := by
  obtain ⟨_, x, hx, px⟩ := (C36_success_iff _ _ _ _).1 hc
  obtain ⟨_, y, hy, py⟩ := (C36_success_iff _ _ _ _).1 hc'
  by_cases hxy : x = y
  · subst hxy
    exact Or.inl (C54_unambiguous d d' m m' s s' hm hm' h sig x hd hx hy)
  · by_cases hh : E.hash sig.digest x = E.hash sig.digest y
    · exact Or.inr (Or.inl ⟨x, y, hxy, hh⟩)
    · exact Or.inr (Or.inr ⟨_, _, hh, px, py⟩)

/-- C54 applies: two messages with the same hash input for `h=to:from`, although their fields differ. -/
example : ∃ m m' s s', Message.parseAll {} (freshStream b!"To: x\r\nFrom: a\r\nX: 1\r\n\r\n") = .ok (m, s) ∧
    Message.parseAll {} (freshStream b!"From: a\r\nX: 2\r\nTO:\r\n  x \r\n\r\n") = .ok (m', s') ∧
    ∃ cs, CanonAll .relaxed (selected m.headers [b!"to", b!"from"]) cs ∧ CanonAll .relaxed (selected m'.headers [b!"to", b!"from"]) cs := by
  obtain ⟨⟨m, s⟩, h1, h2⟩ := ok_of (Message.parseAll {} (freshStream b!"To: x\r\nFrom: a\r\nX: 1\r\n\r\n"))
    (fun p => decide (headerHashInput p.1 ⟨b!"DKIM-Signature", b!"DKIM-Signature: b=x", 15⟩
      { tags := [(b!"b", ⟨b!"x", 3⟩)], headers := [b!"to", b!"from"], canonHeader := .relaxed } =
        .ok b!"to:x\r\nfrom:a\r\ndkim-signature:b=")) (by decide +kernel)
  obtain ⟨⟨m', s'⟩, h1', h2'⟩ := ok_of (Message.parseAll {} (freshStream b!"From: a\r\nX: 2\r\nTO:\r\n  x \r\n\r\n"))
    (fun p => decide (headerHashInput p.1 ⟨b!"DKIM-Signature", b!"DKIM-Signature: b=x", 15⟩
      { tags := [(b!"b", ⟨b!"x", 3⟩)], headers := [b!"to", b!"from"], canonHeader := .relaxed } =
        .ok b!"to:x\r\nfrom:a\r\ndkim-signature:b=")) (by decide +kernel)
  exact ⟨m, m', s, s', h1, h1', C54_unambiguous _ _ m m' s s' h1 h1' _ _ _ (fun h => by cases h) (of_decide_eq_true h2) (of_decide_eq_true h2')⟩

/-- The messages of the counterexample: a field A, and a From field hidden in A's continuation. -/
def Samples.hidden1 : Bytes := b!" From: e\r\nA: b\r\n\r\n"
def Samples.hidden2 : Bytes := b!"A: b\r\n From: e\r\n\r\n"
/-- Hash input of a message under a fixed signature header. -/
def Samples.inputOf (d : Bytes) : Except Err Bytes :=
  match Message.parseAll {} (freshStream d) with
  | .error e => .error e
  | .ok (m, _) => headerHashInput m ⟨b!"DKIM-Signature", b!"DKIM-Signature: b=x", 15⟩
      { tags := [(b!"b", ⟨b!"x", 3⟩)], headers := [b!"A", b!"From"] }

/-- Number of fields covered in a message by `h=A:From`. -/
def Samples.covered (d : Bytes) : Option Nat :=
  match Message.parseAll {} (freshStream d) with
  | .error _ => none
  | .ok (m, _) => some (selected m.headers [b!"A", b!"From"]).length

/-- C54: why the restriction is needed: a message that starts with white space can give the same hash
input as one with different fields (simple mode): two fields `A: b` and ` From: e` versus one folded
field. -/
theorem C54_leading_space_witness :
    Samples.inputOf Samples.hidden1 = Samples.inputOf Samples.hidden2 ∧
    (∃ x, Samples.inputOf Samples.hidden1 = .ok x) ∧
    Samples.covered Samples.hidden1 = some 2 ∧ Samples.covered Samples.hidden2 = some 1 := by
  refine ⟨by decide +kernel, ⟨_, rfl⟩, by decide +kernel, by decide +kernel⟩

end Dkim
