import Verif.Proofs.AddressLex
/-!
# Properties C14 and C15: address lists

Spec: `Verif/Spec/Address.lean`. `sc` says whether `char` is signed on the platform.
-/

namespace Dkim
open Spec

/-- The token a part is read as. -/
inductive TokOf : Lexeme → AddrTok × Bytes → Prop
  | word (a) : TokOf (.word a) (.atom, a)
  | quoted (c t) : TokOf (.quoted c t) (.quoted, c)
  | comment (t u) : TokOf (.comment t) (.comment, u)

/-- The tokens parts are read as. -/
inductive TokensOf : List Lexeme → List (AddrTok × Bytes) → Prop
  | nil : TokensOf [] []
  | cons {l u ls us} : TokOf l u → TokensOf ls us → TokensOf (l :: ls) (u :: us)

theorem lexeme_stop {sc : Bool} {l : Lexeme} (h : l.WF sc) (r : Bytes) : Stop (l.text ++ r) := by
  cases l with
  | word a =>
    cases a with
    | nil => exact absurd rfl h.1
    | cons c a => exact stop_word _ (h.2 c (by simp))
  | quoted c t => exact stop_special _ (by decide)
  | comment t => exact stop_special _ (by decide)

theorem piecesText_cons (p : Piece) (ps : List Piece) (R : Bytes) :
    piecesText (p :: ps) ++ R = p.ws ++ (p.lex.text ++ (piecesText ps ++ R)) := by
  simp [piecesText, Piece.text]

theorem endsWord_pieces {sc : Bool} {ps : List Piece} {R : Bytes} (h : PiecesWF sc true ps) (hR : EndsWord R) :
    EndsWord (piecesText ps ++ R) := by
  cases ps with
  | nil => simpa [piecesText] using hR
  | cons p ps =>
    obtain ⟨h1, h2, h3, h4⟩ := h
    rw [piecesText_cons]
    refine ⟨p.ws, _, rfl, h1, lexeme_stop h2 _, ?_⟩
    obtain ⟨ws, l⟩ := p
    cases l with
    | word a => exact .inl (h3 rfl rfl)
    | quoted c t => exact .inr (.inr ⟨_, _, rfl, by decide⟩)
    | comment t => exact .inr (.inr ⟨_, _, rfl, by decide⟩)

theorem endsWord_special {w : Bytes} (hw : IsFWS w) {c : Byte} (hc : isSpecial c = true) (r : Bytes) :
    EndsWord (w ++ c :: r) := ⟨w, _, rfl, hw, stop_special r hc, .inr (.inr ⟨c, r, rfl, hc⟩)⟩

theorem endsWord_end {w : Bytes} (hw : IsFWS w) : EndsWord w :=
  ⟨w, [], by simp, hw, by simp [Stop, NotHead], .inr (.inl rfl)⟩

/-- Pieces are read as their tokens. -/
theorem lexes_pieces {sc : Bool} {ps : List Piece} : ∀ {aw : Bool} {R : Bytes} {ts : List (AddrTok × Bytes)},
    PiecesWF sc aw ps → EndsWord R → Lexes sc R ts →
    ∃ us, TokensOf (ps.map Piece.lex) us ∧ Lexes sc (piecesText ps ++ R) (us ++ ts) := by
  induction ps with
  | nil => intro aw R ts _ _ h; exact ⟨[], .nil, by simpa [piecesText] using h⟩
  | cons p ps ih =>
    intro aw R ts hps hR h
    obtain ⟨h1, h2, h3, h4⟩ := hps
    obtain ⟨us, hus, hl⟩ := ih h4 hR h
    rw [piecesText_cons]
    generalize hR' : piecesText ps ++ R = R' at hl
    obtain ⟨ws, l⟩ := p
    simp only at h1 h2 h3 h4 ⊢
    have hstop := lexeme_stop h2 R'
    cases l with
    | word a =>
      have hend : EndsWord R' := by rw [← hR']; exact endsWord_pieces h4 hR
      obtain ⟨X, w, e1, e2, e3, e4⟩ := nextTok_word sc a R' h2.2 hend ((a ++ R').length + 1) [] (by simp) (by simpa using h2.1)
      refine ⟨(.atom, a) :: us, .cons (.word a) hus, (Lexes.ws h1 hstop).2 ?_⟩
      rw [List.nil_append] at e4
      refine .cons _ _ _ X _ e4 (by simp) ?_ ?_
      · intro h0; exact (h2.2 0 h0).2.2.2.2 rfl
      · rw [e1] at hl; exact (Lexes.ws e2 e3).1 hl
    | quoted c t =>
      refine ⟨(.quoted, c) :: us, .cons (.quoted c t) hus, (Lexes.ws h1 hstop).2 ?_⟩
      refine .cons _ _ _ R' _ ?_ (by simp) h2.2 hl
      unfold tokAt
      have := nextTok_char sc ((Lexeme.quoted c t).text ++ R').length [] [] 34 (t ++ 34 :: R') (Or.inl (by simp [AllWSP])) (by decide) (by simp)
      rw [List.nil_append] at this
      have e : (Lexeme.quoted c t).text ++ R' = 34 :: (t ++ 34 :: R') := by simp [Lexeme.text]
      rw [e] at this ⊢
      rw [this, if_pos rfl, quotedLoop_text sc h2.1]
      rfl
    | comment t =>
      obtain ⟨u, hu, h0⟩ := (commentLoop_text h2.1 ((t ++ R').length + 2) [] R' (by simp; omega) h2.2).1
      refine ⟨(.comment, u) :: us, .cons (.comment t u) hus, (Lexes.ws h1 hstop).2 ?_⟩
      refine .cons _ _ _ R' _ ?_ (by simp) h0 hl
      unfold tokAt
      have := nextTok_char sc ((Lexeme.comment t).text ++ R').length [] [] 40 (t ++ R') (Or.inl (by simp [AllWSP])) (by decide) (by simp)
      rw [List.nil_append] at this
      have e : (Lexeme.comment t).text ++ R' = 40 :: (t ++ R') := by simp [Lexeme.text]
      rw [e] at this ⊢
      rw [this, if_neg (by decide), if_pos rfl, hu]
      rfl

/-- A single special byte as token. -/
theorem lexes_punct {sc : Bool} {w r : Bytes} {c : Byte} {ty : AddrTok} {ts : List (AddrTok × Bytes)} (hw : IsFWS w)
    (h : (c = 60 ∧ ty = .tagOpen) ∨ (c = 62 ∧ ty = .tagClose) ∨ ((c = 44 ∨ c = 59) ∧ ty = .separator))
    (hl : Lexes sc r ts) : Lexes sc (w ++ c :: r) ((ty, []) :: ts) := by
  have hs : isSpecial c = true := by rcases h with ⟨rfl, _⟩ | ⟨rfl, _⟩ | ⟨rfl | rfl, _⟩ <;> decide
  have hc : isWSP c = false ∧ c ≠ CR := by
    have := stop_special r hs c (by simp); simpa using this
  refine (Lexes.ws hw (stop_special r hs)).2 ?_
  refine .cons _ _ _ r _ ?_ ?_ (by simp) hl
  · unfold tokAt
    have := nextTok_char sc (c :: r).length [] [] c r (Or.inl (by simp [AllWSP])) hc (by simp)
    rw [List.nil_append] at this
    rw [this]
    rcases h with ⟨rfl, rfl⟩ | ⟨rfl, rfl⟩ | ⟨rfl | rfl, rfl⟩ <;> rfl
  · rcases h with ⟨_, rfl⟩ | ⟨_, rfl⟩ | ⟨_, rfl⟩ <;> simp

theorem lexes_end {sc : Bool} {w : Bytes} (hw : IsFWS w) : Lexes sc w [(.eof, [])] := by
  have : Lexes sc (w ++ []) [(.eof, [])] := (Lexes.ws hw (by simp [Stop, NotHead])).2 (.eof _ [] [] rfl rfl)
  simpa using this

/-! ## Running the tokens -/

theorem run_pieces (rec : Bytes → Except Err (List Bytes)) {ls : List Lexeme} {us : List (AddrTok × Bytes)}
    (h : TokensOf ls us) : ∀ (st : AddrSt) (rest : List (AddrTok × Bytes)),
    ∃ st', addrRun rec st (us ++ rest) = addrRun rec st' rest ∧ st'.list = st.list ∧ st'.inOpen = st.inOpen ∧
      st'.tokens = st.tokens ++ ls.flatMap Lexeme.value ∧
      (st'.type = .quoted → st.type = .quoted ∨ ∃ c t, Lexeme.quoted c t ∈ ls) := by
  induction h with
  | nil => intro st rest; exact ⟨st, rfl, rfl, rfl, by simp, fun h => .inl h⟩
  | @cons l u ls us hl _ ih =>
    intro st rest
    cases hl with
    | word a =>
      obtain ⟨st', h1, h2, h3, h4, h5⟩ := ih { st with last := st.type, type := .atom, tokens := st.tokens ++ [a] } rest
      refine ⟨st', ?_, h2, h3, by rw [h4]; simp [Lexeme.value], fun hq => ?_⟩
      · rw [List.cons_append, addrRun]; exact h1
      · rcases h5 hq with h | ⟨c, t, h⟩
        · simp at h
        · exact .inr ⟨c, t, by simp [h]⟩
    | quoted c t =>
      obtain ⟨st', h1, h2, h3, h4, h5⟩ := ih { st with last := st.type, type := .quoted, tokens := st.tokens ++ [c] } rest
      refine ⟨st', ?_, h2, h3, by rw [h4]; simp [Lexeme.value], fun _ => .inr ⟨c, t, by simp⟩⟩
      rw [List.cons_append, addrRun]; exact h1
    | comment t u =>
      obtain ⟨st', h1, h2, h3, h4, h5⟩ := ih { st with last := st.type, type := .comment } rest
      refine ⟨st', ?_, h2, h3, by rw [h4]; simp [Lexeme.value], fun hq => ?_⟩
      · rw [List.cons_append, addrRun]; exact h1
      · rcases h5 hq with h | ⟨c, t, h⟩
        · simp at h
        · exact .inr ⟨c, t, by simp [h]⟩

/-- The parser state between mailboxes. -/
def Idle (st : AddrSt) : Prop := st.inOpen = false ∧ st.tokens = [] ∧ st.type = .separator

theorem values_lex (ps : List Piece) : (ps.map Piece.lex).flatMap Lexeme.value = values ps := by
  unfold values; rw [List.flatMap_map]

/-- Tokens of a mailbox and of the separator or end that follows. -/
theorem mailbox_step {sc : Bool} (rec : Bytes → Except Err (List Bytes)) (m : Mailbox) (hm : m.WF sc)
    (R : Bytes) (ty : AddrTok) (ts : List (AddrTok × Bytes)) (hty : ty = .separator ∨ ty = .eof) (hR : EndsWord R)
    (hl : Lexes sc R ((ty, []) :: ts)) :
    ∃ us, Lexes sc (m.text ++ R) (us ++ (ty, []) :: ts) ∧
      ∀ st, Idle st → ∃ st', addrRun rec st (us ++ (ty, []) :: ts) = addrRun rec st' ts ∧
        st'.list = st.list ++ [m.addr] ∧ st'.inOpen = false ∧ st'.tokens = [] ∧ st'.type = ty := by
  cases m with
  | bare parts =>
    obtain ⟨h1, ⟨a, h2, h3⟩, h4⟩ := hm
    obtain ⟨us, hus, hlex⟩ := lexes_pieces h1 hR hl
    refine ⟨us, hlex, ?_⟩
    rintro st ⟨i1, i2, i3⟩
    obtain ⟨st', g1, g2, g3, g4, g5⟩ := run_pieces rec hus st ((ty, []) :: ts)
    rw [values_lex, h2, i2, List.nil_append] at g4
    have hnq : st'.type ≠ .quoted := by
      intro hq
      rcases g5 hq with h | ⟨c, t, h⟩
      · rw [i3] at h; cases h
      · obtain ⟨p, hp, hp2⟩ := List.mem_map.1 h
        exact h4 p hp c t hp2
    refine ⟨{ st' with last := st'.type, type := ty, list := st'.list ++ [a], tokens := [] }, ?_, ?_, by simp [g3, i1], rfl, rfl⟩
    · rw [g1, addrRun]
      have : addrSwitch rec { st' with last := st'.type, type := ty } [] =
          .ok { st' with last := st'.type, type := ty, list := st'.list ++ [a], tokens := [] } := by
        unfold addrSwitch
        rcases hty with rfl | rfl <;> simp [g3, i1, g4, hnq, h3]
      rw [this]
    · simp [g2, Mailbox.addr, h2]
  | angle display ws1 addr ws2 after =>
    obtain ⟨h1, h2, h3, h4, h5, h6, h7, h8⟩ := hm
    obtain ⟨u3, hu3, hl3⟩ := lexes_pieces h7 hR hl
    have hl2 := lexes_punct (w := ws2) (c := 62) (ty := .tagClose) h6 (by simp) hl3
    obtain ⟨u2, hu2, hl2'⟩ := lexes_pieces h3 (endsWord_special h6 (c := 62) (by decide) _) hl2
    have hl1 := lexes_punct (w := ws1) (c := 60) (ty := .tagOpen) h2 (by simp) hl2'
    obtain ⟨u1, hu1, hl1'⟩ := lexes_pieces h1 (endsWord_special h2 (c := 60) (by decide) _) hl1
    refine ⟨u1 ++ (.tagOpen, []) :: (u2 ++ (.tagClose, []) :: u3), ?_, ?_⟩
    · simpa [Mailbox.text] using hl1'
    · rintro st ⟨i1, i2, i3⟩
      obtain ⟨s1, g1, g2, g3, g4, g5⟩ := run_pieces rec hu1 st ((.tagOpen, []) :: (u2 ++ (.tagClose, []) :: (u3 ++ (ty, []) :: ts)))
      obtain ⟨s2, k1, k2, k3, k4, k5⟩ := run_pieces rec hu2
        { s1 with last := s1.type, type := .tagOpen, tokens := [], inOpen := true } ((.tagClose, []) :: (u3 ++ (ty, []) :: ts))
      obtain ⟨s3, m1, m2, m3, m4, m5⟩ := run_pieces rec hu3
        { s2 with last := s2.type, type := .tagClose, list := s2.list ++ [(values addr).flatten], tokens := [], inOpen := false } ((ty, []) :: ts)
      rw [values_lex] at k4
      simp only [List.nil_append] at k4
      have hcl : (after.map Piece.lex).flatMap Lexeme.value = [] := by
        rw [values_lex]; unfold values
        rw [List.flatMap_eq_nil_iff]
        exact h8
      rw [hcl] at m4
      simp only [List.append_nil] at m4
      refine ⟨{ s3 with last := s3.type, type := ty }, ?_, ?_, m3, m4, rfl⟩
      · have e : u1 ++ (AddrTok.tagOpen, ([] : Bytes)) :: (u2 ++ (.tagClose, []) :: u3) ++ (ty, []) :: ts =
            u1 ++ (.tagOpen, []) :: (u2 ++ (.tagClose, []) :: (u3 ++ (ty, []) :: ts)) := by simp
        rw [e, g1, addrRun]
        have s_open : addrSwitch rec { s1 with last := s1.type, type := .tagOpen } [] =
            .ok { s1 with last := s1.type, type := .tagOpen, tokens := [], inOpen := true } := rfl
        rw [s_open]
        dsimp only
        rw [k1, addrRun]
        have s_close : addrSwitch rec { s2 with last := s2.type, type := .tagClose } [] =
            .ok { s2 with last := s2.type, type := .tagClose, list := s2.list ++ [(values addr).flatten], tokens := [], inOpen := false } := by
          unfold addrSwitch
          dsimp only
          rw [if_neg (by simp)]
          rw [k4]
          cases hv : values addr with
          | nil => exact absurd hv h4
          | cons t tl =>
            dsimp only
            rw [if_neg (by simp)]
            rw [if_neg]
            rintro ⟨hq, rfl⟩
            rcases k5 hq with h | ⟨c, tx, h⟩
            · cases h
            · obtain ⟨p, hp, hp2⟩ := List.mem_map.1 h
              have hmem : c ∈ values addr := by
                unfold values
                exact List.mem_flatMap.2 ⟨p, hp, by rw [hp2]; simp [Lexeme.value]⟩
              rw [hv] at hmem
              simp at hmem
              subst hmem
              exact h5 c tx hv p hp hp2
        rw [s_close]
        dsimp only
        rw [m1, addrRun]
        have s_end : addrSwitch rec { s3 with last := s3.type, type := ty } [] = .ok { s3 with last := s3.type, type := ty } := by
          unfold addrSwitch
          rcases hty with rfl | rfl <;> simp [m3, m4]
        rw [s_end]
      · show s3.list = _
        rw [m2]
        simp [k2, g2, Mailbox.addr]

/-- C14: a list of mailboxes is read back as exactly their addresses, in order. -/
theorem C14_roundtrip (sc : Bool) (ms : List (Mailbox × Bytes × Byte)) (last : Mailbox) (ws : Bytes)
    (hms : ∀ m ∈ ms, m.1.WF sc ∧ IsFWS m.2.1 ∧ (m.2.2 = 44 ∨ m.2.2 = 59)) (hlast : last.WF sc) (hws : IsFWS ws) :
    parseAddressList sc (addressText ms last ws) = .ok (ms.map (·.1.addr) ++ [last.addr]) := by
  have key : ∀ (rec : Bytes → Except Err (List Bytes)), ∃ ts, Lexes sc (addressText ms last ws) ts ∧
      ∀ st, Idle st → addrRun rec st ts = .ok (st.list ++ (ms.map (·.1.addr) ++ [last.addr])) := by
    intro rec
    induction ms with
    | nil =>
      obtain ⟨us, h1, h2⟩ := mailbox_step rec last hlast ws .eof [] (.inr rfl) (endsWord_end hws) (lexes_end hws)
      refine ⟨_, h1, ?_⟩
      intro st hst
      obtain ⟨st', g1, g2, _⟩ := h2 st hst
      rw [g1, addrRun, g2]
      simp
    | cons m ms ih =>
      obtain ⟨m, ws', sep⟩ := m
      obtain ⟨ts, h1, h2⟩ := ih (fun m hm => hms m (by simp [hm]))
      obtain ⟨k1, k2, k3⟩ := hms (m, ws', sep) (by simp)
      simp only at k1 k2 k3
      have hsep := lexes_punct (w := ws') (c := sep) (ty := .separator) k2 (.inr (.inr ⟨k3, rfl⟩)) h1
      have hend : EndsWord (ws' ++ sep :: addressText ms last ws) :=
        endsWord_special k2 (by rcases k3 with rfl | rfl <;> decide) _
      obtain ⟨us, g1, g2⟩ := mailbox_step rec m k1 _ .separator ts (.inl rfl) hend hsep
      refine ⟨_, g1, ?_⟩
      intro st hst
      obtain ⟨st', f1, f2, f3, f4, f5⟩ := g2 st hst
      rw [f1, h2 st' ⟨f3, f4, f5⟩, f2]
      simp
  obtain ⟨ts, h1, h2⟩ := key (parseAddrDepth sc (addressText ms last ws).length)
  rw [parseAddressList_lexes h1, h2 {} ⟨rfl, rfl, rfl⟩]
  simp

/-- What C14 excludes: a bare address of several words is lost before a separator (here the comment splits the
address into `a@b` and `.c`; the last word has no `@`), and two folds in a row become part of the address. -/
theorem C14_excluded_witness (sc : Bool) : parseAddressList sc b!"a@b(x).c, d@e" = .ok [b!"d@e"] ∧
    parseAddressList sc b!"a@b,\r\n \r\n c@d" = .ok [b!"a@b", b!"\r\nc@d"] := by
  cases sc <;> decide +kernel

/-! ## Fuel and recursion depth do not matter -/

/-- States that differ only in ways the loop does not notice. -/
def SameSt (a b : AddrSt) : Prop := a.list = b.list ∧ a.tokens = b.tokens ∧ a.inOpen = b.inOpen ∧
  (a.type = .eof ↔ b.type = .eof) ∧ (a.type = .tagClose ↔ b.type = .tagClose) ∧ (a.type = .quoted ↔ b.type = .quoted)

theorem addrSwitch_congr (rec rec' : Bytes → Except Err (List Bytes)) (N : Nat) (hrec : ∀ t, t.length < N → rec t = rec' t)
    (a b : AddrSt) (t : Bytes) (ty : AddrTok) (h : SameSt a b) (ha : AddrInv N a) (ht : ty = .quoted → t.length < N) :
    (∃ e, addrSwitch rec { a with last := a.type, type := ty } t = .error e ∧
      addrSwitch rec' { b with last := b.type, type := ty } t = .error e) ∨
    ∃ a' b', addrSwitch rec { a with last := a.type, type := ty } t = .ok a' ∧
      addrSwitch rec' { b with last := b.type, type := ty } t = .ok b' ∧ SameSt a' b' ∧ AddrInv N a' ∧ a'.type = ty := by
  obtain ⟨l1, tk1, o1, la1, ty1⟩ := a
  obtain ⟨l2, tk2, o2, la2, ty2⟩ := b
  obtain ⟨h1, h2, h3, h4, h5, h6⟩ := h
  simp only at h1 h2 h3 h4 h5 h6
  subst h1 h2 h3
  have flush : (ty = .tagClose ∨ ty = .separator ∨ ty = .eof) → _ := fun hf => by
    have nq : ty ≠ .quoted := by rcases hf with rfl | rfl | rfl <;> simp
    have inv : ∀ st : AddrSt, st.type = ty → AddrInv N st := fun st hst hq => absurd (hst ▸ hq) nq
    show (∃ e, addrSwitch rec ⟨l1, tk1, o1, ty1, ty⟩ t = .error e ∧ addrSwitch rec' ⟨l1, tk1, o1, ty2, ty⟩ t = .error e) ∨
      ∃ a' b', addrSwitch rec ⟨l1, tk1, o1, ty1, ty⟩ t = .ok a' ∧ addrSwitch rec' ⟨l1, tk1, o1, ty2, ty⟩ t = .ok b' ∧
        SameSt a' b' ∧ AddrInv N a' ∧ a'.type = ty
    have fin : ∀ l tk o, SameSt ⟨l, tk, o, ty1, ty⟩ ⟨l, tk, o, ty2, ty⟩ ∧ AddrInv N ⟨l, tk, o, ty1, ty⟩ ∧ (⟨l, tk, o, ty1, ty⟩ : AddrSt).type = ty :=
      fun l tk o => ⟨⟨rfl, rfl, rfl, Iff.rfl, Iff.rfl, Iff.rfl⟩, inv _ rfl, rfl⟩
    unfold addrSwitch
    rcases hf with rfl | rfl | rfl <;> dsimp only
    all_goals
      split
      · exact .inl ⟨_, rfl, rfl⟩
      · cases tk1 with
        | nil => exact .inr ⟨_, _, rfl, rfl, fin _ _ _⟩
        | cons x xs =>
          dsimp only
          simp only [ne_eq, h5, h6]
          split
          · exact .inr ⟨_, _, rfl, rfl, fin _ _ _⟩
          · split
            · rename_i hq
              have hlt : x.length < N := by
                obtain ⟨t', g1, g2⟩ := ha (h6.2 hq.1)
                rw [hq.2] at g1
                simp at g1
                rw [g1]; exact g2
              rw [hrec x hlt]
              cases rec' x with
              | error e => exact .inl ⟨_, rfl, rfl⟩
              | ok v => exact .inr ⟨_, _, rfl, rfl, fin _ _ _⟩
            · exact .inr ⟨_, _, rfl, rfl, fin _ _ _⟩
  cases ty with
  | quoted =>
    refine .inr ⟨_, _, rfl, rfl, ⟨rfl, rfl, rfl, Iff.rfl, Iff.rfl, Iff.rfl⟩, ?_, rfl⟩
    intro _
    exact ⟨t, by simp, ht rfl⟩
  | atom => exact .inr ⟨_, _, rfl, rfl, ⟨rfl, rfl, rfl, Iff.rfl, Iff.rfl, Iff.rfl⟩, fun h => by simp at h, rfl⟩
  | comment => exact .inr ⟨_, _, rfl, rfl, ⟨rfl, rfl, rfl, Iff.rfl, Iff.rfl, Iff.rfl⟩, fun h => by simp at h, rfl⟩
  | tagOpen => exact .inr ⟨_, _, rfl, rfl, ⟨rfl, rfl, rfl, Iff.rfl, Iff.rfl, Iff.rfl⟩, fun h => by simp at h, rfl⟩
  | tagClose => exact flush (by simp)
  | separator => exact flush (by simp)
  | eof => exact flush (by simp)

theorem addrLoop_congr (sc : Bool) (rec rec' : Bytes → Except Err (List Bytes)) (N : Nat)
    (hrec : ∀ t, t.length < N → rec t = rec' t) (n m : Nat) (a b : AddrSt) (s : Bytes) (hab : SameSt a b)
    (ha : AddrInv N a) (hs : s.length ≤ N) (hn : s.length + 2 ≤ n ∨ (a.type = .eof ∧ 1 ≤ n))
    (hm : s.length + 2 ≤ m ∨ (a.type = .eof ∧ 1 ≤ m)) : addrLoop sc rec n a s = addrLoop sc rec' m b s := by
  induction n generalizing m a b s with
  | zero => omega
  | succ n ih =>
    cases m with
    | zero => omega
    | succ m =>
      rw [addrLoop.eq_def, addrLoop.eq_def]
      dsimp only
      by_cases he : a.type = .eof
      · rw [if_pos he, if_pos (hab.2.2.2.1.1 he), hab.1]
      · rw [if_neg he, if_neg (fun h => he (hab.2.2.2.1.2 h))]
        have hn : s.length + 2 ≤ n + 1 := hn.resolve_right (fun h => he h.1)
        have hm : s.length + 2 ≤ m + 1 := hm.resolve_right (fun h => he h.1)
        cases ht : nextTok sc (s.length + 1) [] s with
        | error e => rfl
        | ok p =>
          obtain ⟨ty, t, r⟩ := p
          obtain ⟨g1, g2, g3⟩ := (nextTok_ends sc (s.length + 1) [] s (by omega)).2 ty t r ht
          dsimp only
          split
          · rfl
          · rcases addrSwitch_congr rec rec' N hrec a b t ty hab ha (fun hq => by have := g3 hq; omega) with
              ⟨e, k1, k2⟩ | ⟨a', b', k1, k2, k3, k4, k5⟩
            · rw [k1, k2]
            · rw [k1, k2]
              dsimp only
              refine ih m a' b' r k3 k4 (by omega) ?_ ?_
              · by_cases he' : ty = .eof
                · right; exact ⟨k5.trans he', by omega⟩
                · left; have := g2 rfl he'; omega
              · by_cases he' : ty = .eof
                · right; exact ⟨k5.trans he', by omega⟩
                · left; have := g2 rfl he'; omega

theorem parseAddrDepth_depth (sc : Bool) (n m : Nat) (s : Bytes) (hn : s.length < n) (hm : s.length < m) :
    parseAddrDepth sc n s = parseAddrDepth sc m s := by
  induction n generalizing m s with
  | zero => omega
  | succ n ih =>
    cases m with
    | zero => omega
    | succ m =>
      rw [parseAddrDepth, parseAddrDepth]
      exact addrLoop_congr sc _ _ s.length (fun t ht => ih m t (by omega) (by omega)) _ _ _ _ s
        ⟨rfl, rfl, rfl, Iff.rfl, Iff.rfl, Iff.rfl⟩ (fun h => by simp at h) (Nat.le_refl _) (.inl (Nat.le_refl _)) (.inl (Nat.le_refl _))

/-! ## C15 -/

/-- C15 (comments without adjacent escapes): a comment before any text changes nothing: escaped and nested
parentheses do not end it, and nothing of it gets into the result. Missing: two adjacent escapes, see
`C15_adjacent_escapes_witness`. -/
theorem C15_comment_partial (sc : Bool) (text s : Bytes) (h : CommentTail 1 text) (h0 : 0 ∉ text) :
    parseAddressList sc (40 :: text ++ s) = parseAddressList sc s := by
  unfold parseAddressList
  rw [parseAddrDepth, parseAddrDepth, addrLoop.eq_def]
  dsimp only
  rw [if_neg (by simp)]
  obtain ⟨u, hu, hu0⟩ := (commentLoop_text h ((text ++ s).length + 2) [] s (by simp; omega) h0).1
  have htok : nextTok sc ((40 :: text ++ s).length + 1) [] (40 :: text ++ s) = .ok (.comment, u, s) := by
    have := nextTok_char sc (40 :: text ++ s).length [] [] 40 (text ++ s) (Or.inl (by simp [AllWSP])) (by decide) (by simp)
    rw [List.nil_append] at this
    rw [List.cons_append] at this ⊢
    rw [this, if_neg (by decide), if_pos rfl, hu]
    rfl
  rw [htok]
  dsimp only
  rw [if_neg (by simpa using hu0)]
  have hsw : addrSwitch (parseAddrDepth sc (40 :: text ++ s).length) { ({} : AddrSt) with last := ({} : AddrSt).type, type := .comment } u =
      .ok { ({} : AddrSt) with last := ({} : AddrSt).type, type := .comment } := rfl
  rw [hsw]
  dsimp only
  refine addrLoop_congr sc _ _ s.length ?_ _ _ _ _ s ⟨rfl, rfl, rfl, by simp, by simp, by simp⟩ (fun h => by simp at h)
    (Nat.le_refl _) (.inl (by simp)) (.inl (by simp))
  intro t ht
  exact parseAddrDepth_depth sc _ _ t (by simp; omega) ht

/-- C15 (quoted strings): in `<"text"@domain>` the quoted text stands for its content, whatever the bytes are: any byte but
quotation mark and backslash literally, any byte escaped. Missing: with signed `char` the literal byte 0xFF, see
`C15_byte_ff_witness`. -/
theorem C15_quoted_partial (sc : Bool) (content text dom : Bytes) (h : Quoted sc content text) (h0 : 0 ∉ content)
    (hd : ∀ c ∈ dom, IsWordByte c) :
    parseAddressList sc (60 :: 34 :: text ++ 34 :: 64 :: dom ++ [62]) = .ok [content ++ 64 :: dom] := by
  have hw : IsWordByte 64 := by unfold IsWordByte; decide
  have hf : IsFWS [] := .inl (by simp [AllWSP])
  have key := C14_roundtrip sc [] (.angle [] [] [⟨[], .quoted content text⟩, ⟨[], .word (64 :: dom)⟩] [] []) [] (by simp)
    ⟨trivial, hf, ⟨hf, ⟨h, h0⟩, by simp, hf, ⟨by simp, ?_⟩, by simp [Lexeme.isWord], trivial⟩, by simp [values, Lexeme.value],
      by simp [values, Lexeme.value], hf, trivial, by simp [OnlyComments]⟩ hf
  · simpa [addressText, Mailbox.text, piecesText, Piece.text, Lexeme.text, Mailbox.addr, values, Lexeme.value] using key
  · intro c hc
    rcases List.mem_cons.1 hc with rfl | hc
    · exact hw
    · exact hd c hc

/-- C15 is false of the code (signed `char`): a quoted string containing the byte 0xFF is refused as unterminated. -/
theorem C15_byte_ff_witness : parseAddressList true (60 :: 34 :: 255 :: 34 :: b!"@a>") = .error (.p .unclosedString) := by
  decide +kernel

/-- C15 is false of the code: in the comment `(\\\)x)` (an escaped backslash followed by an escaped parenthesis) the escaped
parenthesis closes the comment, so `x)` ends up in the address. -/
theorem C15_adjacent_escapes_witness (sc : Bool) :
    parseAddressList sc b!"(\\\\\\)x) a@b" = .ok [b!"x)a@b"] := by
  cases sc <;> decide +kernel

/-! Non-vacuity. -/
example : CommentTail 1 b!"a\\)b(c)d)" :=
  .plain _ _ _ (by decide) (by decide) (by decide) (.escaped _ _ _ (by simp [NotHead]) (.plain _ _ _ (by decide) (by decide) (by decide)
    (.nest _ _ (.plain _ _ _ (by decide) (by decide) (by decide) (.inner _ _ (.plain _ _ _ (by decide) (by decide) (by decide) .close))))))
example : Quoted true (255 :: b!" \"<,") (92 :: 255 :: b!" \\\"<,") :=
  .escaped _ _ _ (.plain _ _ _ (by decide) (by decide) (by decide) (.escaped _ _ _ (.plain _ _ _ (by decide) (by decide) (by decide)
    (.plain _ _ _ (by decide) (by decide) (by decide) .nil))))

/-- Sample mailboxes. -/
def Spec.sampleMailboxes : List (Mailbox × Bytes × Byte) :=
  [(.bare [⟨[], .comment b!"hi)"⟩, ⟨b!" ", .word b!"joe@example.org"⟩], b!"", 44),
   (.angle [⟨b!" ", .word b!"Mary"⟩, ⟨b!"\r\n\t", .quoted b!"<x@y>," b!"<x@y>,"⟩] b!" " [⟨[], .word b!"mary@"⟩, ⟨[], .comment b!"c)"⟩, ⟨[], .word b!"x.test"⟩] b!" " [], b!" ", 59)]
example : (∀ m ∈ sampleMailboxes, (m.1.WF true ∧ IsFWS m.2.1 ∧ (m.2.2 = 44 ∨ m.2.2 = 59))) ∧
    addressText sampleMailboxes (.bare [⟨b!" ", .word b!"a@b"⟩]) [] =
      b!"(hi) joe@example.org, Mary\r\n\t\"<x@y>,\" <mary@(c)x.test > ; a@b" := by
  have wb : ∀ s : Bytes, (∀ c ∈ s, (isSpecial c = false && isWSP c = false && decide (c ≠ CR) && decide (c ≠ LF) && decide (c ≠ 0)) = true) →
      ∀ c ∈ s, IsWordByte c := by
    intro s h c hc
    have := h c hc
    simp at this
    exact ⟨this.1.1.1.1, this.1.1.1.2, this.1.1.2, this.1.2, this.2⟩
  have fw : ∀ s : Bytes, s.all isWSP = true → IsFWS s := by
    intro s h; left; simpa [AllWSP] using h
  have qt : ∀ s : Bytes, s.all (fun c => c != 34 && c != 92 && c != 255) = true → Quoted true s s := by
    intro s
    induction s with
    | nil => intro _; exact .nil
    | cons c s ih =>
      intro h
      simp at h
      exact .plain _ _ _ h.1.1.1 h.1.1.2 (fun _ => h.1.2) (ih (by simpa using h.2))
  refine ⟨?_, by decide⟩
  intro m hm
  simp only [sampleMailboxes, List.mem_cons, List.not_mem_nil, or_false] at hm
  rcases hm with rfl | rfl
  · refine ⟨⟨⟨fw _ (by decide), ⟨?_, by decide⟩, by decide, fw _ (by decide), ⟨by decide, wb _ (by decide)⟩, by decide, trivial⟩, ⟨_, rfl, by decide⟩, ?_⟩, fw _ (by decide), by decide⟩
    · exact .plain _ _ _ (by decide) (by decide) (by decide) (.plain _ _ _ (by decide) (by decide) (by decide) .close)
    · intro p hp c t
      simp at hp
      rcases hp with rfl | rfl <;> simp
  · refine ⟨⟨⟨fw _ (by decide), ⟨by decide, wb _ (by decide)⟩, by decide, ?_, ⟨qt _ (by decide), by decide⟩, by decide, trivial⟩, fw _ (by decide),
      ⟨fw _ (by decide), ⟨by decide, wb _ (by decide)⟩, by decide, fw _ (by decide), ⟨?_, by decide⟩, by decide, fw _ (by decide), ⟨by decide, wb _ (by decide)⟩, by decide, trivial⟩,
      by decide, ?_, fw _ (by decide), trivial, by simp [OnlyComments]⟩, fw _ (by decide), by decide⟩
    · exact .inr ⟨[], [9], by simp [AllWSP], by simp [AllWSP]; decide, by simp, rfl⟩
    · exact .plain _ _ _ (by decide) (by decide) (by decide) .close
    · intro c t h
      simp [values, Lexeme.value] at h

end Dkim
