import Verif.Proofs.Address
import Verif.Props.TagList
import Verif.Props.Message
import Verif.Props.Body
import Verif.Props.Dns
import Verif.Tests.Toy
/-!
# Property C09: every parser terminates on every input

The loops of the model are bounded by the length of the input plus one and report `Err.hang` when the bound
is used up; so "terminates" is "never yields `Err.hang`". What is proved is stronger: the parsers return a value or
throw a permanent error, they do nothing else. `sc` says whether `char` is signed on the platform.
-/

namespace Dkim
open Spec

/-- A call that returns or throws a permanent error. -/
def Spec.Ends {α : Type} (x : Except Err α) : Prop := (∃ a, x = .ok a) ∨ ∃ r, x = .error (.perm r .permerror)

theorem Spec.Ends.of_perm {α : Type} {x : Except Err α} (h : OnlyPerm x) : Ends x := by
  cases x with
  | ok a => exact .inl ⟨a, rfl⟩
  | error e => obtain ⟨r, rfl⟩ := h e rfl; exact .inr ⟨r, rfl⟩

/-- C09: white space reading and skipping. -/
theorem C09_whitespace (s : Bytes) : Ends (readFWS s) ∧ Ends (skipFWS (s.length + 1) s) :=
  ⟨.of_perm (readFWS_perm s), .of_perm (skipFWS_perm _ s (by omega))⟩

/-- C09: colon-separated lists. -/
theorem C09_value_list (s : Bytes) : Ends (valueList s) := .of_perm (valueList_perm s)

/-- C09: tag lists, on an object in any state. -/
theorem C09_tag_list (s : Bytes) (m : TagList) :
    (∃ m', TagList.parse s m = .ok () m') ∨ ∃ r m', TagList.parse s m = .error (.perm r .permerror) m' := by
  cases h : TagList.parse s m with
  | ok u m' => exact .inl ⟨m', rfl⟩
  | error e m' => rcases C11_errors _ _ _ _ h with rfl | ⟨_, rfl⟩ | rfl | rfl <;> exact .inr ⟨_, _, rfl⟩

/-- C09: quoted-printable. -/
theorem C09_quoted_printable (s : Bytes) (skipTab : Bool) : Ends (qpDecode s skipTab) := .of_perm (qpDecode_perm s _)

/-- C09: encoded words. -/
theorem C09_encoded_word (E : Env) (s : Bytes) : Ends (ewDecode E s) := .of_perm (ewDecode_perm E s)

/-- C09: header canonicalization. -/
theorem C09_filter_header (mode : CanonMode) (s : Bytes) : Ends (filterHeader mode s) := .of_perm (filterHeader_perm mode s)

/-- C09: the message parser always returns. -/
theorem C09_message (d : Bytes) : ∃ r, Message.parseAll {} (freshStream d) = .ok r := by
  obtain ⟨m, s', _, h, _⟩ := C20_parse d
  exact ⟨_, h⟩

/-- C09: the DNS answer parser always returns. -/
theorem C09_dns (skip : Bytes → Nat → Option Nat) (reply : DnsReply) : ∃ r, getTXT skip reply = .ok r := by
  obtain ⟨b, r, h⟩ := C49_in_bounds skip reply
  exact ⟨_, h⟩

/-- C09 (platforms with signed `char`): address lists. Missing: platforms where `char` is unsigned, see
`C09_unsigned_char_witness`. -/
theorem C09_address_list_partial (s : Bytes) : Ends (parseAddressList true s) := .of_perm (parseAddressList_perm s)

/-- C09 is false of the code where `char` is unsigned: an unterminated quoted string loops for ever. -/
theorem C09_unsigned_char_witness : parseAddressList false b!"\"abc" = .error .hang := by decide +kernel

theorem nextTok_sc (n : Nat) (tok s : Bytes) (h : (34 : Byte) ∉ s) :
    nextTok false n tok s = nextTok true n tok s ∧
      ∀ ty t r, nextTok true n tok s = .ok (ty, t, r) → (34 : Byte) ∉ r ∧ ty ≠ .quoted := by
  have comment : ∀ n d tok s t r, commentLoop n d tok s = .ok (t, r) → ∃ p, s = p ++ r := by
    intro n
    induction n with
    | zero => intro d tok s t r h; simp [commentLoop] at h
    | succ n ih =>
      intro d tok s t r h
      have step : ∀ d s, ∃ p, s = p ++ (commentStep d s).2.2 := by
        intro d s
        unfold commentStep
        cases s with
        | nil => exact ⟨[], rfl⟩
        | cons c r =>
          dsimp only
          generalize (if c = 40 then d + 1 else if c = 41 then d - 1 else d) = d'
          split <;> exact ⟨[c], rfl⟩
      rw [commentLoop.eq_def] at h
      dsimp only at h
      split at h
      · cases h; exact ⟨[], rfl⟩
      · cases s with
        | nil => simp at h
        | cons c s =>
          dsimp only at h
          split at h
          · cases s with
            | nil => simp at h
            | cons e s =>
              obtain ⟨p, hp⟩ := ih _ _ _ _ _ h
              obtain ⟨q, hq⟩ := step d s
              exact ⟨c :: e :: q ++ p, by rw [List.append_assoc, ← hp]; simpa using hq⟩
          · obtain ⟨p, hp⟩ := ih _ _ _ _ _ h
            obtain ⟨q, hq⟩ := step d (c :: s)
            exact ⟨q ++ p, by rw [List.append_assoc, ← hp]; exact hq⟩
  induction n generalizing tok s with
  | zero => simp [nextTok]
  | succ n ih =>
    rw [nextTok.eq_def, nextTok.eq_def]
    dsimp only
    split
    · refine ⟨rfl, ?_⟩
      intro ty t r h
      split at h <;> cases h <;> simp
    · cases hr : readFWS s with
      | error e => simp
      | ok p =>
        obtain ⟨ws, s1⟩ := p
        obtain ⟨hs, _⟩ := readFWS_ok hr
        have h1 : (34 : Byte) ∉ s1 := fun hm => h (by rw [hs]; simp [hm])
        dsimp only
        split
        · refine ⟨rfl, ?_⟩
          intro ty t r h
          split at h <;> cases h <;> simp [h1]
        · cases s1 with
          | nil =>
            refine ⟨rfl, ?_⟩
            intro ty t r h
            dsimp only at h
            split at h <;> cases h <;> simp
          | cons c r =>
            have hc : c ≠ 34 := fun hc => h1 (by simp [hc])
            have hr' : (34 : Byte) ∉ r := fun hm => h1 (by simp [hm])
            dsimp only
            rw [if_neg hc, if_neg hc]
            split
            · refine ⟨rfl, ?_⟩
              intro ty t r2 h
              split at h
              · cases h; exact ⟨h1, by simp⟩
              · cases hcl : commentLoop (r.length + 2) 1 [] r with
                | error e => rw [hcl] at h; cases h
                | ok p =>
                  obtain ⟨t2, r3⟩ := p
                  rw [hcl] at h
                  cases h
                  obtain ⟨p, hp⟩ := comment _ _ _ _ _ _ hcl
                  exact ⟨fun hm => hr' (by rw [hp]; simp [hm]), by simp⟩
            · split
              · refine ⟨rfl, ?_⟩
                intro ty t r2 h
                split at h <;> cases h <;> simp [h1, hr']
              · split
                · refine ⟨rfl, ?_⟩
                  intro ty t r2 h
                  split at h <;> cases h <;> simp [h1, hr']
                · split
                  · refine ⟨rfl, ?_⟩
                    intro ty t r2 h
                    split at h <;> cases h <;> simp [h1, hr']
                  · exact ih (tok ++ [c]) r hr'

theorem addrLoop_sc (rec rec' : Bytes → Except Err (List Bytes)) (n : Nat) (st : AddrSt) (s : Bytes)
    (h : (34 : Byte) ∉ s) (hq : st.type ≠ .quoted) : addrLoop false rec n st s = addrLoop true rec' n st s := by
  induction n generalizing st s with
  | zero => rfl
  | succ n ih =>
    rw [addrLoop.eq_def, addrLoop.eq_def]
    dsimp only
    split
    · rfl
    · obtain ⟨e1, e2⟩ := nextTok_sc (s.length + 1) [] s h
      rw [e1]
      cases ht : nextTok true (s.length + 1) [] s with
      | error e => rfl
      | ok p =>
        obtain ⟨ty, t, r⟩ := p
        obtain ⟨g1, g2⟩ := e2 ty t r ht
        dsimp only
        split
        · rfl
        · have sw : addrSwitch rec { st with last := st.type, type := ty } t = addrSwitch rec' { st with last := st.type, type := ty } t ∧
              ∀ st', addrSwitch rec' { st with last := st.type, type := ty } t = .ok st' → st'.type = ty := by
            unfold addrSwitch
            cases ty <;> dsimp only <;> first
              | exact ⟨rfl, fun st' h => by cases h; rfl⟩
              | (split
                 · exact ⟨rfl, by simp⟩
                 · cases st.tokens with
                   | nil => exact ⟨rfl, fun st' h => by cases h; rfl⟩
                   | cons a as =>
                     dsimp only
                     split
                     · exact ⟨rfl, fun st' h => by cases h; rfl⟩
                     · rw [if_neg (fun hx => hq hx.1), if_neg (fun hx => hq hx.1)]
                       exact ⟨rfl, fun st' h => by cases h; rfl⟩)
          rw [sw.1]
          cases hsw : addrSwitch rec' { st with last := st.type, type := ty } t with
          | error e => rfl
          | ok st' => exact ih st' r g1 (by rw [sw.2 st' hsw]; exact g2)

/-- C09: without quotation marks in the input, the address parser ends on every platform, with a result that does
not depend on the signedness of `char`. -/
theorem C09_address_list_no_quotes (sc : Bool) (s : Bytes) (h : (34 : Byte) ∉ s) :
    Ends (parseAddressList sc s) ∧ parseAddressList sc s = parseAddressList true s := by
  have e : parseAddressList sc s = parseAddressList true s := by
    cases sc with
    | true => rfl
    | false =>
      unfold parseAddressList
      rw [parseAddrDepth, parseAddrDepth]
      exact addrLoop_sc _ _ _ _ _ h (by simp)
  exact ⟨by rw [e]; exact C09_address_list_partial s, e⟩

example : (34 : Byte) ∉ b!"Pete(A chap) <pete@silly.test>, joe@example.org" := by decide

end Dkim
