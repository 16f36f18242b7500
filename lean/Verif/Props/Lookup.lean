import Verif.Spec.Lookup
import Verif.Props.Dns
import Verif.Props.RoundTrip
import Verif.Props.Plain
import Verif.Props.Keys
/-!
# Property C75: keys published in the DNS are found with the built-in resolver

Spec: `Verif/Spec/Lookup.lean`, `Verif/Spec/Dns.lean`.
-/

namespace Dkim
open Spec

variable {E : Env}

theorem txtOf_filter (rs : List (Record × List Bytes)) :
    txtOf rs = ((rs.filter (fun r => r.1.type = 16)).map (fun r => r.2.flatten)).flatten := by
  unfold txtOf
  induction rs with
  | nil => rfl
  | cons r rs ih =>
    rw [List.flatMap_cons, ih]
    by_cases h : r.1.type = 16
    · rw [if_pos h, List.filter_cons_of_pos (by simpa using h)]; simp
    · rw [if_neg h, List.filter_cons_of_neg (by simpa using h)]; simp

/-- C75: whatever else the answer holds and however the texts are cut into character-strings, the built-in resolver returns
the text of the TXT records. -/
theorem C75_text (skip : Bytes → Nat → Option Nat) (hskip : SkipsNames skip) (net : Bytes → DnsReply) (q : Bytes)
    (hq : (0 : Byte) ∉ q) (texts : List Bytes) (h : Answers (net q) texts) :
    builtinResolver skip net q = (true, texts.flatten) := by
  unfold builtinResolver
  rw [cstr_eq hq]
  generalize net q = reply at h
  cases h with
  | mk idFlags counts rest qs rs h1 h2 h3 h4 h5 h6 h7 =>
    rw [C50_exact skip hskip idFlags counts rest qs rs h1 h2 h3 h4 h5 h6 h7]
    simp only
    rw [txtOf_filter]

/-- C75: what `GetPublicKey` makes of each kind of reply: no answer or an answer that is too long is a temporary failure; a
name without data, or without text, has no key, for good; a text is read as a key record. -/
theorem C75_outcome (skip : Bytes → Nat → Option Nat) (hskip : SkipsNames skip) (net : Bytes → DnsReply) (sig : Signature)
    (k0 : PublicKey E) (h0 : (0 : Byte) ∉ sig.selector ∧ (0 : Byte) ∉ sig.domain) :
    let reply := net (sig.selector ++ b!"._domainkey." ++ sig.domain)
    let result := getPublicKey (builtinResolver skip net) sig k0
    (reply = .tryAgain → result = .error (.temp (.dnsFailed sig.selector sig.domain) .temperror) k0) ∧
    (∀ a, reply = .answer a → 65536 < a.length → result = .error (.temp (.dnsFailed sig.selector sig.domain) .temperror) k0) ∧
    (reply = .noData ∨ reply = .hostNotFound ∨ reply = .noRecovery → result = .error (.p (.noKey sig.selector sig.domain)) k0) ∧
    (∀ texts, Answers reply texts → texts.flatten = [] → result = .error (.p (.noKey sig.selector sig.domain)) k0) ∧
    (∀ texts, Answers reply texts → texts.flatten ≠ [] → result = PublicKey.parse texts.flatten k0) := by
  have hnul : (0 : Byte) ∉ sig.selector ++ b!"._domainkey." ++ sig.domain := by
    simp only [List.mem_append, not_or]
    exact ⟨⟨h0.1, by decide⟩, h0.2⟩
  have hc := cstr_eq hnul
  have hkq : keyQuery sig = sig.selector ++ b!"._domainkey." ++ sig.domain := rfl
  have fin : ∀ b txt, builtinResolver skip net (sig.selector ++ b!"._domainkey." ++ sig.domain) = (b, txt) →
      getPublicKey (builtinResolver skip net) sig k0 = if b then
        (if txt.isEmpty then .error (.p (.noKey sig.selector sig.domain)) k0 else PublicKey.parse txt k0)
        else .error (.temp (.dnsFailed sig.selector sig.domain) .temperror) k0 := by
    intro b txt h
    unfold getPublicKey
    rw [hkq, h]
    cases b
    · rfl
    · simp only [if_true]
      cases txt.isEmpty <;> rfl
  dsimp only
  refine ⟨?_, ?_, ?_, ?_, ?_⟩
  · intro h
    rw [fin false [] (by unfold builtinResolver; rw [hc, h]; rfl)]; rfl
  · intro a h hl
    rw [fin false [] (by unfold builtinResolver getTXT; rw [hc, h]; simp only [if_pos (show a.length > 65536 from hl)])]; rfl
  · intro h
    rw [fin true [] (by
      unfold builtinResolver
      rcases h with h | h | h <;> (rw [hc, h]; rfl))]
    rfl
  · intro texts h ht
    rw [fin true _ (C75_text skip hskip net _ hnul texts h), ht]; rfl
  · intro texts h ht
    rw [fin true _ (C75_text skip hskip net _ hnul texts h)]
    have : texts.flatten.isEmpty = false := by
      cases hh : texts.flatten with
      | nil => exact absurd hh ht
      | cons => rfl
    rw [this]; rfl

theorem domain_no_nul {s : SigOpts E} (h : UnsetOrDomain s.domain ∧ UnsetOrDomain s.selector) :
    (0 : Byte) ∉ s.selector ++ b!"._domainkey." ++ Dkim.lower s.domain := by
  simp only [List.mem_append, not_or]
  refine ⟨⟨fun h0 => absurd (plain_domain h.2 0 h0) (by decide), by decide⟩, ?_⟩
  intro h0
  obtain ⟨x, hx, hx'⟩ := List.mem_map.1 h0
  exact absurd (hx' ▸ toLower_plain x (plain_domain h.1 x hx)) (by decide)

theorem Spec.KeyInDns.published {o : Options E} {net : Bytes → DnsReply} {s : SigOpts E} {txt : Bytes} {k : PublicKey E}
    (skip : Bytes → Nat → Option Nat) (hskip : SkipsNames skip) (h : KeyInDns o net s txt k)
    (hs : UnsetOrDomain s.domain ∧ UnsetOrDomain s.selector) : Published o (builtinResolver skip net) s k where
  record := by
    refine ⟨txt, ?_, h.nonempty, h.parsed⟩
    have h1 := h.record
    rw [Spec.lower_eq] at h1 ⊢
    have := C75_text skip hskip net _ (domain_no_nul hs) [txt] h1
    simpa using this
  pair := h.pair
  hash := h.hash
  strict := h.strict

/-- C75: sign, publish the key as a TXT record (cut into character-strings in any way, in any well-formed answer), verify with
the built-in resolver: every signature verifies. -/
theorem C75_end_to_end (hB : E.B64Law) (o : Options E) (hsafe : SafeOptions o) (clock : Nat → Int) (now : Int)
    (d H : Bytes) (ls : List Bytes) (off : Int) (hd : HeadText 0 d ls off)
    (wf : WellFormed o clock now d ((groupLines ls).map mkField))
    (skip : Bytes → Nat → Option Nat) (hskip : SkipsNames skip) (net : Bytes → DnsReply)
    (hk : ∀ s ∈ o.signatures, ∃ txt k, KeyInDns o net s txt k)
    (hsign : (Signatory.createSignature E o clock { file := freshStream d }).1 = .ok H) (hlen : H.length < 2 ^ 31) :
    ∃ v, Validatory.mk' (freshStream (H ++ CRLF ++ d)) (kindOf o) = .ok v ∧
      ∀ (i : Nat) s, o.signatures.reverse[i]? = some s → ∃ h, v.sigs[i]? = some h ∧
        ∀ er, (er = true → o.bodySignLength = false) →
          ∃ st pub w', v.verifyOne E now (builtinResolver skip net) h er = (.ok (), st, pub, w') ∧
            ReadsBack o s (signedNames o.headers o.oversign ((groupLines ls).map mkField)) st.sig := by
  obtain ⟨v, hv, hall⟩ := C44_round_trip hB o hsafe clock now d H ls off hd wf (builtinResolver skip net)
    (fun s hs => by
      obtain ⟨txt, k, h⟩ := hk s hs
      exact ⟨k, h.published skip hskip (hsafe s hs)⟩) hsign hlen
  refine ⟨v, hv, ?_⟩
  intro i s hi
  obtain ⟨h, k1, k2⟩ := hall i s hi
  refine ⟨h, k1, ?_⟩
  intro er her
  obtain ⟨st, pub, w', r1, _, r2⟩ := k2 v er ⟨rfl, rfl, rfl, (mk'_built _ _ _ hv).1.off⟩ her
  exact ⟨st, pub, w', r1, r2⟩

/-! ### Truncated answers -/

theorem dnSkip_beyond (a : Bytes) (fuel p : Nat) (h : a.length < p) : dnSkip a fuel p = none := by
  cases fuel with
  | zero => rfl
  | succ n =>
    rw [dnSkip.eq_def]
    dsimp only
    rw [List.getElem?_eq_none (by omega)]
    dsimp only
    rw [if_pos h]

theorem dnSkip_at_end (a : Bytes) (fuel : Nat) : dnSkip a fuel a.length = none ∨ dnSkip a fuel a.length = some a.length := by
  cases fuel with
  | zero => exact .inl rfl
  | succ n =>
    right
    rw [dnSkip.eq_def]
    dsimp only
    rw [List.getElem?_eq_none (Nat.le_refl _)]
    dsimp only
    rw [if_neg (by omega)]

theorem dnSkip_cut {n : Bytes} (h : WireName n) (before : Bytes) (k : Nat) (hk : k < n.length) (fuel : Nat) :
    dnSkip (before ++ n.take k) fuel before.length = none ∨
    dnSkip (before ++ n.take k) fuel before.length = some (before ++ n.take k).length := by
  induction h generalizing before k fuel with
  | root =>
    have : k = 0 := by simp at hk; omega
    subst this
    have := dnSkip_at_end before fuel
    simpa using this
  | pointer hi lo hhi =>
    simp only [List.length_cons, List.length_nil] at hk
    rcases Nat.lt_or_ge k 1 with h0 | h1
    · have : k = 0 := by omega
      subst this
      have := dnSkip_at_end before fuel
      simpa using this
    · have : k = 1 := by omega
      subst this
      cases fuel with
      | zero => exact .inl rfl
      | succ fuel =>
        left
        have h0 : hi ≠ 0 := by rintro rfl; exact absurd hhi (by decide)
        have h1 : ¬ hi < 64 := by
          intro hlt
          have a : 192 ≤ hi.toNat := by simpa [UInt8.le_iff_toNat_le] using hhi
          have b : hi.toNat < 64 := by simpa [UInt8.lt_iff_toNat_lt] using hlt
          omega
        simp [dnSkip, h0, h1, hhi]
  | label len text rest h0 h1 hl hr ih =>
    have hne : len ≠ 0 := by rintro rfl; exact absurd h0 (by decide)
    cases k with
    | zero =>
      have := dnSkip_at_end before fuel
      simpa using this
    | succ k =>
      cases fuel with
      | zero => exact .inl rfl
      | succ fuel =>
        have hget : (before ++ (len :: text ++ rest).take (k + 1))[before.length]? = some len := by simp
        rw [dnSkip.eq_def]
        dsimp only
        rw [hget]
        dsimp only
        rw [if_neg hne, if_pos h1, ← hl]
        by_cases hlt : k < text.length
        · left
          apply dnSkip_beyond
          simp only [List.cons_append, List.take_succ_cons, List.length_append, List.length_cons, List.length_take]
          omega
        · have e1 : before ++ (len :: text ++ rest).take (k + 1) = (before ++ len :: text) ++ rest.take (k - text.length) := by
            rw [List.cons_append, List.take_succ_cons, List.take_append, List.take_of_length_le (by omega)]
            simp
          have e2 : before.length + 1 + text.length = (before ++ len :: text).length := by simp; omega
          rw [e1, e2]
          refine ih (before ++ len :: text) (k - text.length) ?_ fuel
          simp only [List.cons_append, List.length_cons, List.length_append] at hk
          omega

theorem dnSkipName_beyond (a : Bytes) (p : Nat) (h : a.length < p) : dnSkipName a p = none := by
  unfold dnSkipName; rw [dnSkip_beyond a _ p h]; rfl

theorem dnSkipName_cut {n : Bytes} (h : WireName n) (before : Bytes) (k : Nat) (hk : k < n.length) :
    dnSkipName (before ++ n.take k) before.length = none ∨
    dnSkipName (before ++ n.take k) before.length = some ((before ++ n.take k).length - before.length) := by
  unfold dnSkipName
  rcases dnSkip_cut h before k hk ((before ++ n.take k).length + 1) with h | h
  · rw [h]; exact .inl rfl
  · rw [h]; exact .inr rfl

theorem questionLoop_cut (qs : List Question) (h : ∀ q ∈ qs, q.WF) (before : Bytes) (k : Nat)
    (hk : k < (qs.flatMap Question.bytes).length) :
    (questionLoop dnSkipName (before ++ (qs.flatMap Question.bytes).take k) qs.length before.length).1 = false ∨
    (before ++ (qs.flatMap Question.bytes).take k).length <
      (questionLoop dnSkipName (before ++ (qs.flatMap Question.bytes).take k) qs.length before.length).2 := by
  have beyond : ∀ (a : Bytes) n p, a.length < p → (questionLoop dnSkipName a n p).1 = false ∨ a.length < (questionLoop dnSkipName a n p).2 := by
    intro a n p hp
    cases n with
    | zero => exact .inr hp
    | succ n => rw [questionLoop, dnSkipName_beyond a p hp]; exact .inl rfl
  induction qs generalizing before k with
  | nil => simp at hk
  | cons q qs ih =>
    obtain ⟨h1, h2⟩ := h q (by simp)
    rw [List.flatMap_cons] at hk ⊢
    rw [List.length_cons, questionLoop]
    by_cases c1 : k < q.name.length
    · have e : (q.bytes ++ qs.flatMap Question.bytes).take k = q.name.take k := by
        unfold Question.bytes
        rw [List.append_assoc, List.take_append_of_le_length (by omega)]
      rw [e]
      rcases dnSkipName_cut h1 before k c1 with hs | hs
      · rw [hs]; exact .inl rfl
      · rw [hs]
        dsimp only
        apply beyond
        simp only [List.length_append]; omega
    · have e : before ++ (q.bytes ++ qs.flatMap Question.bytes).take k =
          before ++ q.name ++ (q.typeClass ++ qs.flatMap Question.bytes).take (k - q.name.length) := by
        unfold Question.bytes
        rw [List.append_assoc, List.take_append, List.take_of_length_le (by omega)]
        simp
      rw [e, C50_glibc_skips_names _ _ _ h1]
      dsimp only
      by_cases c2 : k - q.name.length < 4
      · apply beyond
        simp only [List.length_append, List.length_take]; omega
      · have e2 : before ++ q.name ++ (q.typeClass ++ qs.flatMap Question.bytes).take (k - q.name.length) =
            (before ++ q.name ++ q.typeClass) ++ (qs.flatMap Question.bytes).take (k - q.name.length - 4) := by
          rw [List.take_append, List.take_of_length_le (by omega), h2]
          simp
        have e3 : before.length + q.name.length + 4 = (before ++ q.name ++ q.typeClass).length := by simp [h2]; omega
        rw [e2, e3]
        refine ih (fun q hq => h q (by simp [hq])) _ _ ?_
        have hq : q.bytes.length = q.name.length + 4 := by simp [Question.bytes, h2]
        rw [List.length_append, hq] at hk
        omega

/-- One complete record. -/
theorem answerLoop_one (skip : Bytes → Nat → Option Nat) (hskip : SkipsNames skip) (r : Record) (ss : List Bytes)
    (h : r.WF ss) (before tail : Bytes) (left : Nat) (b : Bool) (more : Bytes)
    (hrec : answerLoop skip (before ++ r.bytes ++ tail) left (before ++ r.bytes).length = .ok (b, more)) :
    answerLoop skip (before ++ r.bytes ++ tail) (left + 1) before.length =
      .ok (b, (if r.type = 16 then ss.flatten else []) ++ more) := by
  obtain ⟨h1, h2, h3, h4, h5⟩ := h
  have l16 : ∀ n, (be16 n).length = 2 := fun _ => rfl
  have e0 : before ++ r.bytes ++ tail =
      before ++ r.name ++ (be16 r.type ++ r.mid ++ be16 r.rdata.length ++ r.rdata ++ tail) := by
    simp [Record.bytes]
  have p4 : (before ++ r.bytes).length = before.length + r.name.length + 10 + r.rdata.length := by
    simp [Record.bytes, l16, h3]; omega
  rw [p4, e0] at hrec
  rw [answerLoop.eq_def]
  dsimp only
  rw [e0, hskip _ _ _ h1]
  dsimp only
  rw [if_neg (by simp [l16, h3]; omega)]
  have e1 : before ++ r.name ++ (be16 r.type ++ r.mid ++ be16 r.rdata.length ++ r.rdata ++ tail) =
      (before ++ r.name) ++ be16 r.type ++ (r.mid ++ be16 r.rdata.length ++ r.rdata ++ tail) := by simp
  have e2 : before ++ r.name ++ (be16 r.type ++ r.mid ++ be16 r.rdata.length ++ r.rdata ++ tail) =
      (before ++ r.name ++ be16 r.type ++ r.mid) ++ be16 r.rdata.length ++ (r.rdata ++ tail) := by simp
  have p1 : before.length + r.name.length = (before ++ r.name).length := by simp
  have p2 : before.length + r.name.length + 8 = (before ++ r.name ++ be16 r.type ++ r.mid).length := by simp [l16, h3]; omega
  have r1 : rd16 (before ++ r.name ++ (be16 r.type ++ r.mid ++ be16 r.rdata.length ++ r.rdata ++ tail)) (before.length + r.name.length) = .ok r.type := by
    rw [e1, p1]; exact rd16_at _ _ _ h2
  have r2 : rd16 (before ++ r.name ++ (be16 r.type ++ r.mid ++ be16 r.rdata.length ++ r.rdata ++ tail)) (before.length + r.name.length + 8) = .ok r.rdata.length := by
    rw [e2, p2]; exact rd16_at _ _ _ h4
  rw [r1, r2]
  dsimp only
  rw [if_neg (by simp [l16, h3]; omega)]
  have p3 : before.length + r.name.length + 10 = (before ++ r.name ++ be16 r.type ++ r.mid ++ be16 r.rdata.length).length := by simp [l16, h3]; omega
  have e3 : before ++ r.name ++ (be16 r.type ++ r.mid ++ be16 r.rdata.length ++ r.rdata ++ tail) =
      (before ++ r.name ++ be16 r.type ++ r.mid ++ be16 r.rdata.length) ++ r.rdata ++ tail := by simp
  have hhere : (if r.type = 16 then txtLoop (before ++ r.name ++ (be16 r.type ++ r.mid ++ be16 r.rdata.length ++ r.rdata ++ tail))
      (r.rdata.length + 1) (before.length + r.name.length + 10) r.rdata.length else .ok [] : Except Err Bytes) =
      .ok (if r.type = 16 then ss.flatten else []) := by
    split
    · rename_i ht
      obtain ⟨hr, hss⟩ := h5 ht
      rw [e3, p3, hr]
      exact txtLoop_strings _ _ ss hss _ (by omega)
    · rfl
  rw [hrec, hhere]

/-- A record cut short. -/
theorem answerLoop_short (r : Record) (ss : List Bytes) (h : r.WF ss) (before : Bytes) (k left : Nat) (hk : k < r.bytes.length) :
    answerLoop dnSkipName (before ++ r.bytes.take k) (left + 1) before.length = .ok (true, []) ∨
    answerLoop dnSkipName (before ++ r.bytes.take k) (left + 1) before.length = .ok (false, []) := by
  obtain ⟨h1, h2, h3, h4, h5⟩ := h
  have l16 : ∀ n, (be16 n).length = 2 := fun _ => rfl
  rw [answerLoop.eq_def]
  dsimp only
  by_cases c1 : k < r.name.length
  · have e : r.bytes.take k = r.name.take k := by
      unfold Record.bytes
      rw [List.append_assoc, List.append_assoc, List.append_assoc, List.take_append_of_le_length (by omega)]
    rw [e]
    rcases dnSkipName_cut h1 before k c1 with hs | hs
    · rw [hs]; exact .inl rfl
    · rw [hs]
      dsimp only
      rw [if_pos (by simp only [List.length_append]; omega)]
      exact .inr rfl
  · have e : before ++ r.bytes.take k =
        before ++ r.name ++ (be16 r.type ++ r.mid ++ be16 r.rdata.length ++ r.rdata).take (k - r.name.length) := by
      have : r.bytes = r.name ++ (be16 r.type ++ r.mid ++ be16 r.rdata.length ++ r.rdata) := by simp [Record.bytes]
      rw [this, List.take_append, List.take_of_length_le (by omega)]
      simp
    rw [e, C50_glibc_skips_names _ _ _ h1]
    dsimp only
    right
    by_cases c2 : k - r.name.length < 10
    · rw [if_pos (by simp only [List.length_append, List.length_take]; omega)]
    · have e2 : (be16 r.type ++ r.mid ++ be16 r.rdata.length ++ r.rdata).take (k - r.name.length) =
          be16 r.type ++ r.mid ++ be16 r.rdata.length ++ r.rdata.take (k - r.name.length - 10) := by
        rw [List.take_append, List.take_of_length_le (by simp [l16, h3]; omega)]
        congr 2
        simp [l16, h3]
      rw [e2]
      have hlt : k - r.name.length - 10 < r.rdata.length := by
        unfold Record.bytes at hk
        simp only [List.length_append, l16, h3] at hk
        omega
      have hpl : (r.rdata.take (k - r.name.length - 10)).length < r.rdata.length := by
        rw [List.length_take]; omega
      clear e e2 hlt
      generalize r.rdata.take (k - r.name.length - 10) = part at hpl ⊢
      rw [if_neg (by simp [l16, h3]; omega)]
      have e1 : before ++ r.name ++ (be16 r.type ++ r.mid ++ be16 r.rdata.length ++ part) =
          (before ++ r.name) ++ be16 r.type ++ (r.mid ++ be16 r.rdata.length ++ part) := by simp
      have e2 : before ++ r.name ++ (be16 r.type ++ r.mid ++ be16 r.rdata.length ++ part) =
          (before ++ r.name ++ be16 r.type ++ r.mid) ++ be16 r.rdata.length ++ part := by simp
      have p1 : before.length + r.name.length = (before ++ r.name).length := by simp
      have p2 : before.length + r.name.length + 8 = (before ++ r.name ++ be16 r.type ++ r.mid).length := by simp [l16, h3]; omega
      have r1 : rd16 (before ++ r.name ++ (be16 r.type ++ r.mid ++ be16 r.rdata.length ++ part)) (before.length + r.name.length) = .ok r.type := by
        rw [e1, p1]; exact rd16_at _ _ _ h2
      have r2 : rd16 (before ++ r.name ++ (be16 r.type ++ r.mid ++ be16 r.rdata.length ++ part)) (before.length + r.name.length + 8) = .ok r.rdata.length := by
        rw [e2, p2]; exact rd16_at _ _ _ h4
      rw [r1, r2]
      dsimp only
      rw [if_pos (by simp [l16, h3]; omega)]

/-- Records, and whatever follows them, cut after any number of bytes. -/
theorem answerLoop_cut (rs : List (Record × List Bytes)) (h : ∀ r ∈ rs, r.1.WF r.2) (before after : Bytes) (k : Nat) :
    ∃ b j, answerLoop dnSkipName (before ++ ((rs.map Prod.fst).flatMap Record.bytes ++ after).take k) rs.length before.length =
      .ok (b, txtOf (rs.take j)) := by
  induction rs generalizing before k with
  | nil => exact ⟨true, 0, rfl⟩
  | cons rr rs ih =>
    obtain ⟨r, ss⟩ := rr
    have hr := h (r, ss) (by simp)
    have e : ((((r, ss) :: rs).map Prod.fst).flatMap Record.bytes ++ after) = r.bytes ++ ((rs.map Prod.fst).flatMap Record.bytes ++ after) := by
      simp
    rw [e, List.length_cons]
    by_cases hk : k < r.bytes.length
    · rw [List.take_append_of_le_length (by omega)]
      rcases answerLoop_short r ss hr before k rs.length hk with h | h
      · exact ⟨true, 0, h⟩
      · exact ⟨false, 0, h⟩
    · rw [List.take_append, List.take_of_length_le (by omega), ← List.append_assoc]
      obtain ⟨b, j, hj⟩ := ih (fun r hr => h r (by simp [hr])) (before ++ r.bytes) (k - r.bytes.length)
      refine ⟨b, j + 1, ?_⟩
      rw [answerLoop_one dnSkipName C50_glibc_skips_names r ss hr before _ _ b _ hj]
      simp [txtOf]

/-- C75: if an answer is cut short anywhere, what is read is the text of some of its first records, each whole; no part of a
TXT record is ever taken for a key. -/
theorem C75_truncated (idFlags counts rest : Bytes) (qs : List Question) (rs : List (Record × List Bytes))
    (hid : idFlags.length = 4) (hc : counts.length = 4) (hq : ∀ q ∈ qs, q.WF) (hr : ∀ r ∈ rs, r.1.WF r.2)
    (hqn : qs.length < 65536) (hrn : rs.length < 65536) (n : Nat) :
    ∃ b j, getTXT dnSkipName (.answer ((dnsMessage idFlags qs (rs.map Prod.fst) counts rest).take n)) = .ok (b, txtOf (rs.take j)) := by
  have l16 : ∀ n, (be16 n).length = 2 := fun _ => rfl
  unfold getTXT
  dsimp only
  split
  · exact ⟨false, 0, rfl⟩
  have none : ∀ a : Bytes, ∀ c p, a.length < p → ∃ b j, answerLoop dnSkipName a c p = .ok (b, txtOf (rs.take j)) := by
    intro a c p hp
    cases c with
    | zero => exact ⟨true, 0, rfl⟩
    | succ c => rw [answerLoop.eq_def]; dsimp only; rw [dnSkipName_beyond a p hp]; exact ⟨true, 0, rfl⟩
  have beyond : ∀ (a : Bytes) n p, a.length < p → (questionLoop dnSkipName a n p).1 = false ∨ a.length < (questionLoop dnSkipName a n p).2 := by
    intro a n p hp
    cases n with
    | zero => exact .inr hp
    | succ n => rw [questionLoop, dnSkipName_beyond a p hp]; exact .inl rfl
  obtain ⟨head, hhead⟩ : ∃ m, m = idFlags ++ be16 qs.length ++ be16 rs.length ++ counts := ⟨_, rfl⟩
  have hl : head.length = 12 := by rw [hhead]; simp [l16, hid, hc]
  have m0 : dnsMessage idFlags qs (rs.map Prod.fst) counts rest = head ++ (qs.flatMap Question.bytes ++ ((rs.map Prod.fst).flatMap Record.bytes ++ rest)) := by
    rw [hhead]; simp [dnsMessage]
  rw [m0]
  by_cases c1 : n < 12
  · obtain ⟨a, ha⟩ : ∃ a, a = (head ++ (qs.flatMap Question.bytes ++ ((rs.map Prod.fst).flatMap Record.bytes ++ rest))).take n := ⟨_, rfl⟩
    have hal : a.length < 12 := by rw [ha, List.length_take]; omega
    rw [← ha]
    have := beyond a (hdr16 a 4) 12 hal
    generalize questionLoop dnSkipName a (hdr16 a 4) 12 = r at this ⊢
    obtain ⟨b, p⟩ := r
    cases b with
    | false => exact ⟨true, 0, rfl⟩
    | true => rcases this with h | h
              · cases h
              · exact none a _ p h
  · rw [List.take_append, List.take_of_length_le (by omega), hl]
    have q1 : ∀ t, hdr16 (head ++ t) 4 = qs.length := fun t => by
      have : head ++ t = idFlags ++ be16 qs.length ++ (be16 rs.length ++ counts ++ t) := by rw [hhead]; simp
      rw [this]; exact hdr16_at _ _ _ _ hqn hid
    have q2 : ∀ t, hdr16 (head ++ t) 6 = rs.length := fun t => by
      have : head ++ t = (idFlags ++ be16 qs.length) ++ be16 rs.length ++ (counts ++ t) := by rw [hhead]; simp
      rw [this]; exact hdr16_at _ _ _ _ hrn (by simp [l16, hid])
    rw [q1, q2]
    by_cases c2 : n - 12 < (qs.flatMap Question.bytes).length
    · rw [List.take_append_of_le_length (by omega)]
      have := questionLoop_cut qs hq head (n - 12) c2
      rw [hl] at this
      generalize questionLoop dnSkipName (head ++ (qs.flatMap Question.bytes).take (n - 12)) qs.length 12 = r at this ⊢
      obtain ⟨b, p⟩ := r
      cases b with
      | false => exact ⟨true, 0, rfl⟩
      | true => rcases this with h | h
                · cases h
                · exact none _ _ p h
    · rw [List.take_append, List.take_of_length_le (by omega)]
      have := questionLoop_questions dnSkipName C50_glibc_skips_names qs hq head
        (((rs.map Prod.fst).flatMap Record.bytes ++ rest).take (n - 12 - (qs.flatMap Question.bytes).length))
      rw [hl, List.append_assoc] at this
      rw [this]
      dsimp only
      have e : 12 + (qs.flatMap Question.bytes).length = (head ++ qs.flatMap Question.bytes).length := by simp [hl]
      rw [← List.append_assoc, e]
      exact answerLoop_cut rs hr _ rest _

/-- Finding: an answer cut inside the name of a record counts as an answer without that record, so that a key may be reported
as missing for good (not as a temporary failure) although the answer was damaged. -/
theorem C75_truncated_witness :
    let m := dnsMessage [0, 1, 129, 128] [⟨[1, 97, 0], [0, 16, 0, 1]⟩] (sampleRecords.map Prod.fst) [0, 0, 0, 0] []
    getTXT dnSkipName (.answer m) = .ok (true, b!"v=DKIM1; p=") ∧
    getTXT dnSkipName (.answer (m.take 20)) = .ok (true, []) := by decide +kernel

/-! ### The hypotheses can be met -/

namespace Samples

/-- An answer with an alias and a TXT record in two strings. -/
def keyRecords : List (Record × List Bytes) :=
  [(⟨[192, 12], 5, [0, 1, 0, 0, 0, 9], [1, 120, 0]⟩, []),
   (⟨[1, 120, 0], 16, [0, 1, 0, 0, 0, 9], charStrings [b!"h=sha256; t=", b!"y; p=Bw=="]⟩, [b!"h=sha256; t=", b!"y; p=Bw=="])]

/-- The network: the same answer for the names of both signatures of `fullOpts`. -/
def net (q : Bytes) : DnsReply :=
  if q = b!"s._domainkey.d.e" ∨ q = b!"t._domainkey.x.d.e" then
    .answer (dnsMessage [0, 1, 129, 128] [⟨[1, 97, 0], [0, 16, 0, 1]⟩] (keyRecords.map Prod.fst) [0, 0, 0, 0] [1, 2, 3])
  else .hostNotFound

theorem net_answers : Answers (.answer (dnsMessage [0, 1, 129, 128] [⟨[1, 97, 0], [0, 16, 0, 1]⟩] (keyRecords.map Prod.fst)
    [0, 0, 0, 0] [1, 2, 3])) [b!"h=sha256; t=y; p=Bw=="] := by
  refine .mk [0, 1, 129, 128] [0, 0, 0, 0] [1, 2, 3] [⟨[1, 97, 0], [0, 16, 0, 1]⟩] keyRecords rfl rfl ?_ ?_ (by decide) (by decide) (by decide)
  · intro q hq
    simp only [List.mem_cons, List.not_mem_nil, or_false] at hq
    subst hq
    exact ⟨.label 1 [97] [0] (by decide) (by decide) rfl .root, rfl⟩
  · intro r hr
    simp only [keyRecords, List.mem_cons, List.not_mem_nil, or_false] at hr
    rcases hr with rfl | rfl
    · exact ⟨.pointer _ _ (by decide), by decide, rfl, by decide, by simp⟩
    · exact ⟨.label 1 [120] [0] (by decide) (by decide) rfl .root, by decide, rfl, by decide, fun _ => ⟨rfl, by decide⟩⟩

theorem fullOpts_in_dns : ∀ s ∈ fullOpts.signatures, ∃ txt k, KeyInDns fullOpts net s txt k := by
  intro s hs
  have hp := fullOpts_published s hs
  simp only [Options.signatures, fullOpts, List.mem_cons, List.not_mem_nil, or_false] at hs
  have pair : ∀ (s : SigOpts toyEnv) (k : PublicKey toyEnv), s.alg = .rsa → s.rsa = some (7 : Nat) → k.alg = .rsa →
      k.rsa = some (7 : Nat) → KeyPair fullOpts s k := by
    intro s k h1 h2 h3 h4
    refine .rsa (7 : Nat) (7 : Nat) h1 h2 h3 h4 ?_
    intro md sg h
    have h : some (UInt8.ofNat 7 :: md) = some sg := h
    cases h
    exact ⟨by simp, by show (_ == _) = true; simp⟩
  rcases hs with rfl | rfl
  · exact ⟨_, _, net_answers, by decide, rsaRecord, pair _ _ rfl rfl rfl rfl, .inr (by decide), fun _ h => absurd h (by decide)⟩
  · exact ⟨_, _, net_answers, by decide, rsaRecord, pair _ _ rfl rfl rfl rfl, .inr (by decide), fun _ h => absurd h (by decide)⟩

/-- The end-to-end theorem applies to the sample. -/
example : ∃ H v, (Signatory.createSignature toyEnv fullOpts (fun _ => 0) { file := freshStream message }).1 = .ok H ∧
    Validatory.mk' (freshStream (H ++ CRLF ++ message)) .dkim = .ok v := by
  obtain ⟨H, h1, h2⟩ := fullOpts_signs
  obtain ⟨v, h3, _⟩ := C75_end_to_end toyLaw fullOpts fullOpts_safe (fun _ => 0) 120 message H _ _ headText_message
    fullOpts_wf dnSkipName C50_glibc_skips_names net fullOpts_in_dns h1 h2
  exact ⟨H, v, h1, h3⟩

end Samples

end Dkim
