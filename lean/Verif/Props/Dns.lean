import Verif.Model.Resolver
import Verif.Spec.Dns
/-!
# Properties C49, C50: DNS answers
-/

namespace Dkim
open Spec

theorem rd8_ok {a : Bytes} {i : Nat} (h : i < a.length) : ∃ v, rd8 a i = .ok v := by
  unfold rd8
  rw [List.getElem?_eq_getElem h]
  exact ⟨_, rfl⟩

theorem rd16_ok {a : Bytes} {i : Nat} (h : i + 1 < a.length) : ∃ v, rd16 a i = .ok v := by
  unfold rd16
  obtain ⟨v, hv⟩ := rd8_ok (show i < a.length by omega)
  obtain ⟨w, hw⟩ := rd8_ok h
  rw [hv, hw]
  exact ⟨_, rfl⟩

theorem txtLoop_ok (a : Bytes) (n ptr left : Nat) (hn : left < n) (h : ptr + left ≤ a.length) :
    ∃ r, txtLoop a n ptr left = .ok r := by
  induction n generalizing ptr left with
  | zero => omega
  | succ n ih =>
    rw [txtLoop.eq_def]; dsimp only
    split
    · exact ⟨_, rfl⟩
    · obtain ⟨len, hl⟩ := rd8_ok (show ptr < a.length by omega)
      rw [hl]; dsimp only
      split
      · exact ⟨_, rfl⟩
      · split
        · omega
        · obtain ⟨r, hr⟩ := ih (ptr + (len + 1)) (left - (len + 1)) (by omega) (by omega)
          rw [hr]
          exact ⟨_, rfl⟩

theorem answerLoop_ok (skip : Bytes → Nat → Option Nat) (a : Bytes) (left p : Nat) :
    ∃ b r, answerLoop skip a left p = .ok (b, r) := by
  induction left generalizing p with
  | zero => exact ⟨_, _, rfl⟩
  | succ left ih =>
    rw [answerLoop.eq_def]; dsimp only
    cases skip a p with
    | none => exact ⟨_, _, rfl⟩
    | some s =>
      dsimp only
      split
      · exact ⟨_, _, rfl⟩
      · obtain ⟨t, ht⟩ := rd16_ok (show p + s + 1 < a.length by omega)
        obtain ⟨s2, hs2⟩ := rd16_ok (show p + s + 8 + 1 < a.length by omega)
        rw [ht, hs2]; dsimp only
        split
        · exact ⟨_, _, rfl⟩
        · obtain ⟨b, r, hr⟩ := ih (p + s + 10 + s2)
          rw [hr]
          split
          · rename_i hx
            split at hx
            · obtain ⟨r2, hr2⟩ := txtLoop_ok a (s2 + 1) (p + s + 10) s2 (by omega) (by omega)
              rw [hr2] at hx; cases hx
            · cases hx
          · exact ⟨_, _, rfl⟩

/-- C49: whatever the DNS reply and whatever `dn_skipname` does, `GetTXT` returns: it reads no byte outside the
answer (a read outside would be the outcome `Err.ub`) and it terminates. -/
theorem C49_in_bounds (skip : Bytes → Nat → Option Nat) (reply : DnsReply) :
    ∃ b r, getTXT skip reply = .ok (b, r) := by
  unfold getTXT
  cases reply with
  | answer a =>
    dsimp only
    split
    · exact ⟨_, _, rfl⟩
    · split
      · exact ⟨_, _, rfl⟩
      · exact answerLoop_ok skip a _ _
  | _ => exact ⟨_, _, rfl⟩

/-! ## C50 -/

theorem WireName.length_pos {n : Bytes} (h : WireName n) : 0 < n.length := by
  cases h <;> simp

theorem dnSkip_name {n : Bytes} (h : WireName n) (before after : Bytes) (fuel : Nat) (hf : n.length < fuel) :
    dnSkip (before ++ n ++ after) fuel before.length = some (before.length + n.length) := by
  induction h generalizing before fuel with
  | root =>
    match fuel, hf with
    | fuel + 1, _ => simp [dnSkip]
  | pointer hi lo hhi =>
    match fuel, hf with
    | fuel + 1, _ =>
      have h0 : hi ≠ 0 := by rintro rfl; exact absurd hhi (by decide)
      have h1 : ¬ hi < 64 := by
        intro hlt
        have a : 192 ≤ hi.toNat := by simpa [UInt8.le_iff_toNat_le] using hhi
        have b : hi.toNat < 64 := by simpa [UInt8.lt_iff_toNat_lt] using hlt
        omega
      simp [dnSkip, h0, h1, hhi]
  | label len text rest h0 h1 hl hr ih =>
    match fuel, hf with
    | fuel + 1, hf =>
      have hne : len ≠ 0 := by rintro rfl; exact absurd h0 (by decide)
      have := ih (before ++ len :: text) fuel (by simp at hf; omega)
      rw [dnSkip.eq_def]
      dsimp only
      have hget : (before ++ (len :: text ++ rest) ++ after)[before.length]? = some len := by simp
      rw [hget]
      dsimp only
      rw [if_neg hne, if_pos h1, ← hl]
      have e1 : before ++ (len :: text ++ rest) ++ after = before ++ len :: text ++ rest ++ after := by simp
      have e2 : (before ++ len :: text).length = before.length + 1 + text.length := by simp; omega
      rw [e1, ← e2, this]
      simp; omega

/-- glibc's `dn_skipname` meets the contract. -/
theorem C50_glibc_skips_names : SkipsNames dnSkipName := by
  intro before name after h
  unfold dnSkipName
  rw [dnSkip_name h before after _ (by simp; omega)]
  simp

theorem rd8_at (p : Bytes) (c : Byte) (q : Bytes) : rd8 (p ++ c :: q) p.length = .ok c.toNat := by
  unfold rd8; simp

theorem rd16_at (p q : Bytes) (n : Nat) (hn : n < 65536) : rd16 (p ++ be16 n ++ q) p.length = .ok n := by
  unfold rd16 be16
  have e : p ++ [UInt8.ofNat (n / 256), UInt8.ofNat (n % 256)] ++ q = p ++ UInt8.ofNat (n / 256) :: (UInt8.ofNat (n % 256) :: q) := by simp
  rw [e, rd8_at]
  have e2 : p ++ UInt8.ofNat (n / 256) :: (UInt8.ofNat (n % 256) :: q) = (p ++ [UInt8.ofNat (n / 256)]) ++ UInt8.ofNat (n % 256) :: q := by simp
  have e3 : p.length + 1 = (p ++ [UInt8.ofNat (n / 256)]).length := by simp
  rw [e2, e3, rd8_at]
  simp only [UInt8.toNat_ofNat']
  congr 1
  omega

theorem hdr16_at (p q : Bytes) (n i : Nat) (hn : n < 65536) (hi : p.length = i) : hdr16 (p ++ be16 n ++ q) i = n := by
  subst hi
  unfold hdr16 be16
  simp [List.getD]
  omega

theorem charStrings_cons (s : Bytes) (ss : List Bytes) : charStrings (s :: ss) = UInt8.ofNat s.length :: s ++ charStrings ss := rfl

theorem txtLoop_strings (before after : Bytes) (ss : List Bytes) (h : ∀ s ∈ ss, s.length < 256) (n : Nat)
    (hn : (charStrings ss).length < n) :
    txtLoop (before ++ charStrings ss ++ after) n before.length (charStrings ss).length = .ok ss.flatten := by
  induction ss generalizing before n with
  | nil =>
    match n, hn with
    | n + 1, _ => simp [txtLoop, charStrings]
  | cons s ss ih =>
    match n, hn with
    | n + 1, hn =>
      have hs : s.length < 256 := h s (by simp)
      rw [charStrings_cons] at hn ⊢
      rw [txtLoop.eq_def]; dsimp only
      rw [if_neg (by simp)]
      have e : before ++ (UInt8.ofNat s.length :: s ++ charStrings ss) ++ after =
          before ++ UInt8.ofNat s.length :: (s ++ charStrings ss ++ after) := by simp
      rw [e, rd8_at]
      have hl : (UInt8.ofNat s.length).toNat = s.length := by simp; omega
      dsimp only
      rw [hl, if_neg (by simp; omega), if_neg (by simp; omega)]
      have e2 : before ++ UInt8.ofNat s.length :: (s ++ charStrings ss ++ after) =
          (before ++ UInt8.ofNat s.length :: s) ++ charStrings ss ++ after := by simp
      have e3 : before.length + (s.length + 1) = (before ++ UInt8.ofNat s.length :: s).length := by simp
      have e4 : (UInt8.ofNat s.length :: s ++ charStrings ss).length - (s.length + 1) = (charStrings ss).length := by
        simp
      rw [e4, e3, e2, ih _ (fun t ht => h t (by simp [ht])) n (by simp at hn; omega)]
      simp

theorem questionLoop_questions (skip : Bytes → Nat → Option Nat) (hskip : SkipsNames skip) (qs : List Question)
    (h : ∀ q ∈ qs, q.WF) (before after : Bytes) :
    questionLoop skip (before ++ qs.flatMap Question.bytes ++ after) qs.length before.length =
      (true, before.length + (qs.flatMap Question.bytes).length) := by
  induction qs generalizing before with
  | nil => simp [questionLoop]
  | cons q qs ih =>
    obtain ⟨h1, h2⟩ := h q (by simp)
    have e1 : before ++ (q :: qs).flatMap Question.bytes ++ after =
        before ++ q.name ++ (q.typeClass ++ qs.flatMap Question.bytes ++ after) := by simp [Question.bytes]
    have e2 : before ++ q.name ++ (q.typeClass ++ qs.flatMap Question.bytes ++ after) =
        (before ++ q.name ++ q.typeClass) ++ qs.flatMap Question.bytes ++ after := by simp
    rw [e1, List.length_cons, questionLoop, hskip _ _ _ h1]
    dsimp only
    have e3 : before.length + q.name.length + 4 = (before ++ q.name ++ q.typeClass).length := by simp [h2]; omega
    rw [e2, e3, ih (fun q hq => h q (by simp [hq]))]
    simp [Question.bytes]
    omega

theorem answerLoop_records (skip : Bytes → Nat → Option Nat) (hskip : SkipsNames skip) (rs : List (Record × List Bytes))
    (h : ∀ r ∈ rs, r.1.WF r.2) (before after : Bytes) :
    answerLoop skip (before ++ (rs.map Prod.fst).flatMap Record.bytes ++ after) rs.length before.length =
      .ok (true, txtOf rs) := by
  induction rs generalizing before with
  | nil => simp [answerLoop, txtOf]
  | cons rr rs ih =>
    obtain ⟨r, ss⟩ := rr
    obtain ⟨h1, h2, h3, h4, h5⟩ := h (r, ss) (by simp)
    simp only at h1 h2 h3 h4 h5
    rw [List.length_cons, answerLoop.eq_def]
    dsimp only
    obtain ⟨tail, htail⟩ : ∃ t, t = (rs.map Prod.fst).flatMap Record.bytes ++ after := ⟨_, rfl⟩
    have e0 : before ++ (((r, ss) :: rs).map Prod.fst).flatMap Record.bytes ++ after =
        before ++ r.name ++ (be16 r.type ++ r.mid ++ be16 r.rdata.length ++ r.rdata ++ tail) := by
      subst htail; simp [Record.bytes]
    have l16 : ∀ n, (be16 n).length = 2 := fun _ => rfl
    rw [e0, hskip _ _ _ h1]
    dsimp only
    rw [if_neg (by simp [l16, h3]; omega)]
    have e1 : before ++ r.name ++ (be16 r.type ++ r.mid ++ be16 r.rdata.length ++ r.rdata ++ tail) =
        (before ++ r.name) ++ be16 r.type ++ (r.mid ++ be16 r.rdata.length ++ r.rdata ++ tail) := by simp
    have e2 : before ++ r.name ++ (be16 r.type ++ r.mid ++ be16 r.rdata.length ++ r.rdata ++ tail) =
        (before ++ r.name ++ be16 r.type ++ r.mid) ++ be16 r.rdata.length ++ (r.rdata ++ tail) := by simp
    have p1 : before.length + r.name.length = (before ++ r.name).length := by simp
    have p2 : before.length + r.name.length + 8 = (before ++ r.name ++ be16 r.type ++ r.mid).length := by simp [l16, h3]; omega
    have r1 : rd16 (before ++ r.name ++ (be16 r.type ++ r.mid ++ be16 r.rdata.length ++ r.rdata ++ tail)) (before.length + r.name.length) = .ok r.type := by
      rw [e1, p1]; exact rd16_at _ _ _ h2
    have r2 : rd16 (before ++ r.name ++ (be16 r.type ++ r.mid ++ be16 r.rdata.length ++ r.rdata ++ tail)) (before.length + r.name.length + 8) = .ok r.rdata.length := by
      rw [e2, p2]; exact rd16_at _ _ _ h4
    rw [r1, r2]
    dsimp only
    rw [if_neg (by simp [l16, h3]; omega)]
    have p3 : before.length + r.name.length + 10 = (before ++ r.name ++ be16 r.type ++ r.mid ++ be16 r.rdata.length).length := by simp [l16, h3]; omega
    have e3 : before ++ r.name ++ (be16 r.type ++ r.mid ++ be16 r.rdata.length ++ r.rdata ++ tail) =
        (before ++ r.name ++ be16 r.type ++ r.mid ++ be16 r.rdata.length) ++ r.rdata ++ tail := by simp
    have p4 : before.length + r.name.length + 10 + r.rdata.length = (before ++ r.name ++ be16 r.type ++ r.mid ++ be16 r.rdata.length ++ r.rdata).length := by simp [l16, h3]; omega
    have e4 : before ++ r.name ++ (be16 r.type ++ r.mid ++ be16 r.rdata.length ++ r.rdata ++ tail) =
        (before ++ r.name ++ be16 r.type ++ r.mid ++ be16 r.rdata.length ++ r.rdata) ++ (rs.map Prod.fst).flatMap Record.bytes ++ after := by
      subst htail; simp
    have hrec : answerLoop skip (before ++ r.name ++ (be16 r.type ++ r.mid ++ be16 r.rdata.length ++ r.rdata ++ tail)) rs.length
        (before.length + r.name.length + 10 + r.rdata.length) = .ok (true, txtOf rs) := by
      rw [e4, p4]
      exact ih (fun r hr => h r (by simp [hr])) _
    have hhere : (if r.type = 16 then txtLoop (before ++ r.name ++ (be16 r.type ++ r.mid ++ be16 r.rdata.length ++ r.rdata ++ tail))
        (r.rdata.length + 1) (before.length + r.name.length + 10) r.rdata.length else .ok [] : Except Err Bytes) =
        .ok (if r.type = 16 then ss.flatten else []) := by
      split
      · rename_i ht
        obtain ⟨hr, hss⟩ := h5 ht
        rw [e3, p3, hr]
        exact txtLoop_strings _ _ ss hss _ (by omega)
      · rfl
    rw [hrec, hhere]
    simp [txtOf]

/-- C50: for a well-formed answer of at most 64 KiB, `GetTXT` succeeds and returns the concatenated character-strings
of all TXT records in order, whatever other records, trailing sections, identification or flags there are. -/
theorem C50_exact (skip : Bytes → Nat → Option Nat) (hskip : SkipsNames skip) (idFlags counts rest : Bytes)
    (qs : List Question) (rs : List (Record × List Bytes)) (hid : idFlags.length = 4) (hc : counts.length = 4)
    (hq : ∀ q ∈ qs, q.WF) (hr : ∀ r ∈ rs, r.1.WF r.2) (hqn : qs.length < 65536) (hrn : rs.length < 65536)
    (hsize : (dnsMessage idFlags qs (rs.map Prod.fst) counts rest).length ≤ 65536) :
    getTXT skip (.answer (dnsMessage idFlags qs (rs.map Prod.fst) counts rest)) = .ok (true, txtOf rs) := by
  unfold getTXT
  dsimp only
  rw [if_neg (by omega)]
  have l16 : ∀ n, (be16 n).length = 2 := fun _ => rfl
  obtain ⟨msg, hmsg⟩ : ∃ m, m = dnsMessage idFlags qs (rs.map Prod.fst) counts rest := ⟨_, rfl⟩
  rw [← hmsg]
  have m1 : msg = idFlags ++ be16 qs.length ++ (be16 rs.length ++ counts ++ qs.flatMap Question.bytes ++ (rs.map Prod.fst).flatMap Record.bytes ++ rest) := by
    rw [hmsg]; simp [dnsMessage]
  have m2 : msg = (idFlags ++ be16 qs.length) ++ be16 rs.length ++ (counts ++ qs.flatMap Question.bytes ++ (rs.map Prod.fst).flatMap Record.bytes ++ rest) := by
    rw [hmsg]; simp [dnsMessage]
  have m3 : msg = (idFlags ++ be16 qs.length ++ be16 rs.length ++ counts) ++ qs.flatMap Question.bytes ++ ((rs.map Prod.fst).flatMap Record.bytes ++ rest) := by
    rw [hmsg]; simp [dnsMessage]
  have m4 : msg = (idFlags ++ be16 qs.length ++ be16 rs.length ++ counts ++ qs.flatMap Question.bytes) ++ (rs.map Prod.fst).flatMap Record.bytes ++ rest := by
    rw [hmsg]; simp [dnsMessage]
  have q1 : hdr16 msg 4 = qs.length := by rw [m1]; exact hdr16_at _ _ _ _ hqn hid
  have q2 : hdr16 msg 6 = rs.length := by rw [m2]; exact hdr16_at _ _ _ _ hrn (by simp [l16, hid])
  have q3 : questionLoop skip msg qs.length 12 = (true, 12 + (qs.flatMap Question.bytes).length) := by
    have := questionLoop_questions skip hskip qs hq (idFlags ++ be16 qs.length ++ be16 rs.length ++ counts) ((rs.map Prod.fst).flatMap Record.bytes ++ rest)
    rw [← m3] at this
    have e : (idFlags ++ be16 qs.length ++ be16 rs.length ++ counts).length = 12 := by simp [l16, hid, hc]
    rw [e] at this
    exact this
  rw [q1, q2, q3]
  dsimp only
  have := answerLoop_records skip hskip rs hr (idFlags ++ be16 qs.length ++ be16 rs.length ++ counts ++ qs.flatMap Question.bytes) rest
  rw [← m4] at this
  have e : (idFlags ++ be16 qs.length ++ be16 rs.length ++ counts ++ qs.flatMap Question.bytes).length = 12 + (qs.flatMap Question.bytes).length := by
    simp [l16, hid, hc]; omega
  rw [e] at this
  exact this

/-! Non-vacuity: a CNAME record followed by a TXT record with two strings. -/

/-- Sample records. -/
def Spec.sampleRecords : List (Record × List Bytes) :=
  [(⟨[192, 12], 5, [0, 1, 0, 0, 0, 9], [1, 120, 0]⟩, []),
   (⟨[1, 120, 0], 16, [0, 1, 0, 0, 0, 9], charStrings [b!"v=DKIM1; ", b!"p="]⟩, [b!"v=DKIM1; ", b!"p="])]
example : ∀ r ∈ sampleRecords, r.1.WF r.2 := by
  intro r hr
  simp only [sampleRecords, List.mem_cons, List.not_mem_nil, or_false] at hr
  rcases hr with rfl | rfl
  · exact ⟨.pointer _ _ (by decide), by decide, rfl, by decide, by simp⟩
  · exact ⟨.label 1 [120] [0] (by decide) (by decide) rfl .root, by decide, rfl, by decide, fun _ => ⟨rfl, by decide⟩⟩
example : (⟨[1, 97, 0], [0, 16, 0, 1]⟩ : Question).WF := ⟨.label 1 [97] [0] (by decide) (by decide) rfl .root, rfl⟩
example : getTXT dnSkipName (.answer (dnsMessage [0, 1, 129, 128] [⟨[1, 97, 0], [0, 16, 0, 1]⟩]
    (sampleRecords.map Prod.fst) [0, 0, 0, 0] [])) = .ok (true, b!"v=DKIM1; p=") := by decide +kernel
/-- A record cut short by a lying length is refused. -/
example : getTXT dnSkipName (.answer ([0, 1, 129, 128, 0, 0, 0, 1, 0, 0, 0, 0] ++ [0, 0, 16, 0, 1, 0, 0, 0, 9, 255, 255])) = .ok (false, []) := by
  decide +kernel

end Dkim
