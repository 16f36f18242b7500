import Verif.Model.SignSteps
import Verif.Props.VerifySteps
import Verif.Props.SigningForm
/-!
# C94: the work of signing
-/

namespace Dkim
open Spec

variable {E : Env}

theorem foldBSteps_nil (n off : Nat) : foldBSteps n off [] ≤ 1 := by
  cases n <;> simp [foldBSteps]

theorem foldBSteps_le : ∀ (n off : Nat) (split : Bytes), off ≤ 3 → foldBSteps n off split ≤ (split.length + 1) * (split.length / 77 + 2)
  | 0, _, _, _ => by unfold foldBSteps; omega
  | n + 1, off, split, ho => by
    unfold foldBSteps
    split
    · have : 0 < (split.length + 1) * (split.length / 77 + 2) := Nat.mul_pos (by omega) (by omega)
      omega
    · have ih := foldBSteps_le n 2 (split.drop (80 - off)) (by omega)
      by_cases hl : split.length < 77
      · have e : split.drop (80 - off) = [] := List.drop_eq_nil_of_le (by omega)
        have e2 : split.length / 77 = 0 := Nat.div_eq_of_lt hl
        rw [e, e2]
        have := foldBSteps_nil n 2
        omega
      · rw [List.length_drop] at ih
        have e : (split.length - (80 - off)) / 77 ≤ split.length / 77 - 1 := by omega
        have : (split.length - (80 - off) + 1) * ((split.length - (80 - off)) / 77 + 2) ≤ (split.length + 1) * (split.length / 77 + 1) :=
          Nat.mul_le_mul (by omega) (by omega)
        have e3 : (split.length + 1) * (split.length / 77 + 2) = (split.length + 1) * (split.length / 77 + 1) + (split.length + 1) := by
          rw [← Nat.mul_succ]
        omega

theorem foldB_length : ∀ (n off : Nat) (split b : Bytes), off ≤ 3 → foldB n off split = .ok b → b.length ≤ 5 * split.length
  | 0, _, _, _, _, h => by unfold foldB at h; cases h
  | n + 1, off, split, b, ho, h => by
    unfold foldB at h
    split at h
    · cases h; simp
    · dsimp only at h
      rename_i hs
      have hs' : 1 ≤ split.length := by
        cases split with
        | nil => exact absurd rfl hs
        | cons => simp
      split at h
      · cases h
      · rename_i t ht
        have ih := foldB_length n 2 _ _ (by omega) ht
        cases h
        rw [List.length_drop] at ih
        have e : (if (List.drop (80 - off) split).isEmpty = true then [] else b!"\r\n\t ").length ≤ 4 := by split <;> simp
        simp only [List.length_append, List.length_take] at *
        omega

theorem isSelected_name {sel : List Bytes} {h : Header} (hs : isSelected sel h = true) : 1 ≤ h.name.length := by
  unfold isSelected at hs
  simp only [Bool.and_eq_true] at hs
  cases hn : h.name with
  | nil => rw [hn] at hs; exact absurd hs.1 (by decide)
  | cons => simp

theorem signLoopSteps_le (lr : Bool) (mode : CanonMode) (sel : List Bytes) (hs : List Header)
    (hw : ∀ f ∈ hs, WellFolded f.header ∧ f.name.length ≤ f.header.length) :
    signLoopSteps lr mode sel hs ≤ 20 * (hs.map (fun f => f.header.length + 2)).sum := by
  induction hs with
  | nil => simp [signLoopSteps]
  | cons h hs ih =>
    have ih' := ih (fun f hf => hw f (by simp [hf]))
    obtain ⟨h1, h2⟩ := hw h (by simp)
    have h3 := (C85_folded toyEnv lr mode _ (folds_of_well h1)).2.1
    rw [List.map_cons, List.sum_cons]
    unfold signLoopSteps
    split
    · split
      · show _ + (_ + 0) ≤ _
        omega
      · rename_i t ht
        have := filterHeader_length h1 ht
        show _ + (_ + (List.length t + _ + _ + _ + _)) ≤ _
        omega
    · omega

theorem qpEncode_length (x : Bytes) : (qpEncode x).length ≤ 3 * x.length := by
  induction x with
  | nil => simp [qpEncode]
  | cons c x ih =>
    unfold qpEncode at *
    have e : (if qpPlain c then [c] else [EQ, hexDigit (c / 16), hexDigit (c % 16)]).length ≤ 3 := by split <;> simp
    rw [List.flatMap_cons, List.length_append, List.length_cons]
    omega

theorem cstr_length (x : Bytes) : (cstr x).length ≤ x.length := by
  unfold cstr
  exact (List.takeWhile_prefix _).length_le

theorem foldH_length (first : Bool) (names : List Bytes) : ∀ line, (foldH first line names).1.length + (foldH first line names).2.length ≤
    line.length + (names.map (fun n => n.length + 5)).sum := by
  induction names generalizing first with
  | nil => intro line; simp [foldH]
  | cons n ns ih =>
    intro line
    unfold foldH
    have hc : (if first then [] else [COLON] : Bytes).length ≤ 1 := by cases first <;> simp
    generalize (if first then [] else [COLON] : Bytes) = colon at *
    dsimp only
    rw [List.map_cons, List.sum_cons]
    split
    · have := ih false (b!"\t " ++ n)
      simp only [List.length_append, List.length_cons, List.length_nil, CRLF] at *
      omega
    · have := ih false (line ++ colon ++ n)
      simp only [List.length_append] at *
      omega

/-- Length of the text signed. -/
theorem sigHeaderText_length {o : Options E} {s : SigOpts E} {now : Int} {names : List Bytes} {bh text : Bytes}
    (h : sigHeaderText o s now names bh = .ok text) :
    text.length ≤ 220 + s.domain.length + s.selector.length + 3 * o.identity.length + (names.map (fun n => n.length + 5)).sum + 2 * bh.length := by
  unfold sigHeaderText at h
  split at h
  · cases h
  · rename_i times ht
    cases h
    have h1 : (sigPrefix o).length ≤ 90 := by
      unfold sigPrefix
      have := fmtLu_length o.arcInstance
      have a : (algText o.first.alg o.digest).length ≤ 14 := by cases o.first.alg <;> cases o.digest <;> decide
      have b : o.canonHead.text.length ≤ 7 := by cases o.canonHead <;> decide
      have c : o.canonBody.text.length ≤ 7 := by cases o.canonBody <;> decide
      split <;> simp only [List.length_append, List.length_cons, List.length_nil] <;> omega
    have h2 : times.length ≤ 48 := by
      unfold sigTimes at ht
      have a := fmtLu_length (sigTimestamp o now)
      have hh : (if o.timestampSign then b!" t=" ++ fmtLu (sigTimestamp o now) ++ b!";" else []).length ≤ 24 := by
        split <;> simp only [List.length_append, List.length_cons, List.length_nil] <;> omega
      generalize (if o.timestampSign then b!" t=" ++ fmtLu (sigTimestamp o now) ++ b!";" else []) = tt at *
      dsimp only at ht
      split at ht
      · split at ht
        · cases ht
        · rename_i x _
          cases ht
          have := fmtLu_length x
          simp only [List.length_append, List.length_cons, List.length_nil]
          omega
      · cases ht; omega
    have h3 : (sigDomainLine o s).length ≤ 40 + s.domain.length + s.selector.length + 3 * o.identity.length := by
      unfold sigDomainLine
      have a := qpEncode_length o.identity
      have b := cstr_length (qpEncode o.identity)
      have c := fmtLu_length o.bodyLength
      have e1 : (if o.identity.isEmpty then [] else b!"; i=" ++ cstr (qpEncode o.identity)).length ≤ 4 + 3 * o.identity.length := by
        split <;> simp only [List.length_append, List.length_cons, List.length_nil] <;> omega
      have e2 : (if o.bodySignLength then b!"; l=" ++ fmtLu o.bodyLength else []).length ≤ 24 := by
        split <;> simp only [List.length_append, List.length_cons, List.length_nil] <;> omega
      simp only [List.length_append, List.length_cons, List.length_nil] at *
      omega
    have h4 : (sigHLines names).length ≤ 6 + (names.map (fun n => n.length + 5)).sum := by
      unfold sigHLines
      have := foldH_length true names b!"\th="
      simp only [List.length_append, List.length_cons, List.length_nil] at *
      omega
    have h5 := C18_length bh
    simp only [List.length_append, List.length_cons, List.length_nil, CRLF] at *
    omega

/-! ## The text is folded -/

theorem wf_append {a b : Bytes} (ha : WellFolded a) (hb : WellFolded b) : WellFolded (a ++ b) := by
  intro x y e
  rcases List.append_eq_append_iff.1 e with ⟨c, h1, h2⟩ | ⟨c, h1, h2⟩
  · obtain ⟨⟨p, hp⟩, hw⟩ := hb c y h2
    exact ⟨⟨a ++ p, by rw [h1, hp]; simp⟩, hw⟩
  · cases c with
    | nil =>
      obtain ⟨⟨p, hp⟩, _⟩ := hb [] y (by simpa using h2.symm)
      cases p <;> cases hp
    | cons z c =>
      obtain ⟨e1, e2⟩ := List.cons.inj h2
      subst e1
      obtain ⟨hp, w, q, hw, hq⟩ := ha x c h1
      exact ⟨hp, w, q ++ b, by rw [e2, hw]; simp, hq⟩

theorem wellFolded_fold {a : Bytes} (h : WellFolded a) (w : Byte) (hw : isWSP w = true) : WellFolded (CRLF ++ (w :: a)) := by
  have h1 : WellFolded (CRLF ++ [w]) := by
    intro x y e
    have hl : LF ≠ w := by rintro rfl; exact absurd hw (by decide)
    match x, e with
    | [], e => cases e
    | [_], e => cases e; exact ⟨⟨[], rfl⟩, w, [], rfl, hw⟩
    | [_, _], e => cases e; exact absurd rfl hl
    | _ :: _ :: _ :: x, e => exact absurd (congrArg List.length e) (by simp [CRLF])
  simpa using wf_append h1 h

theorem wellFolded_line {a : Bytes} (h : LF ∉ a) (w : Byte) (hw : isWSP w = true) : WellFolded (CRLF ++ (w :: a)) :=
  wellFolded_fold (wellFolded_noLF h) w hw

theorem wf_crlf {a r : Bytes} (h : WellFolded a) (hr : a = TAB :: r) : WellFolded (CRLF ++ a) := by
  subst hr
  intro x y e
  match x, e with
  | [], e => cases e
  | [_], e => cases e; exact ⟨⟨[], rfl⟩, TAB, r, rfl, by decide⟩
  | _ :: _ :: x, e =>
    have e' : TAB :: r = x ++ LF :: y := by
      have := congrArg (List.drop 2) e
      simpa [CRLF] using this
    obtain ⟨⟨p, hp⟩, hw⟩ := h x y e'
    exact ⟨⟨_ :: _ :: p, by rw [hp]; rfl⟩, hw⟩

theorem foldH_tab (ns : List Bytes) : ∀ (first : Bool) (line : Bytes), (∃ r, line = TAB :: r) →
    ∃ r, (foldH first line ns).1 ++ (foldH first line ns).2 = TAB :: r := by
  induction ns with
  | nil => intro first line h; simpa [foldH] using h
  | cons n ns ih =>
    rintro first line ⟨r, rfl⟩
    unfold foldH
    generalize (if first then [] else [COLON] : Bytes) = colon at *
    dsimp only
    by_cases hb : (TAB :: r).length + n.length + colon.length > 80
    · rw [if_pos hb]; exact ⟨_, rfl⟩
    · rw [if_neg hb]; exact ih _ _ ⟨_, rfl⟩

theorem foldH_wf (names : List Bytes) (hn : ∀ n ∈ names, LF ∉ n) : ∀ (first : Bool) (line : Bytes), WellFolded line →
    WellFolded ((foldH first line names).1 ++ (foldH first line names).2) := by
  induction names with
  | nil => intro first line h; simpa [foldH] using h
  | cons n ns ih =>
    intro first line h
    have h1 := wellFolded_noLF (hn n (by simp))
    have ih := ih (fun x hx => hn x (by simp [hx]))
    unfold foldH
    have hc : WellFolded (if first then [] else [COLON] : Bytes) := by
      cases first
      · exact wellFolded_noLF (by decide)
      · exact wellFolded_noLF (by decide)
    generalize (if first then [] else [COLON] : Bytes) = colon at *
    dsimp only
    split
    · have h2 : WellFolded (b!"\t " ++ n) := wf_append (wellFolded_noLF (by decide)) h1
      have h3 := ih false _ h2
      obtain ⟨r, hr⟩ := foldH_tab ns false (b!"\t " ++ n) ⟨_, rfl⟩
      have h4 := wf_crlf h3 hr
      have h5 := wf_append (wf_append h hc) h4
      simpa using h5
    · exact ih false _ (wf_append (wf_append h hc) h1)

theorem sigHeaderText_wf {o : Options E} {s : SigOpts E} {now : Int} {names : List Bytes} {bh text : Bytes}
    (h : sigHeaderText o s now names bh = .ok text) (hn : ∀ n ∈ names, LF ∉ n) (hd : LF ∉ s.domain) (hs : LF ∉ s.selector) :
    WellFolded text := by
  unfold sigHeaderText at h
  split at h
  · cases h
  · rename_i times ht
    cases h
    obtain ⟨dl, hdl, hdl2⟩ : ∃ dl, sigDomainLine o s = TAB :: (dl ++ CRLF) ∧ LF ∉ dl := by
      refine ⟨b!"d=" ++ s.domain ++ b!"; s=" ++ s.selector ++
        (if o.identity.isEmpty then [] else b!"; i=" ++ qpEncode o.identity) ++
        (if o.bodySignLength then b!"; l=" ++ fmtLu o.bodyLength else []) ++ b!";", ?_, ?_⟩
      · unfold sigDomainLine
        rw [qpEncode_cstr]
        simp [CRLF, CR, LF, TAB]
      · have k1 : LF ∉ qpEncode o.identity := val_not_LF (fun c hc => C17_safe_bytes _ c hc)
        have k2 := fmtLu_no_LF o.bodyLength
        simp only [List.mem_append, not_or]
        refine ⟨⟨⟨⟨⟨⟨by decide, hd⟩, by decide⟩, hs⟩, ?_⟩, ?_⟩, by decide⟩
        · split
          · simp
          · rw [List.mem_append, not_or]; exact ⟨by decide, k1⟩
        · split
          · rw [List.mem_append, not_or]; exact ⟨by decide, k2⟩
          · simp
    have h1 := wellFolded_noLF (sigPrefix_no_LF o)
    have h2 := wellFolded_noLF (sigTimes_no_LF ht)
    have h3 := wellFolded_line hdl2 TAB (by decide)
    have h5 : WellFolded (CRLF ++ (TAB :: (b!"bh=" ++ b64Encode bh ++ b!";"))) := wellFolded_line (by
      have : LF ∉ b64Encode bh := val_not_LF (fun c hc => b64_val hc)
      simp only [List.mem_append, not_or]
      exact ⟨⟨by decide, this⟩, by decide⟩) TAB (by decide)
    have h6 : WellFolded (CRLF ++ (TAB :: b!"b=")) := wellFolded_line (by decide) TAB (by decide)
    have h4 : WellFolded (CRLF ++ ((foldH true b!"\th=" names).1 ++ (foldH true b!"\th=" names).2)) := by
      obtain ⟨r, hr⟩ := foldH_tab names true b!"\th=" ⟨_, rfl⟩
      exact wf_crlf (foldH_wf names hn true _ (wellFolded_noLF (by decide))) hr
    have h7 : WellFolded b!";" := wellFolded_noLF (by decide)
    have := wf_append (wf_append (wf_append (wf_append (wf_append h1 h2) h3) h4) (wf_append h7 h5)) h6
    rw [hdl]
    unfold sigHLines
    simpa [CRLF, CR, LF, TAB] using this

/-! ## One signature, all signatures -/

/-- Cost of splitting a signature of at most `B` bytes. -/
theorem signDigest_length {B : Nat} (hR : ∀ k a m g, E.rsaSign k a m = some g → g.length ≤ B) (hE : ∀ k m g, E.edSign k m = some g → g.length ≤ B)
    {s : SigOpts E} {a : DigestAlg} {md g : Bytes} (h : signDigest E s a md = .ok g) : g.length ≤ B := by
  unfold signDigest at h
  split at h
  · split at h
    · cases h
    · split at h
      · cases h
      · rename_i hg; cases h; exact hR _ _ _ _ hg
  · split at h
    · cases h
    · split at h
      · cases h
      · rename_i hg; cases h; exact hE _ _ _ hg

/-- Bound on splitting: quadratic in the length of the signature. -/
def splitBound (B : Nat) : Nat := (2 * B + 4) * (B + 4)

theorem split_bounds {B : Nat} {g : Bytes} (h : g.length ≤ B) :
    foldBSteps ((b64Encode g).length + 1) 3 (b64Encode g) ≤ splitBound B ∧ (b64Encode g).length ≤ 2 * B + 2 := by
  have h1 := C18_length g
  refine ⟨Nat.le_trans (foldBSteps_le _ 3 _ (by omega)) ?_, by omega⟩
  unfold splitBound
  exact Nat.mul_le_mul (by omega) (by omega)

theorem nameSteps_le (names : List Bytes) : nameSteps names ≤ (names.map (fun n => n.length + 5)).sum :=
  sum_le (fun _ _ => by omega)

theorem oneSignatureSteps_le (lr : Bool) {o : Options E} {s : SigOpts E} {now : Int} {names : List Bytes} {bh hashed : Bytes} {B T : Nat}
    (hR : ∀ k a m g, E.rsaSign k a m = some g → g.length ≤ B) (hE : ∀ k m g, E.edSign k m = some g → g.length ≤ B)
    (hn : ∀ n ∈ names, LF ∉ n) (hd : LF ∉ s.domain) (hs : LF ∉ s.selector)
    (hT : 220 + s.domain.length + s.selector.length + 3 * o.identity.length + (names.map (fun n => n.length + 5)).sum + 2 * bh.length ≤ T) :
    oneSignatureSteps E lr o s now hashed names bh ≤ 22 * T + 10 * B + splitBound B + 29 := by
  have h0 := nameSteps_le names
  unfold oneSignatureSteps
  split
  · omega
  · rename_i text ht
    have h1 := sigHeaderText_length ht
    have h2 := sigHeaderText_wf ht hn hd hs
    have h3 := (C85_folded toyEnv lr o.canonHead _ (folds_of_well h2)).2.1
    split
    · show _ + (_ + 0) ≤ _
      omega
    · rename_i t2 ht2
      have h4 := filterHeader_length h2 ht2
      split
      · show _ + (_ + _ + (List.length t2 + 0)) ≤ _
        omega
      · rename_i g hg
        have h5 := signDigest_length hR hE hg
        obtain ⟨h6, h7⟩ := split_bounds h5
        split
        · show _ + (_ + _ + (List.length t2 + (_ + 0))) ≤ _
          omega
        · rename_i b hb
          have h8 := foldB_length _ 3 _ _ (by omega) hb
          show _ + (_ + _ + (List.length t2 + (_ + (2 + List.length text + List.length b)))) ≤ _
          omega

theorem oneSignature_length {o : Options E} {s : SigOpts E} {now : Int} {names : List Bytes} {bh hashed t : Bytes} {B T : Nat}
    (hR : ∀ k a m g, E.rsaSign k a m = some g → g.length ≤ B) (hE : ∀ k m g, E.edSign k m = some g → g.length ≤ B)
    (hT : 220 + s.domain.length + s.selector.length + 3 * o.identity.length + (names.map (fun n => n.length + 5)).sum + 2 * bh.length ≤ T)
    (h : oneSignature E o s now hashed names bh = .ok t) : t.length ≤ T + 10 * B + 10 := by
  unfold oneSignature at h
  split at h
  · cases h
  · rename_i text ht
    have h1 := sigHeaderText_length ht
    split at h
    · cases h
    · split at h
      · cases h
      · rename_i g hg
        have h5 := signDigest_length hR hE hg
        obtain ⟨_, h7⟩ := split_bounds h5
        split at h
        · cases h
        · rename_i b hb
          have h8 := foldB_length _ 3 _ _ (by omega) hb
          cases h
          rw [List.length_append]
          omega

theorem allSignaturesSteps_le (lr : Bool) {o : Options E} {clock : Nat → Int} {hashed bh : Bytes} {names : List Bytes} (C : Nat)
    (ss : List (SigOpts E)) (h : ∀ s ∈ ss, ∀ now, oneSignatureSteps E lr o s now hashed names bh ≤ C) :
    ∀ k, allSignaturesSteps E lr o clock hashed names bh k ss ≤ ss.length * C := by
  induction ss with
  | nil => intro k; simp [allSignaturesSteps]
  | cons s ss ih =>
    intro k
    have h1 := h s (by simp) (clock k)
    have h2 := ih (fun x hx => h x (by simp [hx])) (k + 1)
    have e : (s :: ss).length * C = ss.length * C + C := by rw [List.length_cons, Nat.succ_mul]
    unfold allSignaturesSteps
    split <;> omega

theorem allSignatures_length {o : Options E} {clock : Nat → Int} {hashed bh : Bytes} {names : List Bytes} (C : Nat)
    (ss : List (SigOpts E)) (h : ∀ s ∈ ss, ∀ now t, oneSignature E o s now hashed names bh = .ok t → t.length ≤ C) :
    ∀ k acc H, allSignatures E o clock hashed names bh k acc ss = .ok H → H.length ≤ acc.length + ss.length * (C + 2) := by
  induction ss with
  | nil => intro k acc H hH; cases hH; simp
  | cons s ss ih =>
    intro k acc H hH
    unfold allSignatures at hH
    have e : (s :: ss).length * (C + 2) = ss.length * (C + 2) + (C + 2) := by rw [List.length_cons, Nat.succ_mul]
    split at hH
    · cases hH
    · rename_i t ht
      have h1 := h s (by simp) _ _ ht
      have h2 := ih (fun x hx => h x (by simp [hx])) _ _ _ hH
      have h3 : (if acc.isEmpty then acc else acc ++ CRLF).length ≤ acc.length + 2 := by
        split
        · omega
        · simp [CRLF]
      rw [List.length_append] at h2
      omega

/-- The names of the `h=` tag, without the oversigned ones. -/
theorem names_total {d : Bytes} {m : Message} {s : IStream} (hp : Message.parseAll {} (freshStream d) = .ok (m, s)) {mode : CanonMode}
    {sel : List Bytes} {a : Bytes} {names : List Bytes} (h : signLoop mode sel m.headers.reverse = .ok (a, names)) :
    (names.map (fun n => n.length + 5)).sum ≤ 4 * d.length + 2 := by
  have key : ∀ hs : List Header, (∀ f ∈ hs, f.name.length ≤ f.header.length) → ∀ a names, signLoop mode sel hs = .ok (a, names) →
      (names.map (fun n => n.length + 5)).sum ≤ 2 * (hs.map (fun f => f.header.length + 2)).sum := by
    intro hs
    induction hs with
    | nil => intro _ a names h; cases h; simp
    | cons f hs ih =>
      intro hf a names h
      have h1 := hf f (by simp)
      have ih := ih (fun x hx => hf x (by simp [hx]))
      rw [List.map_cons, List.sum_cons]
      unfold signLoop at h
      split at h
      · rename_i hs'
        have h2 := isSelected_name hs'
        split at h
        · cases h
        · split at h
          · cases h
          · rename_i b ns hb
            have h3 := ih _ _ hb
            cases h
            rw [List.map_cons, List.sum_cons]
            have e : (lower f.name).length = f.name.length := by simp [lower]
            omega
      · have h3 := ih _ _ h
        omega
  have h1 := key _ (fun f hf => name_length hp (List.mem_reverse.1 hf)) _ _ h
  have h2 := fields_total hp
  rw [List.map_reverse, List.sum_reverse] at h1
  omega

theorem unset_no_LF {s : Bytes} (h : UnsetOrDomain s) : LF ∉ s := by
  intro hc
  have := C24_no_injection _ h LF hc
  unfold IsLetDig at this
  exact absurd this (by decide)

/-- C94: the work of signing, without reading the message: linear in the message and in the sizes of the options for each
signature, and quadratic in the length of a signature. -/
theorem C94_sign (E : Env) (lr : Bool) (B : Nat) (hH : ∀ a m, (E.hash a m).length ≤ 64)
    (hR : ∀ k a m g, E.rsaSign k a m = some g → g.length ≤ B) (hE : ∀ k m g, E.edSign k m = some g → g.length ≤ B)
    (o : Options E) (hsafe : SafeOptions o) (hover : ∀ n ∈ o.oversign, LF ∉ n)
    (D : Nat) (hD : ∀ s ∈ o.signatures, s.domain.length + s.selector.length ≤ D) (clock : Nat → Int) (d : Bytes)
    (hnames : ∀ m s, Message.parseAll {} (freshStream d) = .ok (m, s) → ∀ f ∈ signedFields o.headers m.headers, LF ∉ f.name) :
    Signatory.createSteps E lr o clock (freshStream d) ≤
      Message.parseAllSteps {} (freshStream d) + 44 * d.length + 24 +
      (o.headers.map (fun n => n.length + 1)).sum + (o.oversign.map (fun n => n.length + 1)).sum +
      o.signatures.length *
        (22 * (4 * d.length + D + 3 * o.identity.length + (o.oversign.map (fun n => n.length + 5)).sum + 350) +
          10 * B + (2 * B + 4) * (B + 4) + 29) := by
  unfold Signatory.createSteps
  obtain ⟨m, s1, _, hp, _, _, hd⟩ := C20_parse d
  rw [hp]
  show _ + Signatory.signSteps E lr o clock m s1 ≤ _
  unfold Signatory.signSteps
  have h1 := canonBodySteps_le s1 o.canonBody m.bodyOffset o.bodySignLength o.bodyLength
  rw [hd] at h1
  split
  · omega
  · rename_i calls ok s2 hc
    split
    · omega
    · have h2 := signLoopSteps_le lr o.canonHead o.headers m.headers.reverse
        (fun f hf => ⟨(C22_fields d m s1 hp f (List.mem_reverse.1 hf)).1, name_length hp (List.mem_reverse.1 hf)⟩)
      rw [List.map_reverse, List.sum_reverse] at h2
      have h3 := fields_total hp
      have e1 : nameSteps o.headers = (o.headers.map (fun n => n.length + 1)).sum := rfl
      have e2 : nameSteps o.oversign = (o.oversign.map (fun n => n.length + 1)).sum := rfl
      split
      · show _ + (_ + (_ + _ + 0)) ≤ _
        omega
      · rename_i hashed names hl
        have h4 := names_total hp hl
        obtain ⟨cs, _, _, hn⟩ := (signLoop_ok _ _ _ _ _).1 hl
        have h5 : ∀ n ∈ names ++ o.oversign.map lower, LF ∉ n := by
          intro n hm
          rcases List.mem_append.1 hm with hm | hm
          · rw [hn] at hm
            obtain ⟨f, hf, rfl⟩ := List.mem_map.1 hm
            rw [lower_LF]
            exact hnames m s1 hp f hf
          · obtain ⟨x, hx, rfl⟩ := List.mem_map.1 hm
            rw [lower_LF]
            exact hover x hx
        have h6 : ((names ++ o.oversign.map lower).map (fun n => n.length + 5)).sum ≤
            4 * d.length + 2 + (o.oversign.map (fun n => n.length + 5)).sum := by
          rw [List.map_append, List.sum_append, List.map_map]
          have : (o.oversign.map ((fun n => n.length + 5) ∘ lower)) = o.oversign.map (fun n => n.length + 5) :=
            List.map_congr_left (fun n _ => by simp [lower])
          rw [this]
          omega
        have h7 := allSignaturesSteps_le lr (clock := clock)
          (22 * (4 * d.length + D + 3 * o.identity.length + (o.oversign.map (fun n => n.length + 5)).sum + 350) +
          10 * B + splitBound B + 29) o.signatures.reverse (hashed := hashed) (names := names ++ o.oversign.map lower)
          (bh := E.hash o.digest calls.flatten) (o := o) (by
            intro s hs now
            have hs := List.mem_reverse.1 hs
            have g1 := hD s hs
            have g2 := hH o.digest calls.flatten
            refine oneSignatureSteps_le lr hR hE h5 ?_ ?_ (by omega)
            · exact unset_no_LF (hsafe s hs).1
            · exact unset_no_LF (hsafe s hs).2) 0
        rw [List.length_reverse] at h7
        unfold splitBound at h7
        show _ + (_ + (_ + _ + (_ + _))) ≤ _
        omega

/-- C94: the size of what `CreateSignature` returns, whatever the options and the message. -/
theorem C94_size (E : Env) (B : Nat) (hH : ∀ a m, (E.hash a m).length ≤ 64)
    (hR : ∀ k a m g, E.rsaSign k a m = some g → g.length ≤ B) (hE : ∀ k m g, E.edSign k m = some g → g.length ≤ B)
    (o : Options E) (D : Nat) (hD : ∀ s ∈ o.signatures, s.domain.length + s.selector.length ≤ D) (clock : Nat → Int) (d H : Bytes)
    (h : (Signatory.createSignature E o clock { file := freshStream d }).1 = .ok H) :
    H.length ≤ o.signatures.length *
      (4 * d.length + D + 3 * o.identity.length + (o.oversign.map (fun n => n.length + 5)).sum + 10 * B + 362) := by
  unfold Signatory.createSignature at h
  obtain ⟨m, s1, _, hp, _, _, hd⟩ := C20_parse d
  simp only at h
  rw [hp] at h
  simp only at h
  split at h
  · cases h
  · rename_i calls ok s2 hc
    split at h
    · cases h
    · split at h
      · cases h
      · rename_i hashed names hl
        have h4 := names_total hp hl
        have h6 : ((names ++ o.oversign.map lower).map (fun n => n.length + 5)).sum ≤
            4 * d.length + 2 + (o.oversign.map (fun n => n.length + 5)).sum := by
          rw [List.map_append, List.sum_append, List.map_map]
          have : (o.oversign.map ((fun n => n.length + 5) ∘ lower)) = o.oversign.map (fun n => n.length + 5) :=
            List.map_congr_left (fun n _ => by simp [lower])
          rw [this]
          omega
        have h7 := allSignatures_length (clock := clock)
          (4 * d.length + D + 3 * o.identity.length + (o.oversign.map (fun n => n.length + 5)).sum + 10 * B + 360) o.signatures.reverse
          (hashed := hashed) (names := names ++ o.oversign.map lower) (bh := E.hash o.digest calls.flatten) (o := o) (by
            intro s hs now t ht
            have hs := List.mem_reverse.1 hs
            have g1 := hD s hs
            have g2 := hH o.digest calls.flatten
            have := oneSignature_length (T := 4 * d.length + D + 3 * o.identity.length + (o.oversign.map (fun n => n.length + 5)).sum + 350)
              hR hE (by omega) ht
            omega) 0 [] H h
        rw [List.length_reverse] at h7
        simpa using h7

theorem mem_trimWSP {s : Bytes} {c : Byte} (h : c ∈ trimWSP s) : c ∈ s := by
  unfold trimWSP at h
  have h1 := (List.dropWhile_sublist _).mem (List.mem_reverse.1 h)
  exact (List.dropWhile_sublist _).mem (List.mem_reverse.1 h1)

/-- With a colon in the first line the name has no line break. -/
theorem named_no_LF {l : Bytes} {g : List Bytes} (hc : COLON ∈ l) (hl : LF ∉ l) : LF ∉ (mkField (l :: g)).name := by
  rw [mkField_name]
  obtain ⟨r, hr⟩ : ∃ r, joinLines (l :: g) = l ++ r := by
    cases g with
    | nil => exact ⟨[], by simp [joinLines]⟩
    | cons x g => exact ⟨_, by rw [joinLines]; simp; rfl⟩
  rw [hr]
  split
  · intro h
    have h1 := mem_trimWSP h
    obtain ⟨e, hu, _⟩ := field_split hc
    rw [e, List.append_assoc, List.cons_append, (fieldName_append hu).1] at h1
    exact hl (by rw [e]; simp [h1])
  · simp

/-- C94: in all, for a message whose fields all have a colon in their first line: no part is worse than linear in the message. -/
theorem C94_sign_named (E : Env) (lr : Bool) (B : Nat) (hH : ∀ a m, (E.hash a m).length ≤ 64)
    (hR : ∀ k a m g, E.rsaSign k a m = some g → g.length ≤ B) (hE : ∀ k m g, E.edSign k m = some g → g.length ≤ B)
    (o : Options E) (hsafe : SafeOptions o) (hover : ∀ n ∈ o.oversign, LF ∉ n)
    (D : Nat) (hD : ∀ s ∈ o.signatures, s.domain.length + s.selector.length ≤ D) (clock : Nat → Int) (d : Bytes)
    (ls : List Bytes) (off : Int) (hd : HeadText 0 d ls off) (hf : ∀ l ∈ ls.head?, COLON ∈ l)
    (hn : ∀ l ∈ ls, isCont l = false → COLON ∈ l) :
    Signatory.createSteps E lr o clock (freshStream d) ≤
      51 * d.length + 29 +
      (o.headers.map (fun n => n.length + 1)).sum + (o.oversign.map (fun n => n.length + 1)).sum +
      o.signatures.length *
        (22 * (4 * d.length + D + 3 * o.identity.length + (o.oversign.map (fun n => n.length + 5)).sum + 350) +
          10 * B + (2 * B + 4) * (B + 4) + 29) := by
  have h1 := C85_message_named d ls off hd hf hn
  have h2 := C94_sign E lr B hH hR hE o hsafe hover D hD clock d (by
    intro m s hp f hf'
    obtain ⟨m2, s2, hp2, hm, _⟩ := parseAll_head hd (freshStream d) (at_fresh d)
    rw [hp] at hp2
    cases hp2
    have hfm : f ∈ m.headers := by
      unfold signedFields at hf'
      exact List.mem_reverse.1 (List.mem_filter.1 hf').1
    rw [hm] at hfm
    obtain ⟨g, hg, rfl⟩ := List.mem_map.1 hfm
    obtain ⟨g1, g2, g3, _, g5⟩ := groupLines_spec ls
    have hl := headText_lines hd
    have hmem : ∀ l ∈ g, l ∈ ls := fun l hl => by rw [← g1]; exact List.mem_flatten.2 ⟨g, hg, hl⟩
    cases g with
    | nil => exact absurd rfl (g2 _ hg).1
    | cons l g =>
      refine named_no_LF ?_ (hl l (hmem l (by simp))).2
      cases hgl : groupLines ls with
      | nil => rw [hgl] at hg; cases hg
      | cons a gs =>
        rw [hgl] at hg g3 g5
        rcases List.mem_cons.1 hg with rfl | hg'
        · exact hf l (by rw [← g5 (l :: g) rfl]; rfl)
        · exact hn l (hmem l (by simp)) (g3 _ hg' l rfl))
  omega

/-! Non-vacuity: bounded digests and signatures, two signatures, a folded message. -/

/-- The toy primitives with digests of at most 32 bytes and signatures of at most 64. -/
def shortEnv : Env :=
  { toyEnv with
    hash := fun da m => (toyEnv.hash da m).take 32
    rsaSign := fun k da md => (toyEnv.rsaSign k da md).map (List.take 64)
    edSign := fun k md => (toyEnv.edSign k md).map (List.take 64) }

/-- Options with two signatures. -/
def twoSigs : Options shortEnv :=
  { first := { rsa := some (7 : Nat), domain := b!"d.e", selector := b!"s" }
    more := [{ rsa := some (9 : Nat), domain := b!"d.e", selector := b!"t" }]
    headers := [b!"from", b!"to"], oversign := [b!"from"], canonHead := .relaxed }

example : ∃ H, (Signatory.createSignature shortEnv twoSigs (fun _ => 0) { file := freshStream Samples.message }).1 = .ok H ∧
    300 ≤ H.length ∧ H.length ≤ 2 * (4 * Samples.message.length + 4 + 9 + 640 + 362) ∧
    1000 ≤ Signatory.createSteps shortEnv true twoSigs (fun _ => 0) (freshStream Samples.message) ∧
    Signatory.createSteps shortEnv true twoSigs (fun _ => 0) (freshStream Samples.message) ≤ 50000 := by
  have hH : ∀ a m, (shortEnv.hash a m).length ≤ 64 := fun a m => by
    show (List.take 32 _).length ≤ 64
    rw [List.length_take]; omega
  have hR : ∀ k a m g, shortEnv.rsaSign k a m = some g → g.length ≤ 64 := by
    intro k a m g h
    cases h
    rw [List.length_take]; omega
  have hE : ∀ k m g, shortEnv.edSign k m = some g → g.length ≤ 64 := by
    intro k m g h
    cases h
    rw [List.length_take]; omega
  obtain ⟨H, h1, h2⟩ := ok_of (Signatory.createSignature shortEnv twoSigs (fun _ => 0) { file := freshStream Samples.message }).1
    (fun H => decide (300 ≤ H.length)) (by decide +kernel)
  have hD : ∀ s ∈ twoSigs.signatures, s.domain.length + s.selector.length ≤ 4 := by
    intro s hs
    rcases List.mem_cons.1 hs with rfl | hs
    · decide
    · rcases List.mem_cons.1 hs with rfl | hs
      · decide
      · cases hs
  have h3 := C94_size shortEnv 64 hH hR hE twoSigs 4 hD _ _ _ h1
  have h4 := C94_sign_named shortEnv true 64 hH hR hE twoSigs (by
    intro s hs
    have a1 : IsDomain b!"d.e" := (C23_validateDomain _).1 (by decide)
    have a2 : IsDomain b!"s" := (C23_validateDomain _).1 (by decide)
    have a3 : IsDomain b!"t" := (C23_validateDomain _).1 (by decide)
    rcases List.mem_cons.1 hs with rfl | hs
    · exact ⟨.inr a1, .inr a2⟩
    · rcases List.mem_cons.1 hs with rfl | hs
      · exact ⟨.inr a1, .inr a3⟩
      · cases hs) (by decide) 4 hD (fun _ => 0) Samples.message _ _ Samples.headText_message (by decide) (by decide)
  refine ⟨H, h1, of_decide_eq_true h2, h3, by decide +kernel, Nat.le_trans h4 (by decide +kernel)⟩

end Dkim
