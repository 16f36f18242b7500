import Verif.Proofs.SigText
import Verif.Proofs.Numbers
import Verif.Props.Options
import Verif.Spec.SigHeader
import Verif.Proofs.SignatureParse
/-!
# Proofs about `CreateSignature`: the tags of one signature field
-/

namespace Dkim
open Spec

variable {E : Env}

/-- The name of the generated field. -/
def Spec.sigFieldName (o : Options E) : Bytes :=
  if o.arcInstance ≠ 0 then b!"ARC-Message-Signature" else b!"DKIM-Signature"

/-- `x=`'s value (0 where the addition overflows; then nothing is generated). -/
def expOf (o : Options E) (now : Int) : Int :=
  match sigExpiration o now with
  | .ok x => x
  | .error _ => 0

/-- Item without inner white space. -/
def mkItem (pre name value : Bytes) (gap : Bytes := []) : TagItem := ⟨pre, name, [], gap, value, []⟩

/-- The items before b=. -/
def genItems (o : Options E) (s : SigOpts E) (now : Int) (gap hv bh : Bytes) : List TagItem :=
  (if o.arcInstance ≠ 0 then mkItem b!" " b!"i" (fmtLu o.arcInstance) else mkItem b!" " b!"v" b!"1") ::
  mkItem b!" " b!"a" (algText o.first.alg o.digest) ::
  mkItem b!" " b!"c" (o.canonHead.text ++ b!"/" ++ o.canonBody.text) ::
  ((if o.timestampSign then [mkItem b!" " b!"t" (fmtLu (sigTimestamp o now))] else []) ++
  ((if o.expirationSign then [mkItem b!" " b!"x" (fmtLu (expOf o now))] else []) ++
  (mkItem b!"\r\n\t" b!"d" s.domain ::
  mkItem b!" " b!"s" s.selector ::
  ((if o.identity.isEmpty then [] else [mkItem b!" " b!"i" (qpEncode o.identity)]) ++
  ((if o.bodySignLength then [mkItem b!" " b!"l" (fmtLu o.bodyLength)] else []) ++
  [mkItem b!"\r\n\t" b!"h" hv gap, mkItem b!"\r\n\t" b!"bh" (b64Encode bh)])))))

theorem qpEncode_cstr (x : Bytes) : cstr (qpEncode x) = qpEncode x := by
  apply cstr_eq
  intro h
  have := (C17_safe_bytes x 0 h).1
  exact absurd this (by decide)

theorem sigTimes_eq {o : Options E} {now : Int} {times : Bytes} (h : sigTimes o now = .ok times) :
    times = (if o.timestampSign then b!" t=" ++ fmtLu (sigTimestamp o now) ++ b!";" else []) ++
      (if o.expirationSign then b!" x=" ++ fmtLu (expOf o now) ++ b!";" else []) ∧
    (o.expirationSign = true → sigExpiration o now = .ok (expOf o now)) := by
  unfold sigTimes at h
  unfold expOf
  simp only at h
  split at h
  · rename_i hx
    cases he : sigExpiration o now with
    | error e => rw [he] at h; cases h
    | ok x =>
      rw [he] at h
      simp only [Except.ok.injEq] at h
      subst h
      rw [if_pos hx]
      exact ⟨by simp, fun _ => rfl⟩
  · rename_i hx
    cases h
    rw [if_neg hx]
    exact ⟨by simp, fun h => absurd h hx⟩

/-- The text of one field up to "b=" as items. -/
theorem text_items (o : Options E) (s : SigOpts E) (now : Int) (gap hv bh times : Bytes) (names : List Bytes)
    (hh : (foldH true b!"\th=" names).1 ++ (foldH true b!"\th=" names).2 = b!"\th=" ++ gap ++ hv)
    (ht : sigTimes o now = .ok times) :
    sigPrefix o ++ times ++ CRLF ++ sigDomainLine o s ++ sigHLines names ++
        b!"\tbh=" ++ b64Encode bh ++ b!";\r\n" ++ b!"\tb=" =
      sigFieldName o ++ COLON :: ((genItems o s now gap hv bh).flatMap (fun i => i.text ++ [SEMI]) ++ b!"\r\n\tb=") := by
  obtain ⟨rfl, _⟩ := sigTimes_eq ht
  unfold sigHLines
  rw [hh]
  unfold sigPrefix sigDomainLine sigFieldName genItems
  rw [qpEncode_cstr]
  simp only [List.flatMap_cons, List.flatMap_append, mkItem, TagItem.text, TagItem.lead]
  split <;> split <;> split <;> split <;> split <;>
    simp [CRLF, CR, LF, COLON, SEMI, EQ]

/-- Items terminated by `;` and a last item make a tag list. -/
theorem tagText_build (items : List TagItem) (hwf : ∀ i ∈ items, i.WF) (last : TagItem) (hl : last.WF) (pos : Nat) :
    ∃ es, TagText pos (items.flatMap (fun i => i.text ++ [SEMI]) ++ last.text) es ∧
      es.map (fun e => (e.1, e.2.value)) = (items ++ [last]).map (fun i => (i.name, i.value)) ∧
      (last.value ≠ [] → (last.name, ({ value := last.value, offset :=
        ((pos + (items.flatMap (fun i => i.text ++ [SEMI])).length + last.lead.length : Nat) : Int) } : TagEntry)) ∈ es) := by
  induction items generalizing pos with
  | nil =>
    refine ⟨_, TagText.last pos last hl, by simp, ?_⟩
    intro hne
    simp [hne]
  | cons i items ih =>
    obtain ⟨es, h1, h2, h3⟩ := ih (fun j hj => hwf j (by simp [hj])) (pos + i.text.length + 1)
    refine ⟨(i.name, { value := i.value, offset := (pos + i.lead.length : Nat) }) :: es, ?_, ?_, ?_⟩
    · have := TagText.cons pos i _ es (hwf i (by simp)) h1
      simpa using this
    · simp only [List.map_cons, h2, List.cons_append]
    · intro hne
      have := h3 hne
      refine List.mem_cons_of_mem _ ?_
      have e : pos + ((i :: items).flatMap (fun i => i.text ++ [SEMI])).length + last.lead.length =
          pos + i.text.length + 1 + (items.flatMap (fun i => i.text ++ [SEMI])).length + last.lead.length := by
        simp only [List.flatMap_cons, List.length_append, List.length_singleton]
        omega
      rw [e]; exact this

theorem wf_mkItem {pre name value gap : Bytes} (h1 : AllLoose pre) (h2 : IsTagName name) (h3 : AllLoose gap)
    (h4 : IsTagValue value) : (mkItem pre name value gap).WF :=
  ⟨h1, h2, by intro c hc; simp [mkItem] at hc, h3, h4, by intro c hc; simp [mkItem] at hc, fun _ => rfl⟩

theorem tagValue_plain {v : Bytes} (h : ∀ c ∈ v, IsValByte c) : IsTagValue v :=
  ⟨fun c hc => .inl (h c hc), fun c hc => h c (List.mem_of_mem_head? hc), fun c hc => h c (List.mem_of_getLast? hc)⟩

instance (c : Byte) : Decidable (IsValByte c) := by unfold IsValByte; infer_instance

theorem val_of_toNat {c : Byte} (h1 : 33 ≤ c.toNat) (h2 : c.toNat ≤ 126) (h3 : c.toNat ≠ 59) : IsValByte c := by
  refine ⟨h1, h2, ?_⟩
  rintro rfl
  exact h3 rfl

theorem digit_val {c : Byte} (h : isDigit c = true) : IsValByte c := by
  unfold isDigit at h
  simp only [Bool.and_eq_true, decide_eq_true_eq] at h
  have h1 : 48 ≤ c.toNat := h.1
  have h2 : c.toNat ≤ 57 := h.2
  exact val_of_toNat (by omega) (by omega) (by omega)

theorem letDig_val {c : Byte} (h : IsLetDig c ∨ c = 45 ∨ c = 46) : IsValByte c := by
  rcases h with (⟨h1, h2⟩ | ⟨h1, h2⟩ | ⟨h1, h2⟩) | rfl | rfl
  · have h1 : 65 ≤ c.toNat := h1
    have h2 : c.toNat ≤ 90 := h2
    exact val_of_toNat (by omega) (by omega) (by omega)
  · have h1 : 97 ≤ c.toNat := h1
    have h2 : c.toNat ≤ 122 := h2
    exact val_of_toNat (by omega) (by omega) (by omega)
  · have h1 : 48 ≤ c.toNat := h1
    have h2 : c.toNat ≤ 57 := h2
    exact val_of_toNat (by omega) (by omega) (by omega)
  · decide
  · decide

theorem b64_val {x : Bytes} {c : Byte} (h : c ∈ b64Encode x) : IsValByte c := by
  rcases C18_alphabet x c h with (⟨h1, h2⟩ | ⟨h1, h2⟩ | ⟨h1, h2⟩ | rfl | rfl) | rfl
  · exact letDig_val (.inl (.inl ⟨h1, h2⟩))
  · exact letDig_val (.inl (.inr (.inl ⟨h1, h2⟩)))
  · exact letDig_val (.inl (.inr (.inr ⟨h1, h2⟩)))
  · decide
  · decide
  · decide

theorem algText_val (sa : SigAlg) (da : DigestAlg) : ∀ c ∈ algText sa da, IsValByte c := by
  cases sa <;> cases da <;> decide
theorem canonText_val (m n : CanonMode) : ∀ c ∈ m.text ++ b!"/" ++ n.text, IsValByte c := by
  cases m <;> cases n <;> decide

theorem val_not_space {c : Byte} (h : IsValByte c) : isSpace c = false := by
  have h1 : 33 ≤ c.toNat := h.1
  unfold isSpace
  simp only [Bool.or_eq_false_iff, Bool.and_eq_false_iff, decide_eq_false_iff_not, beq_eq_false_iff_ne, ne_eq]
  constructor
  · rintro rfl; exact absurd h1 (by decide)
  · right
    intro h2
    have h2 : c.toNat ≤ 13 := h2
    omega

theorem fieldName_val {n : Bytes} (h : IsFieldName n) {c : Byte} (hc : c ∈ n) : IsValByte c ∧ c ≠ COLON :=
  ⟨⟨(h.2 c hc).1, (h.2 c hc).2.1, (h.2 c hc).2.2.2⟩, (h.2 c hc).2.2.1⟩

theorem val_loose {c : Byte} (h : IsValByte c) : isLoose c = false := val_not_loose ((isValChar_iff c).2 h)

theorem fieldName_clean {n : Bytes} (h : IsFieldName n) : Clean n := by
  obtain ⟨h1, h2⟩ := h
  have h3 : ∀ c ∈ n, isLoose c = false ∧ c ≠ COLON := fun c hc =>
    ⟨val_loose (fieldName_val ⟨h1, h2⟩ hc).1, (fieldName_val ⟨h1, h2⟩ hc).2⟩
  clear h2
  induction n with
  | nil => exact absurd rfl h1
  | cons c r ih =>
    obtain ⟨a, b⟩ := h3 c (by simp)
    cases r with
    | nil => exact .one c a b
    | cons d r => exact .cons c _ a b (ih (by simp) (fun x hx => h3 x (by simp [hx])))

theorem foldWS_run : FwsRun foldWS := .fold _ _ (by decide) (.wsp _ _ (by decide) .nil)

theorem foldWS_loose : AllLoose foldWS := by unfold AllLoose foldWS; decide

theorem gap_loose {g : Bytes} (h : g = [] ∨ g = foldWS) : AllLoose g := by
  rcases h with rfl | rfl
  · intro c hc; simp at hc
  · exact foldWS_loose

/-- The h= value: a tag value that lists the names. -/
theorem hValue (n : Bytes) (ns : List Bytes) (items : List Item) (hn : ∀ x ∈ n :: ns, IsFieldName x)
    (h1 : items.map Item.val = ns) (h2 : ∀ i ∈ items, (i.pre = [] ∨ i.pre = foldWS) ∧ i.post = []) :
    IsTagValue (joinColon (n :: items.map Item.text)) ∧
      valueList (joinColon (n :: items.map Item.text)) = .ok (n :: ns) := by
  have hitem : ∀ i ∈ items, IsFieldName i.val := fun i hi => hn _ (by
    right; rw [← h1]; exact List.mem_map_of_mem hi)
  constructor
  · refine ⟨?_, ?_, ?_⟩
    · rw [joinColon_flatMap]
      intro c hc
      rcases List.mem_append.1 hc with hc | hc
      · exact .inl (fieldName_val (hn n (by simp)) hc).1
      · obtain ⟨x, hx, hc⟩ := List.mem_flatMap.1 hc
        obtain ⟨i, hi, rfl⟩ := List.mem_map.1 hx
        rcases List.mem_cons.1 hc with rfl | hc
        · exact .inl (by decide)
        · unfold Item.text at hc
          rw [(h2 i hi).2, List.append_nil] at hc
          rcases List.mem_append.1 hc with hc | hc
          · exact .inr (gap_loose (h2 i hi).1 c hc)
          · exact .inl (fieldName_val (hitem i hi) hc).1
    · rw [joinColon_flatMap]
      intro c hc
      have hne := (hn n (by simp)).1
      cases n with
      | nil => exact absurd rfl hne
      | cons a r =>
        simp at hc; subst hc
        exact (fieldName_val (hn (a :: r) (List.mem_cons_self ..)) (List.mem_cons_self ..)).1
    · have key : ∀ (l : List Item) (x : Bytes), IsFieldName x → (∀ i ∈ l, IsFieldName i.val ∧ i.post = []) →
          ∀ c ∈ (joinColon (x :: l.map Item.text)).getLast?, IsValByte c := by
        intro l
        induction l with
        | nil =>
          intro x hx _ c hc
          exact (fieldName_val hx (List.mem_of_getLast? hc)).1
        | cons i l ih =>
          intro x hx hl c hc
          rw [List.map_cons, joinColon, List.getLast?_append, List.getLast?_cons] at hc
          simp only [Option.some_or, Option.mem_some_iff] at hc
          obtain ⟨hi, hp⟩ := hl i (by simp)
          have hj : (joinColon (i.text :: l.map Item.text)).getLast? =
              (joinColon (i.val :: l.map Item.text)).getLast? := by
            rw [joinColon_flatMap, joinColon_flatMap]
            unfold Item.text
            rw [hp, List.append_nil, List.append_assoc, List.getLast?_append]
            cases hx : (i.val ++ List.flatMap (fun x => COLON :: x) (List.map (fun i => i.pre ++ i.val ++ i.post) l)).getLast? with
            | none =>
              rw [List.getLast?_eq_none_iff] at hx
              have := hi.1
              simp [this] at hx
            | some y => rfl
          rw [hj] at hc
          have ih2 := ih i.val hi (fun j hj => hl j (by simp [hj]))
          cases hg : (joinColon (i.val :: l.map Item.text)).getLast? with
          | none =>
            rw [List.getLast?_eq_none_iff, joinColon_flatMap] at hg
            simp [hi.1] at hg
          | some y =>
            rw [hg] at hc
            simp at hc
            subst hc
            exact ih2 _ hg
      exact key items n (hn n (by simp)) (fun i hi => ⟨hitem i hi, (h2 i hi).2⟩)
  · have := C10_values_back (⟨[], n, []⟩ :: items) (by
      intro i hi
      rcases List.mem_cons.1 hi with rfl | hi
      · exact ⟨.nil, fieldName_clean (hn n (by simp)), .nil⟩
      · refine ⟨?_, fieldName_clean (hitem i hi), ?_⟩
        · rcases (h2 i hi).1 with h | h <;> rw [h]
          · exact .nil
          · exact foldWS_run
        · rw [(h2 i hi).2]; exact .nil)
    simpa [Item.text, h1] using this

/-- The b= value: a tag value which is the base64 text after removing white space. -/
theorem bValue (c : Bytes) (cs : List Bytes) (x : Bytes) (h : (c :: cs).flatten = b64Encode x)
    (hcs : ∀ y ∈ cs, y ≠ []) (hc : b64Encode x ≠ [] → c ≠ []) :
    IsTagValue (joinLines (c :: cs.map (b!"\t " ++ ·))) ∧
      stripSpace (joinLines (c :: cs.map (b!"\t " ++ ·))) = b64Encode x ∧
      (b64Encode x ≠ [] → joinLines (c :: cs.map (b!"\t " ++ ·)) ≠ []) := by
  have hv : ∀ y ∈ c :: cs, ∀ b ∈ y, IsValByte b := by
    intro y hy b hb
    exact b64_val (x := x) (by rw [← h]; exact List.mem_flatten.2 ⟨y, hy, hb⟩)
  have all : ∀ (l : List Bytes) (y : Bytes), (∀ z ∈ y :: l, ∀ b ∈ z, IsValByte b) → (∀ z ∈ l, z ≠ []) →
      (∀ b ∈ joinLines (y :: l.map (b!"\t " ++ ·)), IsValByte b ∨ isLoose b = true) ∧
      stripSpace (joinLines (y :: l.map (b!"\t " ++ ·))) = (y :: l).flatten ∧
      (∀ b ∈ (joinLines (y :: l.map (b!"\t " ++ ·))).getLast?, IsValByte b) := by
    intro l
    induction l with
    | nil =>
      intro y hy _
      refine ⟨fun b hb => .inl (hy y (by simp) b hb), ?_, fun b hb => hy y (by simp) b (List.mem_of_getLast? hb)⟩
      simp only [List.map_nil, joinLines, List.flatten_cons, List.flatten_nil, List.append_nil]
      unfold stripSpace
      rw [List.filter_eq_self]
      intro b hb
      rw [val_not_space (hy y (by simp) b hb)]; rfl
    | cons z l ih =>
      intro y hy hl
      have e : joinLines (y :: (z :: l).map (b!"\t " ++ ·)) = y ++ b!"\r\n\t " ++ joinLines (z :: l.map (b!"\t " ++ ·)) := by
        cases l with
        | nil => simp [joinLines, CRLF, CR, LF]
        | cons w l => simp [joinLines, CRLF, CR, LF]
      obtain ⟨i1, i2, i3⟩ := ih z (fun w hw => hy w (by simp at hw ⊢; right; exact hw)) (fun w hw => hl w (by simp [hw]))
      rw [e]
      refine ⟨?_, ?_, ?_⟩
      · intro b hb
        rcases List.mem_append.1 hb with hb | hb
        · rcases List.mem_append.1 hb with hb | hb
          · exact .inl (hy y (by simp) b hb)
          · right; exact foldWS_loose b hb
        · exact i1 b hb
      · unfold stripSpace at i2 ⊢
        rw [List.filter_append, List.filter_append, i2]
        have : y.filter (fun c => !isSpace c) = y := by
          rw [List.filter_eq_self]
          intro b hb
          rw [val_not_space (hy y (by simp) b hb)]; rfl
        rw [this]
        have h4 : (b!"\r\n\t ").filter (fun c => !isSpace c) = [] := by decide
        rw [h4]
        simp
      · intro b hb
        rw [List.getLast?_append] at hb
        cases hg : (joinLines (z :: l.map (b!"\t " ++ ·))).getLast? with
        | none =>
          rw [List.getLast?_eq_none_iff] at hg
          rw [hg] at i2
          have : z = [] := by
            simp only [stripSpace, List.filter_nil, List.flatten_cons] at i2
            exact (List.append_eq_nil_iff.1 i2.symm).1
          exact absurd this (hl z (by simp))
        | some w =>
          rw [hg] at hb
          simp at hb
          subst hb
          exact i3 _ hg
  obtain ⟨a1, a2, a3⟩ := all cs c hv hcs
  refine ⟨⟨a1, ?_, a3⟩, by rw [a2, h], ?_⟩
  · intro b hb
    cases c with
    | nil =>
      have hxe : b64Encode x = [] := Classical.byContradiction (fun hx => hc hx rfl)
      rw [hxe] at h
      have : cs = [] := by
        cases cs with
        | nil => rfl
        | cons y ys =>
          simp at h
          exact absurd h.1 (hcs y (by simp))
      subst this
      simp [joinLines] at hb
    | cons d r =>
      have : (joinLines ((d :: r) :: cs.map (b!"\t " ++ ·))).head? = some d := by
        cases cs <;> rfl
      rw [this] at hb
      simp at hb
      subst hb
      exact hv (d :: r) (List.mem_cons_self ..) _ (List.mem_cons_self ..)
  · intro hx hj
    rw [hj] at a2
    rw [h] at a2
    exact hx a2.symm

/-- The tags of a generated field: `tag name = some value` when present. -/
structure Spec.GenTags (o : Options E) (s : SigOpts E) (now : Int) (names : List Bytes) (bh sgn : Bytes)
    (tag : Bytes → Option Bytes) : Prop where
  version : o.arcInstance = 0 → tag b!"v" = some b!"1"
  instance_ : o.arcInstance ≠ 0 → tag b!"i" = some (fmtLu o.arcInstance)
  algorithm : tag b!"a" = some (algText o.first.alg o.digest)
  canon : tag b!"c" = some (o.canonHead.text ++ b!"/" ++ o.canonBody.text)
  time : tag b!"t" = if o.timestampSign then some (fmtLu (sigTimestamp o now)) else none
  expires : tag b!"x" = if o.expirationSign then some (fmtLu (expOf o now)) else none
  domain : tag b!"d" = some s.domain
  selector : tag b!"s" = some s.selector
  identity : o.arcInstance = 0 → tag b!"i" = if o.identity.isEmpty then none else some (qpEncode o.identity)
  length : tag b!"l" = if o.bodySignLength then some (fmtLu o.bodyLength) else none
  headers : ∃ hv, tag b!"h" = some hv ∧ valueList hv = .ok names
  bodyHash : tag b!"bh" = some (b64Encode bh)
  signature : ∃ bv, tag b!"b" = some bv ∧ stripSpace bv = b64Encode sgn
  query : tag b!"q" = none

theorem lookup_map (es : List (Bytes × TagEntry)) (n : Bytes) :
    tagVal es n = (es.map (fun e => (e.1, e.2.value))).lookup n := by
  unfold tagVal
  induction es with
  | nil => rfl
  | cons e es ih =>
    obtain ⟨m, t⟩ := e
    simp only [List.lookup_cons, List.map_cons]
    cases n == m with
    | true => rfl
    | false => exact ih

theorem genItems_wf (o : Options E) (s : SigOpts E) (now : Int) (gap hv bh : Bytes) (hgap : gap = [] ∨ gap = foldWS)
    (hhv : IsTagValue hv) (hd : ∀ c ∈ s.domain, IsValByte c) (hs : ∀ c ∈ s.selector, IsValByte c) :
    ∀ i ∈ genItems o s now gap hv bh, i.WF := by
  have sp : AllLoose b!" " := by unfold AllLoose; decide
  have nl : AllLoose b!"\r\n\t" := by unfold AllLoose; decide
  have no : AllLoose [] := by intro c hc; simp at hc
  have nm : ∀ n : Bytes, n ∈ [b!"i", b!"v", b!"a", b!"c", b!"t", b!"x", b!"d", b!"s", b!"l", b!"h", b!"bh"] → IsTagName n := by
    unfold IsTagName; decide
  have dg : ∀ v : Int, IsTagValue (fmtLu v) := fun v => tagValue_plain (fun c hc => digit_val ((fmtLu_digits v).2 c hc))
  unfold genItems
  intro i hi
  simp only [List.mem_cons, List.mem_append, List.not_mem_nil, or_false] at hi
  rcases hi with hi | hi | hi | hi | hi | hi | hi | hi | hi | hi | hi
  · split at hi <;> subst hi
    · exact wf_mkItem sp (nm _ (by simp)) no (dg _)
    · exact wf_mkItem sp (nm _ (by simp)) no (tagValue_plain (by decide))
  · subst hi; exact wf_mkItem sp (nm _ (by simp)) no (tagValue_plain (algText_val _ _))
  · subst hi; exact wf_mkItem sp (nm _ (by simp)) no (tagValue_plain (canonText_val _ _))
  · split at hi
    · simp only [List.mem_singleton] at hi; subst hi; exact wf_mkItem sp (nm _ (by simp)) no (dg _)
    · simp at hi
  · split at hi
    · simp only [List.mem_singleton] at hi; subst hi; exact wf_mkItem sp (nm _ (by simp)) no (dg _)
    · simp at hi
  · subst hi; exact wf_mkItem nl (nm _ (by simp)) no (tagValue_plain hd)
  · subst hi; exact wf_mkItem sp (nm _ (by simp)) no (tagValue_plain hs)
  · split at hi
    · simp at hi
    · simp only [List.mem_singleton] at hi; subst hi
      exact wf_mkItem sp (nm _ (by simp)) no (tagValue_plain (fun c hc => C17_safe_bytes _ c hc))
  · split at hi
    · simp only [List.mem_singleton] at hi; subst hi; exact wf_mkItem sp (nm _ (by simp)) no (dg _)
    · simp at hi
  · subst hi; exact wf_mkItem nl (nm _ (by simp)) (gap_loose hgap) hhv
  · subst hi; exact wf_mkItem nl (nm _ (by simp)) no (tagValue_plain (fun c hc => b64_val hc))

/-- The names and values of the tags of a generated field. -/
def genPairs (arc : Bool) (v0 a c : Bytes) (t x : Option Bytes) (d s : Bytes) (i l : Option Bytes)
    (h bh b : Bytes) : List (Bytes × Bytes) :=
  ((if arc then b!"i" else b!"v"), v0) :: (b!"a", a) :: (b!"c", c) ::
    (t.toList.map (fun y => (b!"t", y)) ++ (x.toList.map (fun y => (b!"x", y)) ++ ((b!"d", d) :: (b!"s", s) ::
      (i.toList.map (fun y => (b!"i", y)) ++ (l.toList.map (fun y => (b!"l", y)) ++ [(b!"h", h), (b!"bh", bh), (b!"b", b)])))))

theorem genPairs_nodup (arc : Bool) (v0 a c : Bytes) (t x : Option Bytes) (d s : Bytes) (i l : Option Bytes)
    (h bh b : Bytes) (ha : arc = true → i = none) : ((genPairs arc v0 a c t x d s i l h bh b).map Prod.fst).Nodup := by
  unfold genPairs
  cases arc with
  | true =>
    rw [ha rfl]
    cases t <;> cases x <;> cases l <;> simp
  | false => cases t <;> cases x <;> cases l <;> cases i <;> simp

theorem genPairs_fixed (arc : Bool) (v0 a c : Bytes) (t x : Option Bytes) (d s : Bytes) (i l : Option Bytes)
    (h bh b : Bytes) :
    (genPairs arc v0 a c t x d s i l h bh b).lookup b!"a" = some a ∧
    (genPairs arc v0 a c t x d s i l h bh b).lookup b!"c" = some c ∧
    (genPairs arc v0 a c t x d s i l h bh b).lookup b!"t" = t ∧
    (genPairs arc v0 a c t x d s i l h bh b).lookup b!"x" = x ∧
    (genPairs arc v0 a c t x d s i l h bh b).lookup b!"d" = some d ∧
    (genPairs arc v0 a c t x d s i l h bh b).lookup b!"s" = some s ∧
    (genPairs arc v0 a c t x d s i l h bh b).lookup b!"l" = l ∧
    (genPairs arc v0 a c t x d s i l h bh b).lookup b!"h" = some h ∧
    (genPairs arc v0 a c t x d s i l h bh b).lookup b!"bh" = some bh ∧
    (genPairs arc v0 a c t x d s i l h bh b).lookup b!"b" = some b ∧
    (genPairs arc v0 a c t x d s i l h bh b).lookup b!"q" = none ∧
    (genPairs false v0 a c t x d s i l h bh b).lookup b!"v" = some v0 ∧
    (genPairs false v0 a c t x d s i l h bh b).lookup b!"i" = i ∧
    (genPairs true v0 a c t x d s i l h bh b).lookup b!"i" = some v0 := by
  unfold genPairs
  cases arc <;> cases t <;> cases x <;> cases l <;> cases i <;>
    exact ⟨rfl, rfl, rfl, rfl, rfl, rfl, rfl, rfl, rfl, rfl, rfl, rfl, rfl, rfl⟩

theorem genItems_pairs (o : Options E) (s : SigOpts E) (now : Int) (gap hv bh bv : Bytes) :
    ((genItems o s now gap hv bh) ++ [mkItem b!"\r\n\t" b!"b" bv]).map (fun i => (i.name, i.value)) =
      genPairs (decide (o.arcInstance ≠ 0)) (if o.arcInstance ≠ 0 then fmtLu o.arcInstance else b!"1")
        (algText o.first.alg o.digest) (o.canonHead.text ++ b!"/" ++ o.canonBody.text)
        (if o.timestampSign then some (fmtLu (sigTimestamp o now)) else none)
        (if o.expirationSign then some (fmtLu (expOf o now)) else none) s.domain s.selector
        (if o.identity.isEmpty then none else some (qpEncode o.identity))
        (if o.bodySignLength then some (fmtLu o.bodyLength) else none) hv (b64Encode bh) bv := by
  unfold genItems genPairs
  by_cases ha : o.arcInstance ≠ 0
  · rw [if_pos ha, if_pos ha, if_pos (decide_eq_true ha)]
    cases o.timestampSign <;> cases o.expirationSign <;> cases o.bodySignLength <;> cases o.identity.isEmpty <;> rfl
  · rw [if_neg ha, if_neg ha, if_neg (show ¬ decide (o.arcInstance ≠ 0) = true by rw [decide_eq_true_eq]; exact ha)]
    cases o.timestampSign <;> cases o.expirationSign <;> cases o.bodySignLength <;> cases o.identity.isEmpty <;> rfl

/-- The text before the value of b=, after the field name's colon. -/
def genBefore (o : Options E) (s : SigOpts E) (now : Int) (gap hv bh : Bytes) : Bytes :=
  (genItems o s now gap hv bh).flatMap (fun i => i.text ++ [SEMI]) ++ b!"\r\n\tb="

theorem genTags_of (o : Options E) (s : SigOpts E) (now : Int) (names : List Bytes) (hv bh bv sgn : Bytes)
    (tag : Bytes → Option Bytes) (v2 : valueList hv = .ok names) (b2 : stripSpace bv = b64Encode sgn)
    (hl : ∀ x, tag x = (genPairs (decide (o.arcInstance ≠ 0)) (if o.arcInstance ≠ 0 then fmtLu o.arcInstance else b!"1")
        (algText o.first.alg o.digest) (o.canonHead.text ++ b!"/" ++ o.canonBody.text)
        (if o.timestampSign then some (fmtLu (sigTimestamp o now)) else none)
        (if o.expirationSign then some (fmtLu (expOf o now)) else none) s.domain s.selector
        (if o.identity.isEmpty then none else some (qpEncode o.identity))
        (if o.bodySignLength then some (fmtLu o.bodyLength) else none) hv (b64Encode bh) bv).lookup x) :
    GenTags o s now names bh sgn tag := by
  have hf := genPairs_fixed (decide (o.arcInstance ≠ 0)) (if o.arcInstance ≠ 0 then fmtLu o.arcInstance else b!"1")
    (algText o.first.alg o.digest) (o.canonHead.text ++ b!"/" ++ o.canonBody.text)
    (if o.timestampSign then some (fmtLu (sigTimestamp o now)) else none)
    (if o.expirationSign then some (fmtLu (expOf o now)) else none) s.domain s.selector
    (if o.identity.isEmpty then none else some (qpEncode o.identity))
    (if o.bodySignLength then some (fmtLu o.bodyLength) else none) hv (b64Encode bh) bv
  obtain ⟨f1, f2, f3, f4, f5, f6, f7, f8, f9, f10, f11, f12, f13, f14⟩ := hf
  refine ⟨?_, ?_, (hl _).trans f1, (hl _).trans f2, (hl _).trans f3, (hl _).trans f4, (hl _).trans f5, (hl _).trans f6,
    ?_, (hl _).trans f7, ⟨hv, (hl _).trans f8, v2⟩, (hl _).trans f9, ⟨bv, (hl _).trans f10, b2⟩, (hl _).trans f11⟩
  · intro ha
    have e : decide (o.arcInstance ≠ 0) = false := by simp [ha]
    rw [hl, e, f12, if_neg (by simp [ha])]
  · intro ha
    have e : decide (o.arcInstance ≠ 0) = true := by simp [ha]
    rw [hl, e, f14, if_pos ha]
  · intro ha
    have e : decide (o.arcInstance ≠ 0) = false := by simp [ha]
    rw [hl, e, f13]

theorem tags_of_parts (o : Options E) (s : SigOpts E) (now : Int) (names : List Bytes) (gap hv bh bv sgn : Bytes)
    (k3 : gap = [] ∨ gap = foldWS) (v1 : IsTagValue hv) (v2 : valueList hv = .ok names) (b1 : IsTagValue bv)
    (b2 : stripSpace bv = b64Encode sgn)
    (hd : ∀ c ∈ s.domain, IsValByte c) (hs : ∀ c ∈ s.selector, IsValByte c)
    (harc : o.arcInstance ≠ 0 → o.identity = []) :
    ∃ es, TagText 0 (genBefore o s now gap hv bh ++ bv) es ∧ (es.map Prod.fst).Nodup ∧
      GenTags o s now names bh sgn (tagVal es) ∧
      (bv ≠ [] → (b!"b", (⟨bv, (genBefore o s now gap hv bh).length⟩ : TagEntry)) ∈ es) := by
  have hwf := genItems_wf o s now gap hv bh k3 v1 hd hs
  have hlast : (mkItem b!"\r\n\t" b!"b" bv).WF := wf_mkItem (by unfold AllLoose; decide) (by unfold IsTagName; decide)
    (by intro c hc; simp at hc) b1
  obtain ⟨es, e1, e2, e3⟩ := tagText_build (genItems o s now gap hv bh) hwf _ hlast 0
  have etxt : (genItems o s now gap hv bh).flatMap (fun i => i.text ++ [SEMI]) ++ (mkItem b!"\r\n\t" b!"b" bv).text =
      genBefore o s now gap hv bh ++ bv := by
    simp [genBefore, mkItem, TagItem.text, TagItem.lead, EQ]
  rw [etxt] at e1
  have hnames : es.map Prod.fst = (es.map (fun e => (e.1, e.2.value))).map Prod.fst := by
    rw [List.map_map]; rfl
  refine ⟨es, e1, ?_, ?_, ?_⟩
  · rw [hnames, e2, genItems_pairs]
    apply genPairs_nodup
    intro ha
    rw [harc (of_decide_eq_true ha)]; rfl
  · refine genTags_of o s now names hv bh bv sgn _ v2 b2 ?_
    intro x
    rw [lookup_map, e2, genItems_pairs]
  · intro hx
    have := e3 hx
    have el : (genBefore o s now gap hv bh).length =
        0 + ((genItems o s now gap hv bh).flatMap (fun i => i.text ++ [SEMI])).length +
          (mkItem b!"\r\n\t" b!"b" bv).lead.length := by
      simp [genBefore, mkItem, TagItem.lead]
    rw [el]
    exact this

theorem b64Encode_ne {x : Bytes} (hx : x ≠ []) : b64Encode x ≠ [] := by
  intro he
  have := C18_length x
  rw [he] at this
  cases x with
  | nil => exact hx rfl
  | cons a r => simp at this; omega

/-- The generated field is a tag list with exactly the intended tags; b= comes last and
`sigFieldName o ++ COLON :: before` is the field without its value. -/
theorem oneSignature_tags {o : Options E} {s : SigOpts E} {now : Int} {hashed bh t : Bytes} {names : List Bytes}
    (h : oneSignature E o s now hashed names bh = .ok t) (hne : names ≠ []) (hn : ∀ n ∈ names, IsFieldName n)
    (hd : ∀ c ∈ s.domain, IsValByte c) (hs : ∀ c ∈ s.selector, IsValByte c)
    (harc : o.arcInstance ≠ 0 → o.identity = []) :
    ∃ before bv t2 sgn es, filterHeader o.canonHead (sigFieldName o ++ COLON :: before) = .ok t2 ∧
      signDigest E s o.digest (E.hash o.digest (hashed ++ t2)) = .ok sgn ∧
      t = sigFieldName o ++ COLON :: (before ++ bv) ∧ TagText 0 (before ++ bv) es ∧ (es.map Prod.fst).Nodup ∧
      GenTags o s now names bh sgn (tagVal es) ∧ stripSpace bv = b64Encode sgn ∧
      (o.expirationSign = true → sigExpiration o now = .ok (expOf o now)) ∧
      (sgn ≠ [] → bv ≠ [] ∧ (b!"b", (⟨bv, before.length⟩ : TagEntry)) ∈ es) := by
  obtain ⟨times, text, t2, sgn, c, cs, h1, h2, h3, h4, h5, h6, h7, h8, h9⟩ := oneSignature_ok h
  obtain ⟨n, ns, rfl⟩ := List.exists_cons_of_ne_nil hne
  obtain ⟨gap, items, k1, k2, k3, k4⟩ := foldH_first b!"\th=" n ns
  obtain ⟨v1, v2⟩ := hValue n ns items hn k1 k2
  obtain ⟨b1, b2, b3⟩ := bValue c cs sgn h5 (fun y hy => (h7 y hy).1) h8
  have htext := text_items o s now gap _ bh times (n :: ns) k4 h1
  rw [← h2] at htext
  obtain ⟨es, e1, e2, e3, e4⟩ := tags_of_parts o s now (n :: ns) gap _ bh _ sgn k3 v1 v2 b1 b2 hd hs harc
  refine ⟨_, _, t2, sgn, es, htext ▸ h3, h4, ?_, e1, e2, e3, b2, (sigTimes_eq h1).2, ?_⟩
  · rw [h9, htext, List.append_assoc, List.cons_append]; rfl
  · intro hx
    exact ⟨b3 (b64Encode_ne hx), e4 (b3 (b64Encode_ne hx))⟩

end Dkim
