import Verif.Model.VerifySteps
import Verif.Props.Steps
import Verif.Props.Sizes
import Verif.Props.MailSteps
import Verif.Props.Verdict
/-!
# C93: the work of a verification
-/

namespace Dkim
open Spec

/-- Bytes that may still have to be put out: the line ends and the space held back. -/
def held (st : BodySt) : Nat := 2 * st.lines + (if st.pending then 1 else 0)

theorem bodyByte_held (mode : CanonMode) (st : BodySt) (c : Byte) :
    (bodyByte mode st c).2.length + held (bodyByte mode st c).1 ≤ held st + 2 := by
  unfold bodyByte held
  split
  · simp
  · split
    · simp; omega
    · split
      · simp
        split <;> omega
      · have : ∀ n, (List.replicate n CRLF).flatten.length = 2 * n := by
          intro n
          induction n with
          | zero => rfl
          | succ n ih => rw [List.replicate_succ, List.flatten_cons, List.length_append, ih]; simp [CRLF]; omega
        simp only [List.length_append, this]
        cases st.pending <;> simp

theorem bodyBlock_held (mode : CanonMode) : ∀ (block : Bytes) (st : BodySt),
    (bodyBlock mode st block).2.length + held (bodyBlock mode st block).1 ≤ held st + 2 * block.length
  | [], st => by simp [bodyBlock]
  | c :: r, st => by
    have h1 := bodyByte_held mode st c
    have h2 := bodyBlock_held mode r (bodyByte mode st c).1
    unfold bodyBlock
    simp only [List.length_append, List.length_cons]
    omega

theorem bodyLoopSteps_le (blk : Nat) (hb : 0 < blk) (mode : CanonMode) (limit : Bool) : ∀ (n : Nat) (s : IStream) (a : BodyAcc),
    bodyLoopSteps blk mode limit n s a ≤ 2 + 4 * (s.data.drop s.pos).length + held a.st
  | 0, _, _ => by unfold bodyLoopSteps; omega
  | n + 1, s, a => by
    unfold bodyLoopSteps
    split
    · omega
    · rename_i hg
      split
      · omega
      · have hblk := bodyBlock_held mode (s.read blk).1 a.st
        have ih : ∀ b : BodyAcc, b.st = (bodyBlock mode a.st (s.read blk).1).1 → _ := fun b hb' => by
          have := bodyLoopSteps_le blk hb mode limit n (s.read blk).2 b
          rw [hb'] at this
          exact this
        have hz : ∀ (m : Nat) (t : IStream) (b : BodyAcc), t.good = false → bodyLoopSteps blk mode limit m t b ≤ 1 := by
          intro m t b ht
          cases m with
          | zero => unfold bodyLoopSteps; omega
          | succ m =>
            unfold bodyLoopSteps
            rw [if_pos (by rw [ht]; rfl)]
            omega
        dsimp only
        generalize hacc : ({ ({ a with st := (bodyBlock mode a.st (s.read blk).1).1 } : BodyAcc).emit limit (bodyBlock mode a.st (s.read blk).1).2 with
            empty := (({ a with st := (bodyBlock mode a.st (s.read blk).1).1 } : BodyAcc).emit limit (bodyBlock mode a.st (s.read blk).1).2).empty &&
              (bodyBlock mode a.st (s.read blk).1).2.isEmpty } : BodyAcc) = b
        have hb' : b.st = (bodyBlock mode a.st (s.read blk).1).1 := by
          rw [← hacc]
          dsimp only
          unfold BodyAcc.emit
          split <;> rfl
        have ih' := ih b hb'
        by_cases hr : blk ≤ (s.data.drop s.pos).length
        · have e : s.read blk = ((s.data.drop s.pos).take blk, { s with pos := s.pos + blk }) := by
            unfold IStream.read
            rw [if_neg hg]
            dsimp only
            rw [if_pos hr]
          rw [e] at ih' hblk ⊢
          have hl : ((s.data.drop s.pos).take blk).length = blk := by rw [List.length_take]; omega
          have hd : (s.data.drop (s.pos + blk)).length = (s.data.drop s.pos).length - blk := by simp only [List.length_drop]; omega
          simp only at ih' hblk ⊢
          rw [hd] at ih'
          rw [hl] at hblk ⊢
          generalize (s.data.drop s.pos).length = N at *
          omega
        · have e : s.read blk = (s.data.drop s.pos, { s with pos := s.pos + (s.data.drop s.pos).length, eof := true, fail := true }) := by
            unfold IStream.read
            rw [if_neg hg]
            dsimp only
            rw [if_neg hr]
          rw [e] at hblk ⊢
          have := hz n { s with pos := s.pos + (s.data.drop s.pos).length, eof := true, fail := true } b rfl
          simp only at hblk ⊢
          generalize (s.data.drop s.pos).length = N at *
          omega

theorem canonBodySteps_le (s : IStream) (mode : CanonMode) (off : Int) (limit : Bool) (size : Nat) :
    canonBodySteps s mode off limit size ≤ 4 * s.data.length + 4 := by
  unfold canonBodySteps
  split
  · have := bodyLoopSteps_le 8096 (by omega) mode limit (s.data.length + 2) (s.clear.seekg off) { size := size }
    have hd : (s.clear.seekg off).data = s.data := by
      unfold IStream.seekg IStream.clear
      dsimp only
      split
      · rfl
      · split <;> rfl
    have hl : ((s.clear.seekg off).data.drop (s.clear.seekg off).pos).length ≤ s.data.length := by
      rw [List.length_drop, hd]; omega
    have hh : held ({ size := size } : BodyAcc).st = 0 := rfl
    omega
  · omega

/-! ## The signed fields -/

/-- Steps of the canonicalization of a field, with the bytes hashed. -/
def fieldSteps (lr : Bool) (mode : CanonMode) (f : Header) : Nat :=
  (Steps.filterHeader lr mode f.header).2 + match filterHeader mode f.header with | .error _ => 0 | .ok t => t.length + 2

theorem headLoopSteps_sum (lr : Bool) (mode : CanonMode) (rev : Bytes → List Header) (names : List Bytes) : ∀ cnt : Bytes → Nat,
    headLoopSteps lr mode (fun k => ((rev k).drop (cnt k)).reverse) names ≤
      (names.map (fun n => n.length + 1)).sum + ((selectAux rev cnt names).map (fieldSteps lr mode)).sum := by
  induction names with
  | nil => intro cnt; unfold headLoopSteps; omega
  | cons n ns ih =>
    intro cnt
    unfold headLoopSteps selectAux
    simp only
    rw [reverse_drop_getLast?]
    cases hg : (rev (lower n))[cnt (lower n)]? with
    | none =>
      simp only [Option.toList_none, List.nil_append]
      have := ih (bump cnt (lower n))
      have e : (fun k => ((rev k).drop (cnt k)).reverse) = fun k => ((rev k).drop (bump cnt (lower n) k)).reverse := by
        funext k
        unfold bump
        split
        · rename_i e
          subst e
          rw [List.getElem?_eq_none_iff] at hg
          rw [List.drop_eq_nil_of_le hg, List.drop_eq_nil_of_le (by omega)]
        · rfl
      rw [e, List.map_cons, List.sum_cons]
      omega
    | some h =>
      have hput : HeaderCache.put (fun k => ((rev k).drop (cnt k)).reverse) (lower n)
          (((rev (lower n)).drop (cnt (lower n))).reverse).dropLast =
          fun k => ((rev k).drop (bump cnt (lower n) k)).reverse := by
        funext k
        unfold HeaderCache.put bump
        split
        · rename_i e
          subst e
          rw [reverse_drop_dropLast]
        · rfl
      simp only [Option.toList_some, List.cons_append, List.nil_append, List.map_cons, List.sum_cons]
      rw [hput]
      have := ih (bump cnt (lower n))
      unfold fieldSteps at *
      cases filterHeader mode h.header with
      | error e => simp only at *; omega
      | ok t => simp only at *; omega

theorem headLoopSteps_le (lr : Bool) (mode : CanonMode) (hs : List Header) (names : List Bytes) :
    headLoopSteps lr mode (HeaderCache.fill hs) names ≤
      (names.map (fun n => n.length + 1)).sum + (hs.map (fieldSteps lr mode)).sum := by
  have h1 := headLoopSteps_sum lr mode (fun k => (byKey hs k).reverse) names (fun _ => 0)
  have h2 := sum_subperm (selected_subperm hs names) (fieldSteps lr mode)
  rw [selected_eq] at h2
  have e : HeaderCache.fill hs = fun k => (((byKey hs k).reverse).drop 0).reverse := by
    rw [fill_eq]; funext k; simp
  rw [e]
  omega

theorem filterHeader_length {mode : CanonMode} {s c : Bytes} (hw : WellFolded s) (h : filterHeader mode s = .ok c) : c.length ≤ s.length :=
  canonField_length ((canonField_iff hw).2 h)

theorem folds_of_well {s : Bytes} (h : WellFolded s) : FoldsOnly s := by
  intro x y hxy
  exact (h (x ++ [CR]) y (by rw [hxy]; simp [CRLF])).2

theorem fieldSteps_le (lr : Bool) (mode : CanonMode) (f : Header) (h : WellFolded f.header) :
    fieldSteps lr mode f ≤ 18 * (f.header.length + 2) := by
  have h1 := (C85_folded toyEnv lr mode _ (folds_of_well h)).2.1
  unfold fieldSteps
  split
  · omega
  · rename_i t ht
    have := filterHeader_length h ht
    show (Steps.filterHeader lr mode f.header).2 + (List.length t + 2) ≤ _
    omega

theorem sum_le {α : Type} {f g : α → Nat} {l : List α} (h : ∀ x ∈ l, f x ≤ g x) : (l.map f).sum ≤ (l.map g).sum := by
  induction l with
  | nil => simp
  | cons a l ih =>
    have := h a (by simp)
    have := ih (fun x hx => h x (by simp [hx]))
    simp; omega

theorem sum_mul {α : Type} (c : Nat) (f : α → Nat) (l : List α) : (l.map (fun x => c * f x)).sum = c * (l.map f).sum := by
  induction l with
  | nil => simp
  | cons a l ih => simp [Nat.mul_add, ih]

/-! ## Parsing the signature field -/

theorem name_length {d : Bytes} {m : Message} {s : IStream} (h : Message.parseAll {} (freshStream d) = .ok (m, s))
    {f : Header} (hf : f ∈ m.headers) : f.name.length ≤ f.header.length := by
  obtain ⟨_, _, h1, h2, _⟩ := C22_fields d m s h f hf
  by_cases hc : COLON ∈ f.header
  · obtain ⟨e, _, _⟩ := h1 hc
    rw [e]
    have : (fieldName f.header).length ≤ f.header.length := by
      unfold fieldName; exact (List.takeWhile_prefix _).length_le
    have h3 : (trimWSP (fieldName f.header)).length ≤ (fieldName f.header).length := by
      unfold trimWSP
      have a := (List.dropWhile_suffix (p := Spec.isWSP) (l := fieldName f.header)).length_le
      have b := (List.dropWhile_suffix (p := Spec.isWSP) (l := ((fieldName f.header).dropWhile Spec.isWSP).reverse)).length_le
      rw [List.length_reverse] at *
      omega
    omega
  · rw [(h2 hc).1]; simp

theorem parseSteps_le (lr : Bool) {d : Bytes} {m : Message} {s : IStream} (h : Message.parseAll {} (freshStream d) = .ok (m, s))
    {f : Header} (hf : f ∈ m.headers) : Signature.parseSteps lr f ≤ 119 * f.header.length + 109 := by
  have hn := name_length h hf
  have ht := (C85_linear toyEnv lr false (f.header.drop f.valueOffset) []).1
  have hd : (f.header.drop f.valueOffset).length ≤ f.header.length := by rw [List.length_drop]; omega
  unfold Signature.parseSteps
  split
  · omega
  · rename_i tags htags
    have h1 := C73_tags _ _ htags
    have h2 : (tags.map (fun e => e.2.value.length)).sum ≤ (tags.map (fun e => e.1.length + e.2.value.length + 2)).sum :=
      sum_le (fun x _ => by omega)
    have h3 : tagSteps tags b!"h" (fun v => (Steps.valueList lr v).2) ≤ 34 * (f.header.length + 1) := by
      unfold tagSteps
      split
      · omega
      · rename_i t hg
        exact (C85_fields lr .simple d m s h f hf).2 tags _ t htags hg
    have h4 : tagSteps tags b!"i" (fun v => (Steps.qpDecode lr v false).2) ≤ 25 * f.header.length + 26 := by
      unfold tagSteps
      split
      · omega
      · rename_i t hg
        have a := (C85_linear toyEnv lr false t.value []).2.1
        have b := Steps.value_length htags hg
        dsimp only
        omega
    show _ + (_ + tagSteps tags b!"h" (fun v => (Steps.valueList lr v).2) + tagSteps tags b!"i" (fun v => (Steps.qpDecode lr v false).2)) ≤ _
    omega

theorem sigs_eq {d : Bytes} {type : ValidatorType} {v : Validatory} (hv : Validatory.mk' (freshStream d) type = .ok v) :
    v.sigs = v.msg.headers.filter (isSigHeader type) := by
  obtain ⟨_, s', hpar, _⟩ := mk'_built d type v hv
  unfold Validatory.mk' at hv
  rw [hpar] at hv
  simp only [Except.ok.injEq] at hv
  rw [← hv]

theorem sum_sublist {α : Type} {l m : List α} (h : l.Sublist m) (f : α → Nat) : (l.map f).sum ≤ (m.map f).sum := by
  induction h with
  | slnil => exact Nat.le_refl _
  | cons a _ ih => simp; omega
  | cons_cons a _ ih => simp; omega

theorem header_length {d : Bytes} {type : ValidatorType} {v : Validatory} (hv : Validatory.mk' (freshStream d) type = .ok v)
    {f : Header} (hf : f ∈ v.sigs) : f.header.length + 1 ≤ 2 * d.length := by
  obtain ⟨_, s', hpar, _⟩ := mk'_built d type v hv
  rw [sigs_eq hv] at hf
  have h1 := fields_total hpar
  have h2 := sum_sublist (List.singleton_sublist.2 (List.mem_filter.1 hf).1) (fun f : Header => f.header.length + 2)
  simp only [List.map_cons, List.map_nil, List.sum_cons, List.sum_nil] at h2
  omega

/-! ## One signature -/

theorem checkSignatureSteps_le {E : Env} (lr : Bool) {d : Bytes} {type : ValidatorType} {v : Validatory}
    (hv : Validatory.mk' (freshStream d) type = .ok v) {f : Header} (hf : f ∈ v.sigs) (hlen : f.header.length < 2 ^ 31)
    {now : Int} {er : Bool} {st : SigSt} (hp : Signature.parse E now f { erange := er } = .ok () st) :
    (keyQuery st.sig).length ≤ 2 * f.header.length + 12 ∧
    checkSignatureSteps lr v.msg f st.sig ≤ 38 * (2 * d.length + 1) + 20 * (f.header.length + 1) := by
  have R : SigField E d v f st.sig := ⟨⟨type, hv⟩, hf, hlen, now, er, _, hp, rfl⟩
  obtain ⟨t, es1, S⟩ := R.stripped
  obtain ⟨⟨s', hpar⟩, _, _⟩ := R.built
  have hd : (valueText f).length ≤ f.header.length := by unfold valueText; rw [List.length_drop]; omega
  obtain ⟨es, h1, h2, h3, L, _⟩ := (parse_ok_iff E now f er st).1 hp
  have hp2 : TagList.parse (valueText f) [] = .ok () es := (C11_parse_iff _ _ _).2 ⟨es, h1, h2, by simp, by simp⟩
  have hval : ∀ n x, tagVal es n = some x → x.length ≤ f.header.length := by
    intro n x hx
    obtain ⟨t, ht, rfl⟩ := tagVal_some.1 hx
    have := Steps.value_length hp2 ht
    omega
  constructor
  · obtain ⟨dom, hdom, e⟩ := L.domain
    have a := hval _ _ hdom
    have b := hval _ _ L.selector
    unfold keyQuery
    rw [e]
    simp [Dkim.lower]
    omega
  · obtain ⟨hh, hh1, hh2⟩ := L.headers
    have a := C73_value_list _ _ hh2
    have b := hval _ _ hh1
    have c := headLoopSteps_le lr st.sig.canonHeader v.msg.headers st.sig.headers
    have hsum : (st.sig.headers.map (fun n => n.length + 1)).sum = (st.sig.headers.map List.length).sum + st.sig.headers.length := by
      generalize st.sig.headers = l
      induction l with
      | nil => rfl
      | cons x l ih => simp [ih]; omega
    have e1 : (v.msg.headers.map (fieldSteps lr st.sig.canonHeader)).sum ≤ (v.msg.headers.map (fun f => 18 * (f.header.length + 2))).sum :=
      sum_le (fun x hx => fieldSteps_le lr _ x (C22_fields d _ s' hpar x hx).1)
    rw [sum_mul] at e1
    have e2 : fillSteps v.msg.headers ≤ (v.msg.headers.map (fun f => f.header.length + 2)).sum := by
      unfold fillSteps
      exact sum_le (fun x hx => by have := name_length hpar hx; omega)
    have e3 := fields_total hpar
    have e4 : t.length ≤ f.header.length := by
      obtain ⟨_, bval, before, after, _, _, g3, g4⟩ := stripB_parsed now f er st hp hlen
      have := S.strip
      rw [g4] at this
      cases this
      have := congrArg List.length g3
      unfold valueText at this
      simp only [List.length_append, List.length_take, List.length_drop] at *
      omega
    have e5 := (C85_folded toyEnv lr st.sig.canonHeader _ (folds_of_well S.folded)).2.1
    unfold checkSignatureSteps
    rw [S.strip]
    simp only
    split
    · omega
    · rename_i c hc
      have := filterHeader_length S.folded hc
      omega

theorem checkBodyHash_keeps {E : Env} {v : Validatory} {sig : Signature} :
    (v.checkBodyHash E sig).2.msg = v.msg ∧ (v.checkBodyHash E sig).2.sigs = v.sigs := by
  unfold Validatory.checkBodyHash
  split
  · exact ⟨rfl, rfl⟩
  · dsimp only
    split <;> exact ⟨rfl, rfl⟩

theorem verifyOne_keeps {E : Env} {now : Int} {resolver : Bytes → Bool × Bytes} {v : Validatory} {h : Header} {er : Bool}
    {d : Bytes} (hB : Built d v) :
    (v.verifyOne E now resolver h er).2.2.2.msg = v.msg ∧ Built d (v.verifyOne E now resolver h er).2.2.2 := by
  have key : (v.verifyOne E now resolver h er).2.2.2 = (v.getSignature E now h { erange := er }).2.2 := by
    unfold Validatory.verifyOne
    split
    · rename_i e; rw [e]
    · rename_i e
      split <;> rw [e]
  rw [key]
  unfold Validatory.getSignature
  split
  · exact ⟨rfl, hB⟩
  · rename_i st _
    obtain ⟨s', h1, h2⟩ := checkBodyHash_eq (E := E) v hB.off st.sig
    rw [h2]
    refine ⟨rfl, h1.trans hB.data, ?_⟩
    have := hB.off
    unfold ValidOffset at *
    dsimp only
    rw [h1]
    exact this

theorem verifySteps_le {E : Env} (lr : Bool) {d : Bytes} {type : ValidatorType} {v0 v : Validatory}
    (hv : Validatory.mk' (freshStream d) type = .ok v0) (hm : v.msg = v0.msg) (hd : v.file.data = d)
    {f : Header} (hf : f ∈ v0.sigs) (hlen : f.header.length < 2 ^ 31)
    (resolver : Bytes → Bool × Bytes) (K : Nat) (hK : ∀ q, (Steps.keyParse E lr (resolver q).2).2.2 ≤ K) (now : Int) (er : Bool) :
    v.verifySteps E lr now resolver f er ≤ 80 * d.length + 141 * f.header.length + K + 183 := by
  obtain ⟨_, s', hpar, _⟩ := mk'_built d type v0 hv
  have hin : f ∈ v0.msg.headers := by
    rw [sigs_eq hv] at hf
    exact (List.mem_filter.1 hf).1
  have h1 := parseSteps_le lr hpar hin
  unfold Validatory.verifySteps
  split
  · omega
  · rename_i st hp
    have h2 := canonBodySteps_le v.file st.sig.canonBody v.msg.bodyOffset st.sig.bodySizeLimit st.sig.bodySize
    rw [hd] at h2
    obtain ⟨h3, h4⟩ := checkSignatureSteps_le lr hv hf hlen hp
    have h5 := hK (keyQuery st.sig)
    have hmsg := (checkBodyHash_keeps (E := E) (v := v) (sig := st.sig)).1
    split
    · show _ + (_ + 0) ≤ _
      omega
    · rename_i v' hb
      rw [hb, hm] at hmsg
      split
      · show _ + (_ + (_ + _ + 0)) ≤ _
        omega
      · rw [hmsg]
        show _ + (_ + (_ + _ + _)) ≤ _
        omega

theorem verifyAllSteps_le {E : Env} (lr : Bool) {d : Bytes} {type : ValidatorType} {v0 : Validatory}
    (hv : Validatory.mk' (freshStream d) type = .ok v0)
    (resolver : Bytes → Bool × Bytes) (K : Nat) (hK : ∀ q, (Steps.keyParse E lr (resolver q).2).2.2 ≤ K) (clock : Nat → Int) (errno : Nat → Bool)
    (fs : List Header) (hf : ∀ f ∈ fs, f ∈ v0.sigs ∧ f.header.length < 2 ^ 31) : ∀ (k : Nat) (v : Validatory), v.msg = v0.msg → Built d v →
    v.verifyAllSteps E lr clock errno resolver k fs ≤
      fs.length * (80 * d.length + K + 183) + 141 * (fs.map (fun f => f.header.length)).sum := by
  induction fs with
  | nil => intro k v _ _; unfold Validatory.verifyAllSteps; omega
  | cons f fs ih =>
    intro k v hm hB
    unfold Validatory.verifyAllSteps
    have h1 := verifySteps_le (E := E) lr hv hm hB.data (hf f (by simp)).1 (hf f (by simp)).2 resolver K hK (clock k) (errno k)
    obtain ⟨h2, h3⟩ := verifyOne_keeps (E := E) (now := clock k) (resolver := resolver) (h := f) (er := errno k) hB
    have h4 := ih (fun x hx => hf x (by simp [hx])) (k + 1) _ (h2.trans hm) h3
    rw [List.length_cons, Nat.succ_mul, List.map_cons, List.sum_cons]
    omega

/-- C93: verifying one signature of a message, whatever it claims: time linear in the message and the signature field, and
the time for the key record. -/
theorem C93_signature (E : Env) (lr : Bool) (d : Bytes) (type : ValidatorType) (v : Validatory)
    (hv : Validatory.mk' (freshStream d) type = .ok v) (f : Header) (hf : f ∈ v.sigs) (hlen : f.header.length < 2 ^ 31)
    (resolver : Bytes → Bool × Bytes) (K : Nat) (hK : ∀ q, (Steps.keyParse E lr (resolver q).2).2.2 ≤ K) (now : Int) (er : Bool) :
    v.verifySteps E lr now resolver f er ≤ 80 * d.length + 141 * f.header.length + K + 183 ∧
    v.verifySteps E lr now resolver f er ≤ 362 * (d.length + 1) + K := by
  have h1 := verifySteps_le (E := E) lr hv rfl (mk'_built d type v hv).1.data hf hlen resolver K hK now er
  refine ⟨h1, ?_⟩
  have h2 := header_length hv hf
  omega

/-- C93: all signatures of a message, one after the other. -/
theorem C93_all (E : Env) (lr : Bool) (d : Bytes) (type : ValidatorType) (v : Validatory)
    (hv : Validatory.mk' (freshStream d) type = .ok v) (hlen : ∀ f ∈ v.sigs, f.header.length < 2 ^ 31)
    (resolver : Bytes → Bool × Bytes) (K : Nat) (hK : ∀ q, (Steps.keyParse E lr (resolver q).2).2.2 ≤ K) (clock : Nat → Int) (errno : Nat → Bool) :
    v.verifyAllSteps E lr clock errno resolver 0 v.sigs ≤ v.sigs.length * (80 * d.length + K + 183) + 141 * (2 * d.length + 1) ∧
    16 * v.sigs.length ≤ 2 * d.length + 1 := by
  have h1 := verifyAllSteps_le (E := E) lr hv resolver K hK clock errno v.sigs (fun f hf => ⟨hf, hlen f hf⟩) 0 v rfl (mk'_built d type v hv).1
  obtain ⟨_, s', hpar, _⟩ := mk'_built d type v hv
  have h2 := fields_total hpar
  have e : v.sigs = v.msg.headers.filter (isSigHeader type) := sigs_eq hv
  have h3 : (v.sigs.map (fun f => f.header.length + 2)).sum ≤ (v.msg.headers.map (fun f => f.header.length + 2)).sum := by
    rw [e]
    exact sum_sublist List.filter_sublist _
  have h4 : (v.sigs.map (fun f => f.header.length)).sum ≤ (v.sigs.map (fun f => f.header.length + 2)).sum := sum_le (fun _ _ => by omega)
  refine ⟨by omega, ?_⟩
  have h5 : ∀ f ∈ v.sigs, 16 ≤ f.header.length + 2 := by
    intro f hf
    rw [e] at hf
    obtain ⟨hm, hs⟩ := List.mem_filter.1 hf
    have h6 := name_length hpar hm
    have h7 : 14 ≤ f.name.length := by
      have : (lower f.name).length = f.name.length := by simp [Dkim.lower]
      unfold isSigHeader at hs
      split at hs
      · rw [← this, of_decide_eq_true hs]; decide
      · rw [← this, of_decide_eq_true hs]; decide
      · cases hs
    omega
  have h8 : (v.sigs.map (fun _ => 16)).sum ≤ (v.sigs.map (fun f => f.header.length + 2)).sum := sum_le h5
  have h9 : (v.sigs.map (fun _ => 16)).sum = 16 * v.sigs.length := by
    generalize v.sigs = l
    induction l with
    | nil => rfl
    | cons x l ih => simp [ih]; omega
  omega

/-! ## Many signatures -/

theorem bodyLoopSteps_ge (blk : Nat) (hb : 0 < blk) (mode : CanonMode) : ∀ (n : Nat) (s : IStream) (a : BodyAcc), s.good = true →
    (s.data.drop s.pos).length < n → (s.data.drop s.pos).length ≤ bodyLoopSteps blk mode false n s a
  | 0, _, _, _, h => by omega
  | n + 1, s, a, hg, hn => by
    unfold bodyLoopSteps
    rw [if_neg (by rw [hg]; decide), if_neg (by simp)]
    dsimp only
    by_cases hr : blk ≤ (s.data.drop s.pos).length
    · have e : s.read blk = ((s.data.drop s.pos).take blk, { s with pos := s.pos + blk }) := by
        unfold IStream.read
        rw [if_neg (by rw [hg]; decide)]
        dsimp only
        rw [if_pos hr]
      rw [e]
      have hd : (s.data.drop (s.pos + blk)).length = (s.data.drop s.pos).length - blk := by simp only [List.length_drop]; omega
      have ih := fun b => bodyLoopSteps_ge blk hb mode n { s with pos := s.pos + blk } b hg (by dsimp only; rw [hd]; omega)
      dsimp only at ih ⊢
      rw [hd] at ih
      have hl : ((s.data.drop s.pos).take blk).length = blk := by rw [List.length_take]; omega
      rw [hl]
      refine Nat.le_trans ?_ (Nat.add_le_add_left (ih _) _)
      omega
    · have e : s.read blk = (s.data.drop s.pos, { s with pos := s.pos + (s.data.drop s.pos).length, eof := true, fail := true }) := by
        unfold IStream.read
        rw [if_neg (by rw [hg]; decide)]
        dsimp only
        rw [if_neg hr]
      rw [e]
      dsimp only
      omega

/-- A signature field that can be parsed. -/
def bareSig : Bytes := b!"DKIM-Signature:v=1;a=rsa-sha256;d=d;s=s;h=from;bh=;b=x"

/-- `k` of them, then the text. -/
def manySigs : Nat → Bytes → Bytes
  | 0, body => CR :: LF :: body
  | k + 1, body => bareSig ++ CR :: LF :: manySigs k body

theorem manySigs_head (body : Bytes) : ∀ (k pos : Nat), HeadText pos (manySigs k body) (List.replicate k bareSig) (pos + k * 56 + 2 : Nat)
  | 0, pos => by
    have := HeadText.blankCRLF pos body
    unfold manySigs
    simpa using this
  | k + 1, pos => by
    have h := manySigs_head body k (pos + bareSig.length + 2)
    have e : pos + bareSig.length + 2 + k * 56 + 2 = pos + (k + 1) * 56 + 2 := by
      show pos + 54 + 2 + k * 56 + 2 = _
      omega
    rw [e] at h
    exact .lineCRLF pos bareSig _ _ _ (by decide) (by decide) h

theorem manySigs_length (body : Bytes) : ∀ k, (manySigs k body).length = k * 56 + 2 + body.length
  | 0 => by simp [manySigs]; omega
  | k + 1 => by
    have : bareSig.length = 54 := by decide
    simp [manySigs, manySigs_length body k, this]; omega

/-- Its tags. -/
def bareTags : TagList :=
  [(b!"v", ⟨b!"1", 2⟩), (b!"a", ⟨b!"rsa-sha256", 6⟩), (b!"d", ⟨b!"d", 19⟩), (b!"s", ⟨b!"s", 23⟩), (b!"h", ⟨b!"from", 27⟩),
    (b!"bh", ⟨b!"", 35⟩), (b!"b", ⟨b!"x", 38⟩)]

theorem bareSig_tags : TagList.parse (valueText (mkField [bareSig])) [] = .ok () bareTags := by
  obtain ⟨_, s, h1, h2⟩ := res_of (TagList.parse (valueText (mkField [bareSig])) []) (fun _ m => decide (m = bareTags)) (by decide +kernel)
  rw [h1, of_decide_eq_true h2]

/-- The field parses, whatever the libraries do, at any time. -/
theorem bareSig_parse (E : Env) (now : Int) : ∃ st : SigSt, Signature.parse E now (mkField [bareSig]) { erange := false } = .ok () st ∧
    st.sig.bodySizeLimit = false := by
  obtain ⟨es, h1, h2, _, h4⟩ := (C11_parse_iff (valueText (mkField [bareSig])) [] bareTags).1 bareSig_tags
  have h4 := h4.symm
  rw [List.nil_append] at h4
  subst h4
  have hl : valueList b!"from" = .ok [b!"from"] := by decide +kernel
  let sg : Signature := { tags := bareTags, b := E.b64dec b!"x", bh := E.b64dec [], domain := b!"d", selector := b!"s", headers := [b!"from"],
                          mailDomain := b!"d" }
  refine ⟨⟨sg, false⟩, (parse_ok_iff E now _ false _).2 ⟨_, h1, h2, rfl, ⟨rfl, fun _ => rfl, ⟨b!"d", rfl, rfl⟩, rfl, ⟨_, rfl, .rsa256⟩,
    ⟨b!"x", rfl, by decide, rfl⟩, ⟨[], rfl, rfl⟩, .absent, ⟨b!"from", rfl, hl⟩, ⟨b!"from", by simp [sg], by decide +kernel⟩,
    fun _ => ⟨.absent, rfl⟩, ?_, .absent, .inl rfl, ?_⟩, ?_, rfl⟩, rfl⟩
  · intro h; exact absurd h (by decide +kernel)
  · intro x hx
    have : tagVal bareTags b!"x" = none := by decide +kernel
    rw [this] at hx; cases hx
  · intro h; cases h

theorem groupLines_replicate (l : Bytes) (h : isCont l = false) : ∀ k, groupLines (List.replicate k l) = List.replicate k [l]
  | 0 => rfl
  | 1 => rfl
  | k + 2 => by
    show groupLines (l :: l :: List.replicate k l) = [l] :: List.replicate (k + 1) [l]
    rw [← groupLines_replicate l h (k + 1), groupLines, if_neg (by rw [h]; decide)]
    rfl

theorem verifySteps_ge {E : Env} (lr : Bool) (now : Int) (resolver : Bytes → Bool × Bytes) {v : Validatory} {k : Nat} {body : Bytes}
    (hB : Built (manySigs k body) v) (ho : v.msg.bodyOffset = (k * 56 + 2 : Nat)) :
    body.length ≤ v.verifySteps E lr now resolver (mkField [bareSig]) false := by
  obtain ⟨st, h1, h2⟩ := bareSig_parse E now
  unfold Validatory.verifySteps
  rw [h1]
  have h3 : body.length ≤ canonBodySteps v.file st.sig.canonBody v.msg.bodyOffset st.sig.bodySizeLimit st.sig.bodySize := by
    unfold canonBodySteps
    rw [ho, if_pos (by omega), h2]
    have hd : (v.file.clear.seekg (k * 56 + 2 : Nat)) = { data := manySigs k body, pos := k * 56 + 2, eof := false, fail := false } := by
      unfold IStream.seekg IStream.clear
      have e := hB.data
      have := manySigs_length body k
      dsimp only
      rw [if_neg (by simp), if_pos (by rw [e]; omega), e]
      simp
      omega
    have := bodyLoopSteps_ge 8096 (by omega) st.sig.canonBody (v.file.data.length + 2) (v.file.clear.seekg (k * 56 + 2 : Nat)) { size := st.sig.bodySize }
      (by rw [hd]; rfl) (by rw [hd, hB.data, List.length_drop]; dsimp only; omega)
    rw [hd, List.length_drop] at this
    dsimp only at this
    rw [manySigs_length] at this
    rw [hd]
    omega
  show _ ≤ _ + (_ + _)
  omega

/-- C93: it is really each signature that costs a pass over the body: `k` signature fields of 54 bytes each, all of them claiming
whatever they like, make verification take the length of the body `k` times. -/
theorem C93_many_signatures (E : Env) (lr : Bool) (clock : Nat → Int) (resolver : Bytes → Bool × Bytes) (k : Nat) (body : Bytes) :
    (manySigs k body).length = 56 * k + 2 + body.length ∧
    ∃ v, Validatory.mk' (freshStream (manySigs k body)) .dkim = .ok v ∧ v.sigs.length = k ∧
      k * body.length ≤ v.verifyAllSteps E lr clock (fun _ => false) resolver 0 v.sigs := by
  refine ⟨by rw [manySigs_length]; omega, ?_⟩
  obtain ⟨m, s, _, hp, _⟩ := C20_parse (manySigs k body)
  have hv : ∃ v, Validatory.mk' (freshStream (manySigs k body)) .dkim = .ok v := by
    unfold Validatory.mk'
    rw [hp]
    exact ⟨_, rfl⟩
  obtain ⟨v, hv⟩ := hv
  obtain ⟨h1, h2⟩ := headText_msg hv (manySigs_head body k 0)
  have hB := (mk'_built _ _ _ hv).1
  have hs : v.sigs = List.replicate k (mkField [bareSig]) := by
    rw [sigs_eq hv, h1, groupLines_replicate bareSig (by decide), List.map_replicate, List.filter_replicate, if_pos (by decide +kernel)]
  refine ⟨v, hv, by rw [hs, List.length_replicate], ?_⟩
  rw [hs]
  have key : ∀ (n j : Nat) (w : Validatory), w.msg = v.msg → Built (manySigs k body) w →
      n * body.length ≤ w.verifyAllSteps E lr clock (fun _ => false) resolver j (List.replicate n (mkField [bareSig])) := by
    intro n
    induction n with
    | zero => intro j w _ _; omega
    | succ n ih =>
      intro j w hm hw
      rw [List.replicate_succ]
      unfold Validatory.verifyAllSteps
      have a := verifySteps_ge (E := E) lr (clock j) resolver hw (by rw [hm, h2]; simp)
      obtain ⟨b, c⟩ := verifyOne_keeps (E := E) (now := clock j) (resolver := resolver) (h := mkField [bareSig]) (er := false) hw
      have := ih (j + 1) _ (b.trans hm) c
      rw [Nat.succ_mul]
      omega
  exact key k 0 v rfl hB

/-- C93: so no constant bounds the steps per byte of a message. -/
theorem C93_no_linear_bound (E : Env) (lr : Bool) (clock : Nat → Int) (resolver : Bytes → Bool × Bytes) (c : Nat) :
    ∃ d v, Validatory.mk' (freshStream d) .dkim = .ok v ∧
      c * (d.length + 1) < v.verifyAllSteps E lr clock (fun _ => false) resolver 0 v.sigs := by
  obtain ⟨h1, v, h2, _, h3⟩ := C93_many_signatures E lr clock resolver (c + 1) (List.replicate (56 * c * c + 59 * c + 1) 65)
  refine ⟨_, v, h2, Nat.lt_of_lt_of_le ?_ h3⟩
  rw [h1, List.length_replicate]
  have e : c * (56 * (c + 1) + 2 + (56 * c * c + 59 * c + 1) + 1) + 1 = (c + 1) * (56 * c * c + 59 * c + 1) := by
    simp only [Nat.add_mul, Nat.mul_add, Nat.mul_one, Nat.one_mul, Nat.mul_assoc, Nat.mul_left_comm c]
    omega
  omega

/-- C93: what the key record adds: at most quadratic in its length, linear if its line breaks are foldings. -/
theorem C93_record (E : Env) (lr : Bool) (resolver : Bytes → Bool × Bytes) (L : Nat) (hL : ∀ q, (resolver q).2.length ≤ L) :
    (∀ q, (Steps.keyParse E lr (resolver q).2).2.2 ≤ 57 * L + 48 + 6 * (4 * L + 17) * (L + 1)) ∧
    ((∀ q, FoldsOnly (resolver q).2) → ∀ q, (Steps.keyParse E lr (resolver q).2).2.2 ≤ 159 * L + 150) := by
  constructor
  · intro q
    have h1 := (C85_quadratic E lr .simple (resolver q).2).2.2.2
    have h2 := hL q
    refine Nat.le_trans h1 ?_
    have : 6 * (4 * (resolver q).2.length + 17) * ((resolver q).2.length + 1) ≤ 6 * (4 * L + 17) * (L + 1) :=
      Nat.mul_le_mul (Nat.mul_le_mul_left _ (by omega)) (by omega)
    omega
  · intro hf q
    have h1 := (C85_folded E lr .simple _ (hf q)).2.2
    have h2 := hL q
    omega

/-! Non-vacuity: a signed message whose signature is verified all the way, with its steps; three bare signatures. -/

example : ∃ v f, Validatory.mk' (freshStream (Samples.signed Samples.rsaOpts Samples.message)) .dkim = .ok v ∧ f ∈ v.sigs ∧
    f.header.length < 2 ^ 31 ∧ (v.verifyOne toyEnv 0 (fun _ => (true, Samples.rsaRec)) f false).1 = .ok () ∧
    1000 < v.verifySteps toyEnv true 0 (fun _ => (true, Samples.rsaRec)) f false ∧
    v.verifySteps toyEnv true 0 (fun _ => (true, Samples.rsaRec)) f false ≤
      362 * ((Samples.signed Samples.rsaOpts Samples.message).length + 1) + (159 * Samples.rsaRec.length + 150) := by
  obtain ⟨v, hv, h1⟩ := ok_of (Validatory.mk' (freshStream (Samples.signed Samples.rsaOpts Samples.message)) .dkim)
    (fun v => match v.sigs with
      | [f] => decide (f.header.length < 2 ^ 31) &&
          decide ((v.verifyOne toyEnv 0 (fun _ => (true, Samples.rsaRec)) f false).1 = .ok ()) &&
          decide (1000 < v.verifySteps toyEnv true 0 (fun _ => (true, Samples.rsaRec)) f false)
      | _ => false) (by decide +kernel)
  split at h1
  · rename_i f hs
    simp only [Bool.and_eq_true, decide_eq_true_eq] at h1
    obtain ⟨⟨h2, h3⟩, h4⟩ := h1
    have hf : f ∈ v.sigs := by rw [hs]; simp
    refine ⟨v, f, hv, hf, h2, h3, h4, ?_⟩
    have hc : Samples.rsaRec.contains CR = false := by decide +kernel
    generalize Samples.rsaRec = r at hc ⊢
    have hr : FoldsOnly r := by
      intro x y hxy
      subst hxy
      simp [CRLF] at hc
    exact (C93_signature toyEnv true _ _ v hv f hf h2 (fun _ => (true, r)) _
      ((C93_record toyEnv true (fun _ => (true, r)) r.length (fun _ => Nat.le_refl _)).2 (fun _ => hr)) 0 false).2
  · cases h1

end Dkim
