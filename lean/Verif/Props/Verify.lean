import Verif.Proofs.HashInput
import Verif.Proofs.PublicKey
import Verif.Props.Body
import Verif.Props.Message
import Verif.Props.Keys
import Verif.Props.SignatureHistory
/-!
# Properties C35–C41, C43: verification

Spec: `Verif/Spec/HashInput.lean` (which fields are covered), `Verif/Spec/Body.lean`.
-/

namespace Dkim
open Spec

variable {E : Env}

/-! ## C35: the hash input -/

theorem headerHashInput_ok (msg : Message) (h : Header) (sig : Signature) (input : Bytes) :
    headerHashInput msg h sig = .ok input ↔
      ∃ cs t c, CanonAll sig.canonHeader (selected msg.headers sig.headers) cs ∧ stripB h sig = .ok t ∧
        filterHeader sig.canonHeader t = .ok c ∧ input = lines cs ++ c := by
  unfold headerHashInput
  constructor
  · intro hi
    cases h1 : headLoop sig.canonHeader (HeaderCache.fill msg.headers) sig.headers with
    | error e => rw [h1] at hi; cases hi
    | ok a =>
      rw [h1] at hi
      obtain ⟨cs, hc, rfl⟩ := (headBlock_ok _ _ _ _).1 h1
      cases h2 : stripB h sig with
      | error e => rw [h2] at hi; cases hi
      | ok t =>
        rw [h2] at hi
        cases h3 : filterHeader sig.canonHeader t with
        | error e => simp only [h3] at hi; cases hi
        | ok c =>
          simp only [h3] at hi
          cases hi
          exact ⟨cs, t, c, hc, rfl, h3, rfl⟩
  · rintro ⟨cs, t, c, hc, h2, h3, rfl⟩
    rw [(headBlock_ok _ _ _ _).2 ⟨cs, hc, rfl⟩, h2]
    simp only [h3]

/-- The signature header with the b= value removed: after a successful `Parse` the header is
`colon part ++ before ++ value ++ after`, and what is canonicalized is that without `value`. -/
theorem stripB_parsed (now : Int) (h : Header) (e0 : Bool) (st : SigSt)
    (hp : Signature.parse E now h { erange := e0 } = .ok () st) (hlen : h.header.length < 2 ^ 31) :
    ∃ es bval before after, TagText 0 (valueText h) es ∧ (b!"b", ⟨bval, before.length⟩) ∈ es ∧
      valueText h = before ++ bval ++ after ∧
      stripB h st.sig = .ok (h.header.take h.valueOffset ++ (before ++ after)) := by
  obtain ⟨es, h1, h2, h3, L, _⟩ := (parse_ok_iff E now h e0 st).1 hp
  obtain ⟨bval, hb, hne, _⟩ := L.signature
  obtain ⟨t, ht, rfl⟩ := tagVal_some.1 hb
  have hp2 : TagList.parse (valueText h) [] = .ok () es := (C11_parse_iff _ _ _).2 ⟨es, h1, h2, by simp, by simp⟩
  obtain ⟨before, after, ha, ho, hE⟩ := C12_offset_delimits _ _ hp2 _ _ ht hne
  refine ⟨es, t.value, before, after, h1, ?_, ha, ?_⟩
  · have hm := (getTag_eq_some_iff h2 _ _).1 ht
    obtain ⟨v, o⟩ := t
    simp only at ho
    subst ho
    exact hm
  · unfold stripB
    rw [h3, ht]
    simp only
    have hvl : (valueText h).length ≤ h.header.length := by simp [valueText]
    have hbl : before.length ≤ (valueText h).length := by rw [ha]; simp
    have hoff : offsetToSize t.offset = some before.length := by
      unfold offsetToSize
      rw [ho]
      have : ((before.length : Int) % 2 ^ 32) = before.length := by
        apply Int.emod_eq_of_lt <;> omega
      simp only [this]
      rw [if_pos (by omega)]
      rfl
    rw [hoff]
    simp only
    have hv : h.header.drop h.valueOffset = valueText h := rfl
    rw [hv, if_neg (by omega)]
    rw [ho] at hE
    rw [Int.toNat_natCast] at hE
    unfold eraseAt
    rw [hE]

/-- C35: for a signature header that was parsed successfully (shorter than 2^31 bytes), the bytes
digested are: for each name of h= the canonical form of the field it selects, followed by CRLF; then
the canonical signature header without its b= value and without CRLF. -/
theorem C35_hash_input (now : Int) (msg : Message) (h : Header) (e0 : Bool) (st : SigSt)
    (hp : Signature.parse E now h { erange := e0 } = .ok () st) (hlen : h.header.length < 2 ^ 31) (input : Bytes) :
    headerHashInput msg h st.sig = .ok input ↔
      ∃ es bval before after cs c,
        TagText 0 (valueText h) es ∧ (b!"b", ⟨bval, before.length⟩) ∈ es ∧
        valueText h = before ++ bval ++ after ∧
        CanonAll st.sig.canonHeader (selected msg.headers st.sig.headers) cs ∧
        filterHeader st.sig.canonHeader (h.header.take h.valueOffset ++ (before ++ after)) = .ok c ∧
        input = lines cs ++ c := by
  obtain ⟨es, bval, before, after, h1, h2, h3, h4⟩ := stripB_parsed now h e0 st hp hlen
  rw [headerHashInput_ok]
  constructor
  · rintro ⟨cs, t, c, hc, hs, hf, rfl⟩
    rw [h4] at hs; cases hs
    exact ⟨es, bval, before, after, cs, c, h1, h2, h3, hc, hf, rfl⟩
  · rintro ⟨es', bval', before', after', cs, c, h1', h2', h3', hc, hf, rfl⟩
    refine ⟨cs, _, c, hc, h4, ?_, rfl⟩
    -- the b tag of the text is unique
    have hes : es' = es ∧ (es.map Prod.fst).Nodup := by
      obtain ⟨es2, g1, g2, _⟩ := (parse_ok_iff E now h e0 st).1 hp
      have q1 := g1.det h1' g2
      have q2 := g1.det h1 g2
      exact ⟨q1.trans q2.symm, q2 ▸ g2⟩
    obtain ⟨rfl, hnd⟩ := hes
    have u1 := (getTag_eq_some_iff hnd _ _).2 h2
    have u2 := (getTag_eq_some_iff hnd _ _).2 h2'
    rw [u1] at u2
    simp only [Option.some.injEq, TagEntry.mk.injEq] at u2
    obtain ⟨rfl, ho⟩ := u2
    have hl : before.length = before'.length := by omega
    rw [h3] at h3'
    rw [List.append_assoc, List.append_assoc] at h3'
    obtain ⟨rfl, h5⟩ := List.append_inj h3' hl
    have := List.append_cancel_left h5
    subst this
    exact hf

/-- C35: `selected` spelled out for the first name of the list: it selects the last field. -/
theorem C35_first_is_last (hs : List Header) (n : Bytes) (ns : List Bytes) (f : Header)
    (hf : (fieldsNamed hs n).getLast? = some f) : (selected hs (n :: ns)).head? = some f := by
  unfold selected
  rw [List.zipIdx_cons, List.filterMap_cons]
  have : fromBottom hs n (mentions ((n :: ns).take 0) n) = some f := by
    unfold fromBottom mentions
    simp only [List.take_zero, List.countP_nil]
    rw [← List.head?_eq_getElem?, List.head?_reverse]
    exact hf
  rw [this]
  rfl

/-- Fields for the examples. -/
def Samples.fields : List Header :=
  [⟨b!"To", b!"To: x", 3⟩, ⟨b!"From", b!"From: a@b.c", 5⟩, ⟨b!"TO", b!"TO: y,\r\n z", 3⟩]
example : selected Samples.fields [b!"to", b!"From", b!"to", b!"to"] =
    [⟨b!"TO", b!"TO: y,\r\n z", 3⟩, ⟨b!"From", b!"From: a@b.c", 5⟩, ⟨b!"To", b!"To: x", 3⟩] := by decide
example : CanonAll .relaxed (selected Samples.fields [b!"to", b!"From", b!"to", b!"to"])
    [b!"to:y, z", b!"from:a@b.c", b!"to:x"] := by unfold CanonAll; decide +kernel

/-! ## C36: success means that the primitive accepted -/

/-- The verification primitive accepts the signature data for a digest value under a key. Ed25519
reads the first 64 bytes of the data (a terminating NUL counts as byte 64 of 63-byte data) and the
first 32 bytes of the key. -/
inductive Spec.PrimitiveAccepts (E : Env) (sig : Signature) (pub : PublicKey E) (md : Bytes) : Prop
  | rsa (key) : sig.alg = .rsa → pub.rsa = some key → E.rsaVerify key sig.digest md sig.b = true →
      PrimitiveAccepts E sig pub md
  | ed : sig.alg = .ed25519 → 63 ≤ sig.b.length → 31 ≤ pub.ed.length →
      E.edVerify ((pub.ed ++ [0]).take 32) md ((sig.b ++ [0]).take 64) = true → PrimitiveAccepts E sig pub md

/-- The checks done before anything is hashed. -/
structure Spec.KeyUsable {E : Env} (sig : Signature) (pub : PublicKey E) : Prop where
  hash : pub.digests = [] ∨ sig.digest ∈ pub.digests
  alg : sig.alg = pub.alg
  strict : sig.arc = false → b!"s" ∈ pub.flags → sig.domain = sig.mailDomain

theorem keyUsable_iff {sig : Signature} {pub : PublicKey E} : KeyUsable sig pub ↔ sanityCheck sig pub = .ok () := by
  rw [sanityCheck_ok]
  exact ⟨fun h => ⟨h.1, h.2, h.3⟩, fun h => ⟨h.1, h.2.1, h.2.2⟩⟩

theorem readBuf_ok {s : Bytes} {n : Nat} {x : Bytes} : readBuf s n = .ok x ↔ n ≤ s.length + 1 ∧ x = (s ++ [0]).take n := by
  unfold readBuf
  split
  · rename_i h; simp only [Except.ok.injEq]; exact ⟨fun e => ⟨h, e.symm⟩, fun e => e.2.symm⟩
  · rename_i h; constructor
    · intro e; cases e
    · intro e; exact absurd e.1 h

theorem verifyDigest_ok {sig : Signature} {pub : PublicKey E} {md : Bytes} :
    verifyDigest E sig pub md = .ok () ↔ PrimitiveAccepts E sig pub md := by
  unfold verifyDigest
  constructor
  · intro h
    cases ha : sig.alg with
    | rsa =>
      rw [ha] at h
      simp only at h
      cases hk : pub.rsa with
      | none => rw [hk] at h; cases h
      | some key =>
        simp only [hk] at h
        split at h
        · rename_i hv; exact .rsa key ha hk hv
        · cases h
    | ed25519 =>
      rw [ha] at h
      simp only at h
      cases h1 : readBuf sig.b 64 with
      | error e => rw [h1] at h; cases h
      | ok s =>
        rw [h1] at h
        simp only at h
        cases h2 : readBuf pub.ed 32 with
        | error e => rw [h2] at h; cases h
        | ok k =>
          rw [h2] at h
          simp only at h
          obtain ⟨l1, rfl⟩ := readBuf_ok.1 h1
          obtain ⟨l2, rfl⟩ := readBuf_ok.1 h2
          split at h
          · rename_i hv; exact .ed ha (by omega) (by omega) hv
          · cases h
  · intro h
    cases h with
    | rsa key ha hk hv => simp [ha, hk, hv]
    | ed ha l1 l2 hv =>
      rw [ha]
      simp only
      rw [readBuf_ok.2 ⟨by omega, rfl⟩]
      simp only
      rw [readBuf_ok.2 ⟨by omega, rfl⟩]
      simp only
      rw [if_pos hv]

/-- C36: `CheckSignature` returns normally iff the key may be used, the hash input exists, and the
primitive accepts the signature data for the digest of exactly that input. -/
theorem C36_success_iff (msg : Message) (h : Header) (sig : Signature) (pub : PublicKey E) :
    checkSignature E msg h sig pub = .ok () ↔
      KeyUsable sig pub ∧ ∃ input, headerHashInput msg h sig = .ok input ∧
        PrimitiveAccepts E sig pub (E.hash sig.digest input) := by
  rw [keyUsable_iff]
  unfold checkSignature
  cases hs : sanityCheck sig pub with
  | error e => simp
  | ok u =>
    cases hi : headerHashInput msg h sig with
    | error e => simp
    | ok input =>
      simp only [true_and, Except.ok.injEq]
      rw [verifyDigest_ok]
      constructor
      · intro h; exact ⟨input, rfl, h⟩
      · rintro ⟨_, rfl, h⟩; exact h

/-- C36: the result class is `fail` exactly if everything but the primitive's verdict was in order;
all other exceptions thrown by the library carry `permerror`. -/
theorem C36_failure_class (msg : Message) (h : Header) (sig : Signature) (pub : PublicKey E) (r : Reason) (a : AR)
    (hc : checkSignature E msg h sig pub = .error (.perm r a)) :
    (a = .fail ∧ KeyUsable sig pub ∧ ∃ input, headerHashInput msg h sig = .ok input ∧
      ¬ PrimitiveAccepts E sig pub (E.hash sig.digest input)) ∨
    (a = .permerror ∧ ¬ (KeyUsable sig pub ∧ ∃ input, headerHashInput msg h sig = .ok input)) := by
  rw [keyUsable_iff]
  unfold checkSignature at hc
  cases hs : sanityCheck sig pub with
  | error e =>
    refine Or.inr ⟨?_, by simp⟩
    rw [hs] at hc
    cases hc
    unfold sanityCheck at hs
    split at hs
    · cases hs; rfl
    · split at hs
      · cases hs; rfl
      · split at hs
        · cases hs; rfl
        · cases hs
  | ok u =>
    rw [hs] at hc
    simp only at hc
    cases hi : headerHashInput msg h sig with
    | error e =>
      refine Or.inr ⟨?_, by simp⟩
      rw [hi] at hc
      cases hc
      unfold headerHashInput at hi
      have p1 := headLoop_perm sig.canonHeader (HeaderCache.fill msg.headers) sig.headers
      cases h1 : headLoop sig.canonHeader (HeaderCache.fill msg.headers) sig.headers with
      | error e =>
        rw [h1] at hi; cases hi
        obtain ⟨r', h'⟩ := p1 _ h1
        cases h'; rfl
      | ok x =>
        rw [h1] at hi
        simp only at hi
        cases h2 : stripB h sig with
        | error e =>
          rw [h2] at hi; cases hi
          unfold stripB at h2
          split at h2
          · cases h2
          · simp only at h2
            split at h2
            · cases h2
            · split at h2 <;> cases h2
        | ok t =>
          rw [h2] at hi
          simp only at hi
          have p3 := filterHeader_perm sig.canonHeader t
          cases h3 : filterHeader sig.canonHeader t with
          | error e =>
            rw [h3] at hi; cases hi
            obtain ⟨r', h'⟩ := p3 _ h3
            cases h'; rfl
          | ok c => rw [h3] at hi; cases hi
    | ok input =>
      rw [hi] at hc
      simp only at hc
      refine Or.inl ⟨?_, rfl, input, rfl, ?_⟩
      · unfold verifyDigest at hc
        split at hc
        · split at hc
          · cases hc
          · split at hc
            · cases hc
            · cases hc; rfl
        · split at hc
          · rename_i e he
            unfold readBuf at he
            split at he
            · cases he
            · cases he; cases hc
          · split at hc
            · rename_i e he
              unfold readBuf at he
              split at he
              · cases he
              · cases he; cases hc
            · split at hc
              · cases hc
              · cases hc; rfl
      · rw [← verifyDigest_ok, hc]; simp

example : Samples.verify Samples.rsaRec (Samples.signed Samples.rsaOpts Samples.message) = some (.ok ()) := by
  decide +kernel

/-! ## C37: what is not covered does not matter -/

/-- Canonicalizing the fields one after the other. -/
def blockOf (mode : CanonMode) : List Header → Except Err Bytes
  | [] => .ok []
  | h :: hs =>
    match filterHeader mode h.header with
    | .error e => .error e
    | .ok t =>
      match blockOf mode hs with
      | .error e => .error e
      | .ok rest => .ok (t ++ CRLF ++ rest)

theorem headLoop_blockOf (mode : CanonMode) (rev : Bytes → List Header) (cnt : Bytes → Nat) (names : List Bytes) :
    headLoop mode (fun k => ((rev k).drop (cnt k)).reverse) names = blockOf mode (selectAux rev cnt names) := by
  induction names generalizing cnt with
  | nil => rfl
  | cons n ns ih =>
    unfold headLoop selectAux
    simp only
    rw [reverse_drop_getLast?]
    cases hg : (rev (lower n))[cnt (lower n)]? with
    | none =>
      simp only [Option.toList_none, List.nil_append]
      rw [← ih (bump cnt (lower n))]
      have : (fun k => ((rev k).drop (cnt k)).reverse) = fun k => ((rev k).drop (bump cnt (lower n) k)).reverse := by
        funext k
        unfold bump
        split
        · rename_i e
          subst e
          rw [List.getElem?_eq_none_iff] at hg
          rw [List.drop_eq_nil_of_le hg, List.drop_eq_nil_of_le (by omega)]
        · rfl
      rw [this]
    | some h =>
      have hput : HeaderCache.put (fun k => ((rev k).drop (cnt k)).reverse) (lower n)
          (((rev (lower n)).drop (cnt (lower n))).reverse).dropLast =
          fun k => ((rev k).drop (bump cnt (lower n) k)).reverse := by
        funext k
        unfold HeaderCache.put bump
        split
        · rename_i e
          subst e
          rw [reverse_drop_dropLast]
        · rfl
      simp only [Option.toList_some, List.cons_append, List.nil_append]
      rw [hput, ih]
      rfl

theorem headLoop_selected (mode : CanonMode) (hs : List Header) (names : List Bytes) :
    headLoop mode (HeaderCache.fill hs) names = blockOf mode (selected hs names) := by
  rw [selected_eq, ← headLoop_blockOf, fill_eq]
  simp

theorem checkSignature_congr (msg msg' : Message) (h : Header) (sig : Signature) (pub : PublicKey E)
    (hs : selected msg.headers sig.headers = selected msg'.headers sig.headers) :
    checkSignature E msg h sig pub = checkSignature E msg' h sig pub := by
  unfold checkSignature headerHashInput
  rw [headLoop_selected, headLoop_selected, hs]

/-- C37: the outcome depends only on the fields covered: for each name in h= the lowest fields with
that name, as many as there are mentions. -/
theorem C37_covered_only (msg msg' : Message) (h : Header) (sig : Signature) (pub : PublicKey E)
    (hs : ∀ n ∈ sig.headers, (fieldsNamed msg.headers n).reverse.take (mentions sig.headers n) =
      (fieldsNamed msg'.headers n).reverse.take (mentions sig.headers n)) :
    checkSignature E msg h sig pub = checkSignature E msg' h sig pub :=
  checkSignature_congr _ _ _ _ _ (selected_congr _ _ _ hs)

/-- C37: messages that agree on the fields named in h= (other fields added, removed, changed or
reordered at will) give the same outcome. -/
theorem C37_unsigned_fields (msg msg' : Message) (h : Header) (sig : Signature) (pub : PublicKey E)
    (hs : ∀ n ∈ sig.headers, fieldsNamed msg.headers n = fieldsNamed msg'.headers n) :
    checkSignature E msg h sig pub = checkSignature E msg' h sig pub :=
  C37_covered_only _ _ _ _ _ (fun n hn => by rw [hs n hn])

/-- C37: so does inserting a field of any name above enough fields of that name (in particular a
field whose name is not mentioned at all, anywhere). -/
theorem C37_insert (msg msg' : Message) (h : Header) (sig : Signature) (pub : PublicKey E)
    (a b : List Header) (f : Header) (h1 : msg.headers = a ++ b) (h2 : msg'.headers = a ++ f :: b)
    (hc : mentions sig.headers f.name ≤ (fieldsNamed b f.name).length) :
    checkSignature E msg h sig pub = checkSignature E msg' h sig pub := by
  apply C37_covered_only
  intro n hn
  rw [h1, h2]
  unfold fieldsNamed at *
  rw [List.filter_append, List.filter_append]
  by_cases he : Spec.lower f.name = Spec.lower n
  · have hm : mentions sig.headers n = mentions sig.headers f.name := by unfold mentions; rw [he]
    rw [hm]
    rw [he] at hc
    rw [List.filter_cons_of_pos (p := fun h : Header => decide (Spec.lower h.name = Spec.lower n)) (decide_eq_true he)]
    simp only [List.reverse_append, List.reverse_cons, List.append_assoc]
    rw [List.take_append_of_le_length (by simpa using hc), List.take_append_of_le_length (by simpa using hc)]
  · rw [List.filter_cons_of_neg (p := fun h : Header => decide (Spec.lower h.name = Spec.lower n)) (fun hx => he (of_decide_eq_true hx))]

/-- C37 applies: a field added on top, and another `To` above the two that are covered. -/
example (h : Header) (pub : PublicKey toyEnv) :
    checkSignature toyEnv { headers := Samples.fields } h { headers := [b!"from", b!"to", b!"to"] } pub =
      checkSignature toyEnv { headers := ⟨b!"to", b!"to: q", 3⟩ :: Samples.fields } h { headers := [b!"from", b!"to", b!"to"] } pub :=
  C37_insert _ _ h _ pub [] Samples.fields ⟨b!"to", b!"to: q", 3⟩ rfl rfl (by decide)

/-! ## C38: oversigning -/

theorem CanonAll.cons {mode : CanonMode} {f : Header} {fs : List Header} {cs : List Bytes} :
    CanonAll mode (f :: fs) cs ↔ ∃ c cs', filterHeader mode f.header = .ok c ∧ CanonAll mode fs cs' ∧ cs = c :: cs' := by
  unfold CanonAll
  constructor
  · intro h
    cases cs with
    | nil => simp at h
    | cons c cs' =>
      simp only [List.map_cons, List.cons.injEq] at h
      exact ⟨c, cs', h.1, h.2, rfl⟩
  · rintro ⟨c, cs', h1, h2, rfl⟩
    simp [h1, h2]

theorem CanonAll.perm_length {mode : CanonMode} {fs fs' : List Header} (hp : fs.Perm fs') :
    ∀ (cs cs' : List Bytes), CanonAll mode fs cs → CanonAll mode fs' cs' → (lines cs).length = (lines cs').length := by
  induction hp with
  | nil =>
    intro cs cs' h h'
    cases cs <;> cases cs' <;> simp_all [CanonAll]
  | cons x _ ih =>
    intro cs cs' h h'
    obtain ⟨c, ds, h1, h2, rfl⟩ := CanonAll.cons.1 h
    obtain ⟨c', ds', h1', h2', rfl⟩ := CanonAll.cons.1 h'
    rw [h1] at h1'; cases h1'
    have := ih _ _ h2 h2'
    simp only [lines, List.flatMap_cons, List.length_append] at *
    omega
  | swap x y l =>
    intro cs cs' h h'
    obtain ⟨c, ds, h1, h2, rfl⟩ := CanonAll.cons.1 h
    obtain ⟨d, es, h3, h4, rfl⟩ := CanonAll.cons.1 h2
    obtain ⟨c', ds', h1', h2', rfl⟩ := CanonAll.cons.1 h'
    obtain ⟨d', es', h3', h4', rfl⟩ := CanonAll.cons.1 h2'
    rw [h1] at h3'; cases h3'
    rw [h3] at h1'; cases h1'
    have : es = es' := by
      unfold CanonAll at h4 h4'
      rw [h4] at h4'
      exact (List.map_inj_right (fun a b h => by cases h; rfl)).1 h4'
    subst this
    simp only [lines, List.flatMap_cons, List.length_append] at *
    omega
  | @trans l1 l2 l3 hp1 _ ih1 ih2 =>
    intro cs cs' h h'
    have : ∃ ds, CanonAll mode l2 ds := by
      have hall : ∀ x ∈ l2, ∃ c, filterHeader mode x.header = .ok c := by
        intro x hx
        have hx' := hp1.mem_iff.2 hx
        unfold CanonAll at h
        have : filterHeader mode x.header ∈ cs.map .ok := by
          rw [← h]; exact List.mem_map_of_mem (f := fun f : Header => filterHeader mode f.header) hx'
        obtain ⟨c, _, hc⟩ := List.mem_map.1 this
        exact ⟨c, hc.symm⟩
      exact exists_canon hall
    obtain ⟨ds, hd⟩ := this
    exact (ih1 _ _ h hd).trans (ih2 _ _ hd h')
where
  exists_canon {mode : CanonMode} {fs : List Header} (hall : ∀ x ∈ fs, ∃ c, filterHeader mode x.header = .ok c) :
      ∃ ds, CanonAll mode fs ds := by
    induction fs with
    | nil => exact ⟨[], rfl⟩
    | cons f fs ih =>
      obtain ⟨c, hc⟩ := hall f (by simp)
      obtain ⟨ds, hd⟩ := ih (fun x hx => hall x (by simp [hx]))
      exact ⟨c :: ds, CanonAll.cons.2 ⟨c, ds, hc, hd, rfl⟩⟩

/-- An oversigned name: after inserting a field of that name the selection is, up to order, the old
one and the new field. -/
theorem selected_insert (a b : List Header) (f : Header) (names : List Bytes)
    (hover : (fieldsNamed (a ++ b) f.name).length < mentions names f.name) :
    (selected (a ++ f :: b) names).Perm (f :: selected (a ++ b) names) := by
  rw [selected_eq, selected_eq]
  have s1 := selectAux_split (fun k => (byKey (a ++ f :: b) k).reverse) (fun _ => 0) (lower f.name) names
  have s2 := selectAux_split (fun k => (byKey (a ++ b) k).reverse) (fun _ => 0) (lower f.name) names
  have hrest : selectAux (fun k => (byKey (a ++ f :: b) k).reverse) (fun _ => 0)
        (names.filter (fun m => lower m ≠ lower f.name)) =
      selectAux (fun k => (byKey (a ++ b) k).reverse) (fun _ => 0)
        (names.filter (fun m => lower m ≠ lower f.name)) := by
    apply selectAux_congr
    intro n hn
    have hne : lower n ≠ lower f.name := by simpa using (List.mem_filter.1 hn).2
    have : byKey (a ++ f :: b) (lower n) = byKey (a ++ b) (lower n) := by
      unfold byKey
      rw [List.filter_append, List.filter_append, List.filter_cons_of_neg (by simpa using fun e => hne e.symm)]
    simp only [this]
  rw [hrest] at s1
  have e1 : byKey (a ++ f :: b) (lower f.name) = byKey a (lower f.name) ++ f :: byKey b (lower f.name) := by
    unfold byKey
    rw [List.filter_append, List.filter_cons_of_pos (by simp)]
  have e2 : byKey (a ++ b) (lower f.name) = byKey a (lower f.name) ++ byKey b (lower f.name) := by
    unfold byKey
    rw [List.filter_append]
  have hover' : (byKey a (lower f.name)).length + (byKey b (lower f.name)).length <
      names.countP (fun m => lower m = lower f.name) := by
    have : (fieldsNamed (a ++ b) f.name).length = (byKey (a ++ b) (lower f.name)).length := rfl
    rw [this, e2, List.length_append] at hover
    exact hover
  simp only [List.drop_zero, List.append_eq, e1, e2] at s1 s2
  rw [List.take_of_length_le (by simp; omega)] at s1 s2
  have s3 : ((byKey a (lower f.name) ++ f :: byKey b (lower f.name)).reverse).Perm
      (f :: (byKey a (lower f.name) ++ byKey b (lower f.name)).reverse) := by
    refine (List.reverse_perm _).trans (List.perm_middle.trans ?_)
    exact List.Perm.cons _ (List.reverse_perm _).symm
  refine s1.trans ((s3.append_right _).trans ?_)
  exact (List.Perm.cons f s2.symm)

/-- C38: if a name is mentioned in h= more often than fields of that name exist, inserting such a
field anywhere changes the hash input (or makes it undefined, so that the check fails). -/
theorem C38_oversigned (msg msg' : Message) (h : Header) (sig : Signature) (a b : List Header) (f : Header)
    (h1 : msg.headers = a ++ b) (h2 : msg'.headers = a ++ f :: b)
    (hover : (fieldsNamed msg.headers f.name).length < mentions sig.headers f.name) (x : Bytes)
    (hx : headerHashInput msg h sig = .ok x) : headerHashInput msg' h sig ≠ .ok x := by
  intro hx'
  obtain ⟨cs, t, c, k1, k2, k3, rfl⟩ := (headerHashInput_ok _ _ _ _).1 hx
  obtain ⟨cs', t', c', k1', k2', k3', k4'⟩ := (headerHashInput_ok _ _ _ _).1 hx'
  rw [k2] at k2'; cases k2'
  rw [k3] at k3'; cases k3'
  have hl : lines cs = lines cs' := List.append_cancel_right k4'
  rw [h1] at hover k1
  rw [h2] at k1'
  have hp := selected_insert a b f sig.headers hover
  have hf : ∃ d, filterHeader sig.canonHeader f.header = .ok d := by
    have hm : f ∈ selected (a ++ f :: b) sig.headers := hp.mem_iff.2 (by simp)
    unfold CanonAll at k1'
    have : filterHeader sig.canonHeader f.header ∈ cs'.map .ok := by
      rw [← k1']; exact List.mem_map_of_mem (f := fun f : Header => filterHeader sig.canonHeader f.header) hm
    obtain ⟨d, _, hd⟩ := List.mem_map.1 this
    exact ⟨d, hd.symm⟩
  obtain ⟨d, hd⟩ := hf
  have := CanonAll.perm_length hp _ _ k1' (CanonAll.cons.2 ⟨d, cs, hd, k1, rfl⟩)
  rw [← hl] at this
  simp only [lines, List.flatMap_cons, List.length_append, List.length_cons] at this
  omega

/-- C38 applies: `From` is signed once more than it occurs. -/
example (x : Bytes) (hx : headerHashInput { headers := Samples.fields } ⟨b!"DKIM-Signature", b!"DKIM-Signature: b=x", 15⟩
      { tags := [(b!"b", ⟨b!"x", 3⟩)], headers := [b!"from", b!"from"] } = .ok x) :
    headerHashInput { headers := Samples.fields ++ [⟨b!"FROM", b!"FROM: evil", 5⟩] } ⟨b!"DKIM-Signature", b!"DKIM-Signature: b=x", 15⟩
      { tags := [(b!"b", ⟨b!"x", 3⟩)], headers := [b!"from", b!"from"] } ≠ .ok x :=
  C38_oversigned _ _ _ _ Samples.fields [] ⟨b!"FROM", b!"FROM: evil", 5⟩ (by simp) rfl (by decide) x hx
example : headerHashInput { headers := Samples.fields } ⟨b!"DKIM-Signature", b!"DKIM-Signature: b=x", 15⟩
    { tags := [(b!"b", ⟨b!"x", 3⟩)], headers := [b!"from", b!"from"] } = .ok b!"From: a@b.c\r\nDKIM-Signature: b=" := by decide +kernel

end Dkim
