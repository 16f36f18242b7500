import Verif.Props.Tool
import Verif.Props.Plain
import Verif.Props.Expired
import Verif.Props.SigningForm
/-!
# Property C60: signing with the command line tool
-/

namespace Dkim
open Spec

variable {E : Env}

/-- The options the tool signs with: the key loaded with `SetPrivateKey`, domain and selector of the command line,
default header list, relaxed canonicalization, time stamp now, expiration one second later. -/
def Spec.toolOptions (c : Tool.Config) (key : SigOpts E) : Options E :=
  { first := { key with domain := c.domain, selector := c.selector }
    arcInstance := c.arcInstance, canonHead := .relaxed, canonBody := .relaxed
    timestampSign := true, timestamp := -1, expirationSign := true, expirationAbsolute := false, expiration := 1 }

/-- The key type asked for. -/
def Spec.toolAlg (c : Tool.Config) : SigAlg := if c.keytype = b!"ed25519" then .ed25519 else .rsa

theorem setAll_setters (c : Tool.Config) (key : Bytes) (o : Options E) :
    Tool.setAll ({} : Options E) (Tool.setters c key) = .ok o ↔
      IsDomain c.domain ∧ IsDomain c.selector ∧ ∃ s : SigOpts E,
        SigOpts.setPrivateKey key ({ alg := toolAlg c } : SigOpts E) = .ok () s ∧ o = toolOptions c s := by
  unfold Tool.setters
  simp only [Tool.setAll, OptOp.run, runFirst, SigOp.run, SigOpts.setAlg]
  have hm : (modify (fun s : SigOpts E => { s with alg := if c.keytype = b!"ed25519" then .ed25519 else .rsa }) :
      EStateM Err (SigOpts E) Unit) {} = .ok () { alg := toolAlg c } := rfl
  rw [hm]
  simp only
  cases hk : SigOpts.setPrivateKey key ({ alg := toolAlg c } : SigOpts E) with
  | error e s => simp
  | ok u s =>
    simp only
    by_cases h1 : IsDomain c.domain
    · rw [show SigOpts.setDomain c.domain s = .ok () { s with domain := c.domain } from ((C24_set_or_throw s c.domain).1 h1).1]
      simp only
      by_cases h2 : IsDomain c.selector
      · rw [show SigOpts.setSelector c.selector { s with domain := c.domain } = .ok () { s with domain := c.domain, selector := c.selector }
          from ((C24_set_or_throw _ c.selector).1 h2).2]
        simp only [h1, h2, true_and, Except.ok.injEq]
        constructor
        · intro h; exact ⟨s, rfl, h.symm⟩
        · rintro ⟨s', h, rfl⟩; cases h; rfl
      · rw [show SigOpts.setSelector c.selector { s with domain := c.domain } = .error (.p .badSelector) { s with domain := c.domain }
          from ((C24_set_or_throw _ c.selector).2 h2).2]
        simp [h2]
    · rw [show SigOpts.setDomain c.domain s = .error (.p .badDomain) s from ((C24_set_or_throw s c.domain).2 h1).1]
      simp [h1]

theorem toolOptions_safe {c : Tool.Config} (s : SigOpts E) (h1 : IsDomain c.domain) (h2 : IsDomain c.selector) :
    SafeOptions (toolOptions c s) := by
  intro x hx
  have : x = { s with domain := c.domain, selector := c.selector } := by simpa [Options.signatures, toolOptions] using hx
  subst this
  exact ⟨Or.inr h1, Or.inr h2⟩

/-- Only the first clock value matters with one signature. -/
theorem clock_const (o : Options E) (hm : o.more = []) (clock : Nat → Int) (sg : Signatory) :
    Signatory.createSignature E o clock sg = Signatory.createSignature E o (fun _ => clock 0) sg := by
  have : ∀ hashed names bh, allSignatures E o clock hashed names bh 0 [] o.signatures.reverse =
      allSignatures E o (fun _ => clock 0) hashed names bh 0 [] o.signatures.reverse := by
    intro hashed names bh
    unfold Options.signatures
    rw [hm]
    rfl
  unfold Signatory.createSignature
  simp only [this]

/-- C60: a message file that cannot be opened is signed like an empty message (no error is reported). -/
theorem C60_missing_message (o : Options E) (clock : Nat → Int) (fs : Bytes → Option Bytes) (file : Bytes) (hf : fs file = none) :
    (Signatory.createSignature E o clock { file := Tool.openFile fs file }).1 =
      (Signatory.createSignature E o clock { file := freshStream [] }).1 := by
  have h1 : (({} : Message).parseAll (Tool.openFile fs file)) =
      .ok ({ bodyOffset := -1, done := true }, { data := [], fail := true }) := by
    unfold Tool.openFile
    rw [hf]
    rfl
  have h2 : (({} : Message).parseAll (freshStream [])) =
      .ok ({ bodyOffset := -1, done := true }, { data := [], eof := true, fail := true }) := rfl
  obtain ⟨_, _, _, _, e1⟩ := createSignature_eq o clock { file := Tool.openFile fs file } _ _ h1 (Or.inl rfl)
  obtain ⟨_, _, _, _, e2⟩ := createSignature_eq o clock { file := freshStream [] } _ _ h2 (Or.inl rfl)
  rw [e1, e2]

/-- The text that is signed for a file name: its contents, or nothing if it cannot be opened. -/
def Spec.signedText (fs : Bytes → Option Bytes) (file : Bytes) : Bytes := (fs file).getD []

theorem createSignature_file (o : Options E) (clock : Nat → Int) (fs : Bytes → Option Bytes) (file : Bytes) :
    (Signatory.createSignature E o clock { file := Tool.openFile fs file }).1 =
      (Signatory.createSignature E o clock { file := freshStream (signedText fs file) }).1 := by
  unfold signedText
  cases hf : fs file with
  | none => exact C60_missing_message o clock fs file hf
  | some d => rw [openFile_some hf]; rfl

/-- C60: without `-v` the tool writes exactly the text `CreateSignature` returns for the options `toolOptions`, followed
by CRLF, and ends with status 0; or, if key file, key, domain, selector or the signing itself fail, it writes nothing and does not
end with status 0. -/
theorem C60_output (clock : Nat → Int) (fs : Bytes → Option Bytes) (c : Tool.Config) (file : Bytes) :
    (∃ key s H, fs c.keyfile = some key ∧ IsDomain c.domain ∧ IsDomain c.selector ∧
      SigOpts.setPrivateKey key ({ alg := toolAlg c } : SigOpts E) = .ok () s ∧
      (Signatory.createSignature E (toolOptions c s) clock { file := freshStream (signedText fs file) }).1 = .ok H ∧
      Tool.sign E clock fs c file = (H ++ CRLF, .exit 0)) ∨
    ((∀ key s H, fs c.keyfile = some key → IsDomain c.domain → IsDomain c.selector →
      SigOpts.setPrivateKey key ({ alg := toolAlg c } : SigOpts E) = .ok () s →
      (Signatory.createSignature E (toolOptions c s) clock { file := freshStream (signedText fs file) }).1 ≠ .ok H) ∧
      ∃ o, o ≠ .exit 0 ∧ Tool.sign E clock fs c file = ([], o)) := by
  have hc : ∀ e, Tool.caught e ≠ .exit 0 := by intro e; cases e <;> simp [Tool.caught]
  unfold Tool.sign
  cases hk : fs c.keyfile with
  | none => exact Or.inr ⟨by simp, .exit 1, by simp, rfl⟩
  | some key =>
    simp only
    cases ho : Tool.setAll ({} : Options E) (Tool.setters c key) with
    | error e =>
      refine Or.inr ⟨?_, _, hc e, rfl⟩
      intro key' s H h1 h2 h3 h4
      cases h1
      rw [(setAll_setters c key _).2 ⟨h2, h3, s, h4, rfl⟩] at ho
      cases ho
    | ok o =>
      simp only
      obtain ⟨h1, h2, s, h3, rfl⟩ := (setAll_setters c key o).1 ho
      rw [createSignature_file]
      cases hs : (Signatory.createSignature E (toolOptions c s) clock { file := freshStream (signedText fs file) }).1 with
      | error e =>
        refine Or.inr ⟨?_, _, hc e, rfl⟩
        intro key' s' H k1 _ _ k4 k5
        cases k1
        rw [h3] at k4
        cases k4
        rw [hs] at k5
        cases k5
      | ok H =>
        refine Or.inl ⟨key, s, H, rfl, h1, h2, h3, hs, ?_⟩
        have hp := C45_plain (toolOptions c s) (toolOptions_safe s h1 h2) clock _ H C45_default_names.1 defaultHeaders_plain
          (by intro n hn; cases hn) hs
        have : cstr H = H := cstr_eq (fun h0 => absurd (hp 0 h0) (by decide))
        simp only [this]

/-- The default names can be listed. -/
theorem defaultHeaders_names : ∀ n ∈ defaultHeaders, IsFieldName (Dkim.lower n) := by
  unfold IsFieldName; decide +kernel

theorem tool_wellFormed (c : Tool.Config) (s : SigOpts E) (t now : Int) (d : Bytes) (hs : List Header)
    (start : ∀ x ∈ d.head?, Spec.isWSP x = false) (hfrom : ∃ h ∈ hs, Spec.lower h.name = b!"from") (harc : c.arcInstance ≤ 50)
    (h0 : 0 ≤ now) (hle : now ≤ t + 1) : WellFormed (toolOptions c s) (fun _ => t) now d hs where
  start := start
  names := by
    intro n hn
    unfold signedNames signedFields at hn
    rcases List.mem_append.1 hn with hn | hn
    · obtain ⟨f, hf, rfl⟩ := List.mem_map.1 hn
      have hw : Wanted (toolOptions c s).headers f := by simpa using (List.mem_filter.1 hf).2
      rcases hw.2 with h | ⟨m, hm, e⟩
      · exact absurd h C45_default_names.1
      · rw [← e, Spec.lower_eq]; exact defaultHeaders_names m hm
    · cases hn
  from_signed := by
    obtain ⟨h, hh, e⟩ := hfrom
    unfold signedNames signedFields
    refine List.mem_append_left _ (List.mem_map.2 ⟨h, ?_, e⟩)
    rw [List.mem_filter, List.mem_reverse]
    refine ⟨hh, ?_⟩
    simp only [decide_eq_true_eq]
    refine ⟨?_, Or.inr ⟨b!"from", (by decide : b!"from" ∈ defaultHeaders), ?_⟩⟩
    · rintro h0; rw [h0] at e; exact absurd e (by decide)
    · rw [e]; decide
  oversign := by intro n hn; cases hn
  arcRange := harc
  identity := by
    intro x hx
    by_cases h : c.arcInstance = 0
    · exact ⟨_, _, .domain h rfl⟩
    · exact ⟨_, _, .arc h rfl⟩
  length := by intro h; cases h
  algs := by
    intro x hx
    have : x = (toolOptions c s).first := by simpa [Options.signatures, toolOptions] using hx
    rw [this]
  algName := by intro _; rfl
  expiry := by
    intro _
    refine ⟨h0, fun k => ?_⟩
    have : expiryTime (toolOptions c s) t = t + 1 := rfl
    rw [this]; exact hle

/-- What `-v` is told to look for. -/
def Spec.toolKind (c : Tool.Config) : ValidatorType := if c.arcInstance ≠ 0 then .arc else .dkim

theorem validate_first {fs : Bytes → Option Bytes} {f d : Bytes} {type : ValidatorType} {v : Validatory} {h : Header}
    {clock : Nat → Int} {resolver : Bytes → Bool × Bytes} {noise : Nat → Bool → Bool} {er : Bool} {line : Tool.Line}
    (hf : fs f = some d) (hv : Validatory.mk' (freshStream d) type = .ok v) (hs : v.sigs[0]? = some h)
    (hl : ∀ r st pub v', v.verifyOne E (clock 0) resolver h (noise 0 er) = (r, st, pub, v') → Tool.lineFor f r st pub = .ok line) :
    ∃ ls o, Tool.validateFiles E clock resolver noise fs type 0 er [f] = (line :: ls, o) := by
  unfold Tool.validateFiles
  rw [openFile_some hf, hv]
  simp only
  cases hsig : v.sigs with
  | nil => rw [hsig] at hs; cases hs
  | cons x xs =>
    rw [hsig] at hs
    cases hs
    unfold Tool.validateSigs
    cases hV : v.verifyOne E (clock 0) resolver h (noise 0 er) with
    | mk r q =>
    obtain ⟨st, pub, v'⟩ := q
    simp only [hl r st pub v' hV]
    generalize Tool.validateSigs E clock resolver noise f (0 + 1) v' st.erange xs = R
    obtain ⟨ls, o, er'⟩ := R
    cases o with
    | some e => exact ⟨ls, _, rfl⟩
    | none => exact ⟨_, _, rfl⟩

/-- C60: the tool and its own report agree. If the tool signs the message `d` (which does not begin with white space and
has a From field) at time `t`, and the matching key is published, then `-v` (with `-a` for ARC) on the file made of the text
written followed by `d` reports, in its first line, success for domain and selector of the command line at every time up
to `t + 1` and a permanent error at every later time. -/
theorem C60_round_trip (hB : E.B64Law) (clock : Nat → Int) (fs : Bytes → Option Bytes) (c : Tool.Config) (file d key out : Bytes)
    (s : SigOpts E) (ls : List Bytes) (off : Int) (hf : fs file = some d) (hd : HeadText 0 d ls off)
    (start : ∀ x ∈ d.head?, Spec.isWSP x = false)
    (hfrom : ∃ h ∈ (groupLines ls).map mkField, Spec.lower h.name = b!"from") (harc : c.arcInstance ≤ 50)
    (ht : 0 ≤ clock 0)
    (hkey : fs c.keyfile = some key) (hload : SigOpts.setPrivateKey key ({ alg := toolAlg c } : SigOpts E) = .ok () s)
    (resolver : Bytes → Bool × Bytes) (hpub : ∃ k, Published (toolOptions c s) resolver (toolOptions c s).first k)
    (hsign : Tool.sign E clock fs c file = (out, .exit 0)) (hlen : out.length < 2 ^ 31)
    (fs' : Bytes → Option Bytes) (mbox : Bytes) (hmbox : fs' mbox = some (out ++ d))
    (clock' : Nat → Int) (noise : Nat → Bool → Bool) (er : Bool) :
    (0 ≤ clock' 0 → clock' 0 ≤ clock 0 + 1 → ∃ more o,
      Tool.validateFiles E clock' resolver noise fs' (toolKind c) 0 er [mbox] =
        (⟨mbox, Spec.lower c.domain, c.selector, .ok⟩ :: more, o)) ∧
    (clock 0 + 1 < clock' 0 → clock' 0 < 2 ^ 63 → ∃ dom sel r more o,
      Tool.validateFiles E clock' resolver noise fs' (toolKind c) 0 er [mbox] =
        (⟨mbox, dom, sel, .perm .permerror r⟩ :: more, o)) := by
  rcases C60_output (E := E) clock fs c file with ⟨key', s', H, q1, q2, q3, q4, q5, q6⟩ | ⟨_, o, h1, h2⟩
  · rw [hkey] at q1; cases q1
    rw [hload] at q4; cases q4
    rw [q6] at hsign
    cases hsign
    have hst : signedText fs file = d := by unfold signedText; rw [hf]; rfl
    rw [hst, clock_const _ rfl] at q5
    have safe := toolOptions_safe s q2 q3
    have hlen' : H.length < 2 ^ 31 := by simp at hlen; omega
    have hpub' : ∀ x ∈ (toolOptions c s).signatures, ∃ k, Published (toolOptions c s) resolver x k := by
      intro x hx
      have : x = (toolOptions c s).first := by simpa [Options.signatures, toolOptions] using hx
      rw [this]; exact hpub
    have kind : toolKind c = kindOf (toolOptions c s) := rfl
    have nz : ∀ x, IsDomain x → cstr x = x := by
      intro x hx
      refine cstr_eq (fun h0 => ?_)
      exact absurd (plain_domain (Or.inr hx) 0 h0) (by decide)
    refine ⟨?_, ?_⟩
    · intro h0 hle
      obtain ⟨v, h3, h4⟩ := C44_round_trip hB (toolOptions c s) safe (fun _ => clock 0) (clock' 0) d H ls off hd
        (tool_wellFormed c s (clock 0) (clock' 0) d _ start hfrom harc h0 hle) resolver hpub' q5 hlen'
      obtain ⟨h, h5, h6⟩ := h4 0 (toolOptions c s).first rfl
      obtain ⟨st, pub, w', h7, _, ⟨h8, h9, _⟩⟩ := h6 v (noise 0 er) ⟨rfl, rfl, rfl, (mk'_built _ _ _ h3).1.off⟩ (by intro _; rfl)
      refine validate_first hmbox (by rw [kind]; exact h3) h5 ?_
      intro r st' pub' v' e
      rw [h7] at e
      cases e
      unfold Tool.lineFor
      have e1 : st.sig.domain = Dkim.lower c.domain := by rw [Spec.lower_eq] at h8; exact h8
      have e2 : st.sig.selector = c.selector := h9
      have e3 : cstr (Dkim.lower c.domain) = Dkim.lower c.domain := by
        refine cstr_eq (fun h0 => ?_)
        obtain ⟨x, hx, hx'⟩ := List.mem_map.1 h0
        exact absurd (hx' ▸ toLower_plain x (plain_domain (Or.inr q2) x hx)) (by decide)
      simp only [e1, e2, e3, nz _ q3, Spec.lower_eq]
    · intro hlt hnow
      obtain ⟨v, h3, h4⟩ := C53_expired (toolOptions c s) safe (fun _ => clock 0) (clock 0 + 1) d H ls off hd
        (tool_wellFormed c s (clock 0) (clock 0 + 1) d _ start hfrom harc (by omega) (Int.le_refl _)) rfl q5
      obtain ⟨h, h5, h6⟩ := h4 0 (toolOptions c s).first rfl
      obtain ⟨r, h7⟩ := h6 v (noise 0 er) (clock' 0) resolver hlt hnow
      cases hV : v.verifyOne E (clock' 0) resolver h (noise 0 er) with
      | mk r' q =>
      obtain ⟨st, pub, v'⟩ := q
      have hpub0 : pub = {} := by rw [hV] at h7; exact h7.2
      have h7 := h7.1
      refine ⟨cstr st.sig.domain, cstr st.sig.selector, r, validate_first hmbox (by rw [kind]; exact h3) h5 ?_⟩
      intro r2 st2 pub2 v2 e
      rw [hV] at e h7
      simp only at h7
      cases e
      rw [h7]
      unfold Tool.lineFor
      simp only [hpub0]
      rfl
  · rw [h2] at hsign
    cases hsign
    exact absurd rfl h1

/-! ### The command line -/

/-- The last argument given to an option, or the default. -/
def Spec.lastArg (f : Tool.Cli → Option Bytes) (dflt : Bytes) (opts : List Tool.Cli) : Bytes :=
  (opts.filterMap f).getLast?.getD dflt

/-- Options that end the program at once. -/
def Spec.isStop : Tool.Cli → Bool
  | .help => true
  | .unknown => true
  | .arcInstance none => true
  | _ => false

/-- C60: the settings are those of the last occurrence of each option, unless an option ends the program. -/
theorem C60_options (opts : List Tool.Cli) :
    (∃ c, Tool.configure {} opts = .ok c) ↔ ∀ x ∈ opts, isStop x = false := by
  have main : ∀ (opts : List Tool.Cli) (c0 : Tool.Config), (∃ c, Tool.configure c0 opts = .ok c) ↔ ∀ x ∈ opts, isStop x = false := by
    intro opts
    induction opts with
    | nil => intro c0; simp [Tool.configure]
    | cons x xs ih =>
      intro c0
      unfold Tool.configure
      rw [List.forall_mem_cons]
      cases x with
      | arcInstance a => cases a <;> simp [Tool.Cli.apply, isStop, ih]
      | _ => simp [Tool.Cli.apply, isStop, ih]
  exact main opts {}

theorem C60_options_values (opts : List Tool.Cli) (c : Tool.Config) (h : Tool.configure {} opts = .ok c) :
    c.domain = lastArg (fun x => match x with | .domain a => some a | _ => none) [] opts ∧
    c.selector = lastArg (fun x => match x with | .selector a => some a | _ => none) [] opts ∧
    c.keyfile = lastArg (fun x => match x with | .keyfile a => some a | _ => none) [] opts ∧
    c.keytype = lastArg (fun x => match x with | .keytype a => some a | _ => none) b!"rsa" opts ∧
    (c.validate = true ↔ Tool.Cli.validate ∈ opts) ∧ (c.type = if Tool.Cli.arc ∈ opts then .arc else .dkim) := by
  have main : ∀ (opts : List Tool.Cli) (c0 c : Tool.Config), Tool.configure c0 opts = .ok c →
      c.domain = lastArg (fun x => match x with | .domain a => some a | _ => none) c0.domain opts ∧
      c.selector = lastArg (fun x => match x with | .selector a => some a | _ => none) c0.selector opts ∧
      c.keyfile = lastArg (fun x => match x with | .keyfile a => some a | _ => none) c0.keyfile opts ∧
      c.keytype = lastArg (fun x => match x with | .keytype a => some a | _ => none) c0.keytype opts ∧
      (c.validate = true ↔ c0.validate = true ∨ Tool.Cli.validate ∈ opts) ∧
      (c.type = if Tool.Cli.arc ∈ opts then .arc else c0.type) := by
    intro opts
    induction opts with
    | nil =>
      intro c0 c h
      cases h
      simp [lastArg]
    | cons x xs ih =>
      intro c0 c h
      unfold Tool.configure at h
      have step : ∀ (f : Tool.Cli → Option Bytes) (dflt : Bytes), lastArg f dflt (x :: xs) = lastArg f ((f x).getD dflt) xs := by
        intro f dflt
        unfold lastArg
        cases hf : f x with
        | none => rw [List.filterMap_cons_none hf]; rfl
        | some a =>
          rw [List.filterMap_cons_some hf, List.getLast?_cons]
          simp
      simp only [step]
      cases x with
      | arcInstance a =>
        cases a with
        | none => cases h
        | some a =>
          have := ih _ _ h
          simpa using this
      | help => cases h
      | unknown => cases h
      | _ =>
        have := ih _ _ h
        simpa [Tool.Cli.apply] using this
  have := main opts {} c h
  simpa using this

/-- C60: `--arcinstance` (declared without argument) makes the tool read a null pointer. -/
theorem C60_arcinstance_witness (clock : Nat → Int) (resolver : Bytes → Bool × Bytes) (noise : Nat → Bool → Bool)
    (fs : Bytes → Option Bytes) (er : Bool) (args : List Bytes) :
    (Tool.main E clock resolver noise fs er [.arcInstance none] args).outcome = .abort .ub := by
  unfold Tool.main
  rw [if_neg (by simp)]
  rfl

namespace Samples

/-- A file system: a message, a key, and the message with the signature written by the tool in front. -/
def toolFS (out : Bytes) (f : Bytes) : Option Bytes :=
  if f = b!"m" then some message else if f = b!"k" then some b!"-----" else if f = b!"s" then some (out ++ message) else none

/-- `tool -s s -d d.e -k k m` at time 1000. -/
def toolSign : Tool.Output := Tool.main toyEnv (fun _ => 1000) (fun _ => (true, rsaRec)) (fun _ e => e) (toolFS []) false
  [.selector b!"s", .domain b!"d.E", .keyfile b!"k"] [b!"m"]

/-- `tool -v m x s` at the given time (`x` does not exist). -/
def toolVerify (now : Int) : Tool.Output := Tool.main toyEnv (fun _ => now) (fun _ => (true, rsaRec)) (fun _ e => e)
  (toolFS toolSign.signed) false [.validate] [b!"m", b!"x", b!"s"]

theorem toolSign_ok : toolSign.outcome = .exit 0 := by decide +kernel

/-- The tool's signature is good for one second. -/
theorem toolVerify_lines :
    (toolVerify 1001).lines = [⟨b!"s", b!"d.e", b!"s", .ok⟩] ∧ (toolVerify 1001).outcome = .exit 0 ∧
    (toolVerify 1002).lines.map (fun l => (l.file, l.verdict)) = [(b!"s", .perm .permerror .expired)] := by decide +kernel

end Samples

/-- The hypotheses of `C60_round_trip` are met by the sample. -/
example : ∃ more o, Tool.validateFiles toyEnv (fun _ => 1001) (fun _ => (true, Samples.rsaRec)) (fun _ e => e)
    (Samples.toolFS Samples.toolSign.signed) .dkim 0 true [b!"s"] = (⟨b!"s", Spec.lower b!"d.E", b!"s", .ok⟩ :: more, o) := by
  have hsign : Tool.sign toyEnv (fun _ => 1000) (Samples.toolFS [])
      { selector := b!"s", domain := b!"d.E", keyfile := b!"k" } b!"m" = (Samples.toolSign.signed, .exit 0) := by
    decide +kernel
  refine (C60_round_trip Samples.toyLaw (fun _ => 1000) (Samples.toolFS [])
    { selector := b!"s", domain := b!"d.E", keyfile := b!"k" } b!"m" Samples.message b!"-----" Samples.toolSign.signed
    { rsa := some (7 : Nat) } _ _ rfl Samples.headText_message (by decide) (by decide +kernel) (by decide) (by decide) rfl rfl
    (fun _ => (true, Samples.rsaRec)) ?_ hsign (by decide +kernel) (Samples.toolFS Samples.toolSign.signed) b!"s" rfl
    (fun _ => 1001) (fun _ e => e) true).1 (by decide) (by decide)
  refine ⟨{ tags := [(b!"v", ⟨b!"DKIM1", 2⟩), (b!"p", ⟨b!"Bw==", 11⟩)], rsa := some (7 : Nat) }, ⟨_, rfl, by decide, by rfl⟩, ?_,
    .inl rfl, fun _ h => absurd h (by decide)⟩
  refine .rsa (7 : Nat) (7 : Nat) rfl rfl rfl rfl ?_
  intro md sg h
  have h : some (UInt8.ofNat 7 :: md) = some sg := h
  cases h
  exact ⟨by simp, by show (_ == _) = true; simp⟩

/-! ### C59: what an OK line means -/

/-- Lines are about jobs. -/
theorem Spec.Reported.mem {type : ValidatorType} {clock : Nat → Int} {resolver : Bytes → Bool × Bytes} {k : Nat} {js : List Job}
    {ls : List Tool.Line} {o : Option Err} (h : Reported E type clock resolver k js ls o) :
    (o = none → ls.length = js.length) ∧ ∀ l ∈ ls, ∃ j ∈ js, ∃ n er, Correct E type (clock n) resolver j er l := by
  induction h with
  | done k => simp
  | line k j js er l ls o hc _ ih =>
    refine ⟨fun h => by simp [ih.1 h], ?_⟩
    intro x hx
    rcases List.mem_cons.1 hx with rfl | hx
    · exact ⟨j, by simp, k, er, hc⟩
    · obtain ⟨j', h1, h2⟩ := ih.2 x hx
      exact ⟨j', by simp [h1], h2⟩
  | fatal k j js er e hf => simp

/-- C59: an OK line is only printed for a file that contains a signature field for that domain and selector which the library,
used by itself on the text of the file, accepts; with status 0 there is one line for every signature field. -/
theorem C59_ok_line (clock : Nat → Int) (resolver : Bytes → Bool × Bytes) (noise : Nat → Bool → Bool)
    (fs : Bytes → Option Bytes) (type : ValidatorType) (files : List Bytes) (er : Bool) (ls : List Tool.Line) (out : Tool.Outcome)
    (h : Tool.validateFiles E clock resolver noise fs type 0 er files = (ls, out)) :
    (out = .exit 0 → ls.length = (jobs type fs files).length) ∧
    ∀ l ∈ ls, l.verdict = .ok → ∃ d v hd n st pub v', l.file ∈ files ∧ fs l.file = some d ∧
      Validatory.mk' (freshStream d) type = .ok v ∧ hd ∈ v.sigs ∧
      v.verifyOne E (clock n) resolver hd false = (.ok (), st, pub, v') ∧ l.domain = cstr st.sig.domain ∧
      l.selector = cstr st.sig.selector := by
  obtain ⟨ls', o, h1, h2⟩ := C59_report (E := E) clock resolver noise fs type files er
  rw [h] at h2
  simp only [Prod.mk.injEq] at h2
  obtain ⟨rfl, rfl⟩ := h2
  obtain ⟨m1, m2⟩ := h1.mem
  refine ⟨?_, ?_⟩
  · intro ho
    apply m1
    cases o with
    | none => rfl
    | some e => cases ho
  · intro l hl hok
    obtain ⟨j, hj, n, er', v, r, st, pub, v', c1, c2, c3, c4, c5, c6⟩ := m2 l hl
    rw [hok] at c6
    generalize pub.softFail = y at c6
    cases c6
    unfold jobs at hj
    obtain ⟨f, hf, hj⟩ := List.mem_flatMap.1 hj
    cases hd : fs f with
    | none => rw [hd] at hj; cases hj
    | some d =>
      rw [hd] at hj
      obtain ⟨hh, q1, rfl⟩ := List.mem_map.1 hj
      unfold sigFields at q1
      simp only at c1 c2 c3
      rw [c1] at q1
      simp only at q1
      -- errno
      have : ∃ st2 v2, v.verifyOne E (clock n) resolver hh false = (.ok (), st2, pub, v2) ∧ st2.sig = st.sig := by
        unfold Validatory.verifyOne Validatory.getSignature at c2 ⊢
        cases hp : Signature.parse E (clock n) hh { erange := er' } with
        | error e st' => rw [hp] at c2; simp at c2
        | ok u st' =>
          obtain ⟨e'', hp2⟩ := C29_errno_only_rejects E (clock n) hh er' st'.sig st'.erange hp
          rw [hp] at c2
          rw [show ({ erange := false } : SigSt) = {} from rfl, hp2]
          simp only at c2 ⊢
          generalize v.checkBodyHash E st'.sig = R at c2 ⊢
          obtain ⟨r1, v1⟩ := R
          cases r1 with
          | error e => simp at c2
          | ok u =>
            simp only at c2 ⊢
            cases hk : getPublicKey resolver st'.sig ({} : PublicKey E) with
            | error e p => rw [hk] at c2; simp at c2
            | ok u p =>
              rw [hk] at c2
              simp only [Prod.mk.injEq] at c2 ⊢
              obtain ⟨a1, a2, a3, a4⟩ := c2
              subst a2 a3
              exact ⟨_, _, ⟨a1, rfl, rfl, rfl⟩, rfl⟩
      obtain ⟨st2, v2, r1, r2⟩ := this
      exact ⟨d, v, hh, n, st2, pub, v2, by rw [c3]; exact hf, by rw [c3]; exact hd, c1, q1, r1, by rw [c4, r2], by rw [c5, r2]⟩

/-- C59: undefined behaviour and uncaught exceptions aside (see C43), the tool cannot be made to report anything else: here a file
whose second signature has too little Ed25519 data ends the report. -/
theorem C59_abort_witness :
    let m := b!"DKIM-Signature: v=1; a=rsa-sha256; d=d.e; s=s; h=from;\r\n bh=Ag0K; b=AAAA\r\nDKIM-Signature: v=1; a=ed25519-sha256; d=d.e; s=s; h=from;\r\n bh=Ag0K; b=AAAA\r\nFrom: a\r\n\r\n"
    let r := Tool.main toyEnv (fun _ => 0) (fun _ => (true, Samples.edRec)) (fun _ e => e) (fun _ => some m) false [.validate] [b!"m"]
    r.lines.map (fun l => l.verdict) = [.perm .permerror .algMismatch] ∧ r.outcome = .abort .ub := by decide +kernel

end Dkim
