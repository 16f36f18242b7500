import Verif.Proofs.Temporaries
import Verif.Proofs.BareText
import Verif.Props.Repeat
import Verif.Tests.Samples
/-!
# Property C98: temporary objects are freed
-/

namespace Dkim
open Spec

namespace Tmp

theorem bind_run (f : TmpM σ α) (f' : α → TmpM σ β) (w : σ × TmpObjects) :
    (f >>= f') w = match f w with
      | .ok a w' => f' a w'
      | .error e w' => .error e w' := by
  show EStateM.bind f f' w = _
  unfold EStateM.bind
  cases f w <;> rfl

theorem new_run (k : TmpKind) (st : σ) (h : TmpObjects) : new k (st, h) = .ok h.next (st, push h k) := rfl

theorem use_run {h : TmpObjects} {i : Nat} (ha : h.alive i = true) (st : σ) :
    use i (st, h) = .ok () (st, h) := by unfold use; simp [ha]

theorem free_run {h : TmpObjects} {i : Nat} (ha : h.alive i = true) (st : σ) :
    free i (st, h) = .ok () (st, { h with live := h.live.filter (fun p => p.1 ≠ i) }) := by
  unfold free; simp [ha]

/-- The heap after objects were created and freed again. -/
def skip (h : TmpObjects) (n : Nat) : TmpObjects := { h with next := h.next + n }

theorem push_push_alive (h : TmpObjects) (k k' : TmpKind) :
    (push (push h k) k').alive h.next = true ∧ (push (push h k) k').alive (h.next + 1) = true := by
  simp [TmpObjects.alive, push]

theorem push_alive (h : TmpObjects) (k : TmpKind) : (push h k).alive h.next = true := by
  simp [TmpObjects.alive, push]

/-- Two objects of which the first is freed. -/
theorem free_first {h : TmpObjects} (hw : Numbered h) (k k' : TmpKind) (st : σ) :
    free h.next (st, push (push h k) k') = .ok () (st, push (skip h 1) k') := by
  rw [free_run (push_push_alive h k k').1]
  simp only [push, skip]
  rw [List.filter_cons_of_pos (by simp), List.filter_cons_of_neg (by simp), filter_old hw (Nat.le_refl _)]

theorem numbered_skip {h : TmpObjects} (hw : Numbered h) (n : Nat) : Numbered (skip h n) :=
  fun p hp => Nat.lt_of_lt_of_le (hw p hp) (Nat.le_add_right _ _)

theorem free_push {h : TmpObjects} (hw : Numbered h) (k : TmpKind) (st : σ) :
    free h.next (st, push h k) = .ok () (st, skip h 1) := by
  rw [free_run (push_alive h k)]
  simp only [push, skip]
  rw [List.filter_cons_of_neg (by simp), filter_old hw (Nat.le_refl _)]

theorem decode64_run (E : Env) (d : Bytes) (st : σ) {h : TmpObjects} (hw : Numbered h) :
    decode64 E d (st, h) = .ok (E.b64dec d) (st, skip h 2) := by
  unfold decode64
  rw [bind_run, new_run]
  dsimp only
  rw [bind_run, new_run]
  dsimp only
  rw [bind_run, use_run (by exact (push_push_alive h .bio .bio).2)]
  dsimp only
  rw [bind_run, use_run (push_push_alive h .bio .bio).1]
  dsimp only
  rw [bind_run, free_first hw]
  dsimp only
  rw [bind_run]
  have := free_push (numbered_skip hw 1) .bio st
  have e : (push h .bio).next = (skip h 1).next := rfl
  rw [e]
  rw [this]
  rfl

theorem encode64_run (d : Bytes) (st : σ) {h : TmpObjects} (hw : Numbered h) :
    encode64 d (st, h) = .ok (b64Encode d) (st, skip h 2) := by
  unfold encode64
  rw [bind_run, new_run]
  dsimp only
  rw [bind_run, new_run]
  dsimp only
  rw [bind_run, use_run (push_push_alive h .bio .bio).1]
  dsimp only
  rw [bind_run, use_run (by exact (push_push_alive h .bio .bio).2)]
  dsimp only
  rw [bind_run, free_first hw]
  dsimp only
  rw [bind_run]
  have := free_push (numbered_skip hw 1) .bio st
  have e : (push h .bio).next = (skip h 1).next := rfl
  rw [e]
  rw [this]
  rfl

theorem Ends.decode64 (need : List Nat) (P : Err → Prop) (E : Env) (d : Bytes) :
    Ends need P (Tmp.decode64 (σ := σ) E d) (Pure.pure (E.b64dec d)) := by
  intro st h hw _
  rw [decode64_run E d st hw]
  exact ⟨rfl, Nat.le_add_right _ _, Or.inl ⟨rfl, rfl⟩⟩

theorem Ends.encode64 (need : List Nat) (P : Err → Prop) (d : Bytes) :
    Ends need P (Tmp.encode64 (σ := σ) d) (Pure.pure (b64Encode d)) := by
  intro st h hw _
  rw [encode64_run d st hw]
  exact ⟨rfl, Nat.le_add_right _ _, Or.inl ⟨rfl, rfl⟩⟩

/-! ### the parsers -/

theorem Ends.of_eq {need : List Nat} {P : Err → Prop} {f : TmpM σ α} {g g' : EStateM Err σ α}
    (h : Ends need P f g) (hg : ∀ st, g st = g' st) : Ends need P f g' := by
  have : g = g' := funext hg
  subst this; exact h

theorem sigB_ends (need : List Nat) (E : Env) : Ends need (fun _ => False) (sigB E) (Dkim.sigB E) := by
  unfold sigB Dkim.sigB
  refine Ends.bind (Ends.lift _ _ _) fun b => ?_
  split
  · refine Ends.bind (Ends.lift _ _ _) fun _ => ?_
    exact (Ends.bind (Ends.decode64 _ _ E _) fun d => Ends.lift _ _ _).of_eq (fun _ => rfl)
  · exact (Ends.bind (Ends.decode64 _ _ E _) fun d => Ends.lift _ _ _).of_eq (fun _ => rfl)

theorem sigBH_ends (need : List Nat) (E : Env) : Ends need (fun _ => False) (sigBH E) (Dkim.sigBH E) := by
  unfold sigBH Dkim.sigBH
  refine Ends.bind (Ends.lift _ _ _) fun b => ?_
  exact (Ends.bind (Ends.decode64 _ _ E _) fun d => Ends.lift _ _ _).of_eq (fun _ => rfl)

theorem parseSignature_ends (E : Env) (now : Int) (h : Header) :
    Ends [] (fun _ => False) (parseSignature E now h) (Signature.parse E now h) := by
  unfold parseSignature Signature.parse
  refine (Ends.bind (Ends.lift _ _ _) fun _ => Ends.bind (sigB_ends _ E) fun _ =>
    Ends.bind (sigBH_ends _ E) fun _ => Ends.lift _ _ _).of_eq (fun _ => ?_)
  simp only [bind_assoc]

/-- A new object that is used together with another one and freed. -/
theorem new_with {need : List Nat} {P : Err → Prop} {k : TmpKind} {head : Nat} (hh : head ∈ need) {f : TmpM σ α}
    {g : EStateM Err σ α} (h : Ends need P f g) :
    Ends need P (do let i ← new k; use head; use i; free i; f) g := by
  have hc : Ends need P (Tmp.guarded k (fun i => do use head; use i)) (Pure.pure () : EStateM Err σ Unit) :=
    Ends.guarded (fun i => Ends.bind (g := Pure.pure ()) (g' := fun _ => Pure.pure ())
      (Ends.use P (List.mem_cons_of_mem _ hh)) fun _ => Ends.use P (List.mem_cons_self ..))
  have := hc.bind (f' := fun _ => f) (g' := fun _ => g) (fun _ => h)
  exact this

/-- An object that is used during a step which cannot fail. -/
theorem new_use_modify_free (need : List Nat) (P : Err → Prop) (k : TmpKind) (F : σ → σ) :
    Ends need P (do let i ← new k; use i; lift (modify F); free i) (modify F) := by
  intro st h hw _
  have hr : ((do let i ← new k; use i; lift (modify F); free i : TmpM σ Unit)) (st, h) =
      .ok () (F st, skip h 1) := by
    rw [bind_run, new_run]
    dsimp only
    rw [bind_run, use_run (push_alive h k)]
    dsimp only
    rw [bind_run]
    exact free_push hw k (F st)
  rw [hr]
  exact ⟨rfl, Nat.le_add_right _ _, Or.inl ⟨rfl, rfl⟩⟩

theorem keyP_ends (E : Env) : Ends [] (fun _ => False) (keyP E) (Dkim.keyP (E := E)) := by
  unfold keyP Dkim.keyP
  refine Ends.bind (Ends.lift _ _ _) fun p => ?_
  cases p with
  | none => exact Ends.lift _ _ _
  | some p =>
    dsimp only
    have main : Ends [] (fun _ => False) (do
        match (← lift get).alg with
        | .rsa => do
          let dat ← decode64 E (stripSpace p.value)
          match E.d2iPubkey dat with
          | none => lift (throw (.p .keyBadDER))
          | some none =>
            let pk ← new .pkey
            use pk
            free pk
            lift (throw (.p .keyNotRSA))
          | some (some key) =>
            let pk ← new .pkey
            use pk
            lift (modify ({ · with rsa := some key }))
            free pk
        | .ed25519 => do
          let dat ← decode64 E (stripSpace p.value)
          if dat.length ≠ 32 then lift (throw (.p .keyBadEd))
          lift (modify ({ · with ed := dat })) : TmpM (PublicKey E) Unit) (do
        let dat := E.b64dec (stripSpace p.value)
        match (← get).alg with
        | .rsa =>
          match E.d2iPubkey dat with
          | none => throw (.p .keyBadDER)
          | some none => throw (.p .keyNotRSA)
          | some (some key) => modify ({ · with rsa := some key })
        | .ed25519 =>
          if dat.length ≠ 32 then throw (.p .keyBadEd)
          modify ({ · with ed := dat }) : KeyM E Unit) := by
      refine Ends.bind (Ends.lift _ _ _) fun q => ?_
      cases q.alg with
      | rsa =>
        dsimp only
        refine (Ends.bind (Ends.decode64 _ _ E _) (g' := fun dat => (match E.d2iPubkey dat with
          | none => throw (.p .keyBadDER)
          | some none => throw (.p .keyNotRSA)
          | some (some key) => modify ({ · with rsa := some key }) : KeyM E Unit)) fun dat => ?_).of_eq (fun _ => rfl)
        cases E.d2iPubkey dat with
        | none => exact Ends.lift _ _ _
        | some o =>
          cases o with
          | none => exact new_use_free (Ends.lift _ _ _)
          | some key => exact new_use_modify_free _ _ _ _
      | ed25519 =>
        dsimp only
        refine (Ends.bind (Ends.decode64 _ _ E _) (g' := fun dat => (do
          if dat.length ≠ 32 then throw (.p .keyBadEd)
          modify ({ · with ed := dat }) : KeyM E Unit)) fun dat => ?_).of_eq (fun _ => rfl)
        dsimp only
        split
        · exact Ends.bind (Ends.lift _ _ _) fun _ => Ends.lift _ _ _
        · exact Ends.lift _ _ _
    split
    · exact Ends.bind (Ends.lift _ _ _) fun _ => main
    · exact main

theorem parseKey_ends (E : Env) (txt : Bytes) :
    Ends [] (fun _ => False) (parseKey E txt) (PublicKey.parse (E := E) txt) := by
  unfold parseKey PublicKey.parse
  refine (Ends.bind (Ends.lift _ _ _) fun _ => Ends.bind (keyP_ends E) fun _ =>
    Ends.lift _ _ _).of_eq (fun _ => ?_)
  simp only [bind_assoc]

theorem getPublicKey_ends (E : Env) (resolver : Bytes → Bool × Bytes) (sig : Signature) :
    Ends [] (fun _ => False) (getPublicKey E resolver sig) (Dkim.getPublicKey (E := E) resolver sig) := by
  unfold getPublicKey Dkim.getPublicKey
  dsimp only
  split
  · split
    · exact Ends.lift _ _ _
    · exact parseKey_ends E _
  · exact Ends.lift _ _ _

theorem setPrivateKey_ends (E : Env) (k : Bytes) :
    Ends [] (fun _ => False) (setPrivateKey E k) (SigOpts.setPrivateKey (E := E) k) := by
  unfold setPrivateKey SigOpts.setPrivateKey
  refine Ends.bind (Ends.lift _ _ _) fun q => ?_
  cases q.alg with
  | rsa =>
    dsimp only
    by_cases hk : k.take 5 = b!"-----"
    · rw [if_pos hk, if_pos hk]
      intro st h hw _
      have two : ∀ F : SigOpts E → SigOpts E, (do
          let pk ← new .pkey
          free h.next
          use pk
          lift (modify F)
          free pk : TmpM (SigOpts E) Unit) (st, push h .bio) = .ok () (F st, skip h 2) := by
        intro F
        rw [bind_run, new_run]
        dsimp only
        rw [bind_run, free_first hw]
        dsimp only
        have e : (push h .bio).next = (skip h 1).next := rfl
        rw [e, bind_run, use_run (push_alive (skip h 1) .pkey)]
        dsimp only
        rw [bind_run]
        exact free_push (numbered_skip hw 1) .pkey (F st)
      rw [bind_run, new_run]
      dsimp only
      rw [bind_run, use_run (push_alive h .bio)]
      dsimp only
      cases E.pemPriv k with
      | none =>
        dsimp only
        rw [bind_run, free_push hw]
        exact ⟨rfl, Nat.le_add_right _ _, Or.inl ⟨rfl, rfl⟩⟩
      | some o =>
        cases o with
        | none =>
          dsimp only
          have : (do
              let pk ← new .pkey
              free h.next
              use pk
              free pk
              lift (throw (.p .privNotRSA)) : TmpM (SigOpts E) Unit) (st, push h .bio) =
              .error (.p .privNotRSA) (st, skip h 2) := by
            rw [bind_run, new_run]
            dsimp only
            rw [bind_run, free_first hw]
            dsimp only
            have e : (push h .bio).next = (skip h 1).next := rfl
            rw [e, bind_run, use_run (push_alive (skip h 1) .pkey)]
            dsimp only
            rw [bind_run, free_push (numbered_skip hw 1)]
            rfl
          rw [this]
          exact ⟨rfl, Nat.le_add_right _ _, Or.inl ⟨rfl, rfl⟩⟩
        | some r =>
          dsimp only
          rw [two]
          exact ⟨rfl, Nat.le_add_right _ _, Or.inl ⟨rfl, rfl⟩⟩
    · rw [if_neg hk, if_neg hk]
      refine (Ends.bind (Ends.decode64 _ _ E _) (g' := fun t => (do
        let r := E.derPriv t
        modify ({ · with rsa := r })
        if r.isNone then throw (.p .badDer) : EStateM Err (SigOpts E) Unit)) fun t => ?_).of_eq (fun _ => rfl)
      refine Ends.bind (Ends.lift _ _ _) fun _ => ?_
      split
      · exact Ends.lift _ _ _
      · exact Ends.pure _ _ _
  | ed25519 =>
    dsimp only
    split
    · exact Ends.lift _ _ _
    · split
      · exact Ends.lift _ _ _
      · refine (Ends.bind (Ends.decode64 _ _ E _) (g' := fun t => (
          if t.length = 64 then modify ({ · with ed := t })
          else if t.length = 32 then modify ({ · with ed := (E.edSeed t) })
          else throw (.p .badEdKey) : EStateM Err (SigOpts E) Unit)) fun t => ?_).of_eq (fun _ => rfl)
        split
        · exact Ends.lift _ _ _
        · split
          · exact Ends.lift _ _ _
          · exact Ends.lift _ _ _

/-! ### verification -/

/-- A result with its object as a computation. -/
def stateful (f : σ → Except Err α × σ) : EStateM Err σ α := fun st =>
  match f st with
  | (.ok a, st') => .ok a st'
  | (.error e, st') => .error e st'

theorem checkBodyHash_ends (E : Env) (sig : Signature) :
    Ends [] (fun _ => False) (checkBodyHash E sig) (stateful fun v => v.checkBodyHash E sig) := by
  unfold checkBodyHash
  refine Ends.guarded fun ctx => ?_
  refine (Ends.bind (Ends.lift _ _ _) fun v => Ends.bind (Ends.liftX _ _ _)
    (g' := fun p => (do
      set { v with file := p.2 }
      if sig.bh ≠ E.hash sig.digest p.1.1.flatten then throw (.perm .bodyHashMismatch .fail) : EStateM Err Validatory Unit))
    fun p => ?_).of_eq fun v => ?_
  · obtain ⟨⟨calls, b⟩, s'⟩ := p
    refine Ends.bind (Ends.lift _ _ _) fun _ => ?_
    refine (Ends.bind (Ends.use _ (List.mem_cons_self ..)) (g' := fun _ => ite _ _ _) fun _ => ?_).of_eq (fun _ => rfl)
    dsimp only
    split
    · exact Ends.lift _ _ _
    · exact Ends.pure _ _ _
  · unfold stateful Validatory.checkBodyHash
    show EStateM.bind _ _ v = _
    simp only [EStateM.bind, get, getThe, MonadStateOf.get, EStateM.get]
    show EStateM.bind _ _ v = _
    simp only [EStateM.bind]
    cases canonBody v.file sig.canonBody v.msg.bodyOffset sig.bodySizeLimit sig.bodySize with
    | error e => rfl
    | ok p =>
      obtain ⟨⟨calls, b⟩, s'⟩ := p
      show (if sig.bh ≠ E.hash sig.digest calls.flatten then throw (.perm .bodyHashMismatch .fail) else pure () :
        EStateM Err Validatory Unit) { v with file := s' } = _
      by_cases hb : sig.bh = E.hash sig.digest calls.flatten
      · simp only [hb, ne_eq, not_true_eq_false, if_false, if_true]; rfl
      · simp only [hb, ne_eq, not_false_iff, if_false, if_true]; rfl

theorem checkSignature_ends (E : Env) (msg : Message) (h : Header) (sig : Signature) (pub : PublicKey E) :
    Ends [] (fun _ => False) (checkSignature (σ := σ) E msg h sig pub) (liftE (Dkim.checkSignature E msg h sig pub)) := by
  unfold checkSignature
  refine (Ends.bind (Ends.liftX _ _ _) (g' := fun _ => (do
      let input ← liftE (headerHashInput msg h sig)
      liftE (verifyDigest E sig pub (E.hash sig.digest input)) : EStateM Err σ Unit)) fun _ => ?_).of_eq fun st => ?_
  · refine Ends.guarded fun ctx => Ends.bind (Ends.liftX _ _ _) fun input => ?_
    exact (Ends.bind (Ends.use _ (List.mem_cons_self ..)) fun _ => Ends.liftX _ _ _).of_eq (fun _ => rfl)
  · unfold Dkim.checkSignature
    cases sanityCheck sig pub with
    | error e => rfl
    | ok u =>
      cases headerHashInput msg h sig with
      | error e => rfl
      | ok input => rfl

/-! ### signing -/

theorem signDigest_ends (need : List Nat) (P : Err → Prop) (E : Env) (s : SigOpts E) (da : DigestAlg) (md : Bytes) :
    Ends need P (signDigest (σ := σ) E s da md) (liftE (Dkim.signDigest E s da md)) := by
  unfold signDigest
  cases ha : s.alg with
  | ed25519 => exact Ends.liftX _ _ _
  | rsa =>
    dsimp only
    cases hr : s.rsa with
    | none =>
      refine (Ends.liftX _ _ _).of_eq fun _ => ?_
      simp only [Dkim.signDigest, ha, hr]
    | some key =>
      dsimp only
      have hd : Dkim.signDigest E s da md = match E.rsaSign key da md with
          | none => .error (.p .signFailed)
          | some sg => .ok sg := by
        simp only [Dkim.signDigest, ha, hr]
        cases E.rsaSign key da md <;> rfl
      rw [hd]
      cases E.rsaSign key da md with
      | none => exact new_use_free (Ends.liftX _ _ _)
      | some sg =>
        dsimp only
        intro st h hw _
        rw [bind_run, new_run]
        dsimp only
        rw [bind_run, use_run (push_alive h .buffer)]
        dsimp only
        rw [bind_run, use_run (push_alive h .buffer)]
        dsimp only
        rw [bind_run, free_push hw]
        exact ⟨rfl, Nat.le_add_right _ _, Or.inl ⟨rfl, rfl⟩⟩

theorem liftX_ok_bind (a : α) (f : α → TmpM σ β) : (liftX (.ok a) >>= f) = f a := rfl

theorem liftX_error_bind (e : Err) (f : α → TmpM σ β) : (liftX (.error e) >>= f) = liftX (.error e) := rfl

/-- `FilterHeader` does not take the text of one of the generated fields. -/
def Refused {E : Env} (o : Options E) (ss : List (SigOpts E)) (names : List Bytes) (bh : Bytes) (e : Err) : Prop :=
  ∃ s ∈ ss, ∃ now text, sigHeaderText o s now names bh = .ok text ∧ filterHeader o.canonHead text = .error e

theorem oneSignature_ends {need : List Nat} (E : Env) (o : Options E) (s : SigOpts E) (now : Int) {head : Nat}
    (hh : head ∈ need) (hashed : Bytes) (names : List Bytes) (bh : Bytes) :
    Ends need (Refused o [s] names bh) (oneSignature (σ := σ) E o s now head hashed names bh)
      (liftE (Dkim.oneSignature E o s now hashed names bh)) := by
  unfold oneSignature
  cases ht : sigHeaderText o s now names bh with
  | error e =>
    intro st h hw _
    refine ⟨?_, Nat.le_refl _, Or.inl ⟨rfl, rfl⟩⟩
    simp only [Dkim.oneSignature, ht]
    rfl
  | ok text =>
    cases hf : filterHeader o.canonHead text with
    | error e =>
      have hm : Dkim.oneSignature E o s now hashed names bh = .error e := by
        simp only [Dkim.oneSignature, ht, hf]
      rw [hm]
      simp only [liftX_ok_bind, liftX_error_bind, hf]
      intro st h hw ha
      have ha' : (push (skip h 2) .digestCtx).alive head = true := by
        have := ha head hh
        simp only [TmpObjects.alive, push, skip, List.any_cons, Bool.or_eq_true] at this ⊢
        exact Or.inr this
      have hr : (do
          let _ ← encode64 bh
          let _ ← new .digestCtx
          use head
          liftX (.error e) : TmpM σ Bytes) (st, h) = .error e (st, push (skip h 2) .digestCtx) := by
        rw [bind_run, encode64_run bh st hw]
        dsimp only
        rw [bind_run, new_run]
        dsimp only
        rw [bind_run, use_run ha']
        rfl
      rw [hr]
      refine ⟨rfl, ?_, Or.inr ⟨⟨_, _, rfl, s, by simp, now, text, ht, hf⟩, (skip h 2).next, ?_, ?_, rfl, rfl⟩⟩
      · show h.next ≤ h.next + 2 + 1; omega
      · show h.next ≤ h.next + 2; omega
      · show h.next + 2 < h.next + 2 + 1; omega
    | ok t2 =>
      have hm : Dkim.oneSignature E o s now hashed names bh =
          match Dkim.signDigest E s o.digest (E.hash o.digest (hashed ++ t2)) with
          | .error e => .error e
          | .ok sg =>
            match foldB ((b64Encode sg).length + 1) 3 (b64Encode sg) with
            | .error e => .error e
            | .ok b => .ok (text ++ b) := by
        simp only [Dkim.oneSignature, ht, hf]
        rfl
      rw [hm]
      have tail : Ends need (Refused o [s] names bh) (do
          let sg ← signDigest (σ := σ) E s o.digest (E.hash o.digest (hashed ++ t2))
          let split ← encode64 sg
          let b ← liftX (foldB (split.length + 1) 3 split)
          return text ++ b) (liftE (match Dkim.signDigest E s o.digest (E.hash o.digest (hashed ++ t2)) with
          | .error e => .error e
          | .ok sg =>
            match foldB ((b64Encode sg).length + 1) 3 (b64Encode sg) with
            | .error e => .error e
            | .ok b => .ok (text ++ b))) := by
        refine (Ends.bind (signDigest_ends _ _ E s _ _) fun sg => Ends.bind (Ends.encode64 _ _ sg) fun split =>
          Ends.bind (Ends.liftX _ _ _) fun b => Ends.pure _ _ _).of_eq fun st => ?_
        cases Dkim.signDigest E s o.digest (E.hash o.digest (hashed ++ t2)) with
        | error e => rfl
        | ok sg =>
          show (liftE (foldB ((b64Encode sg).length + 1) 3 (b64Encode sg)) >>= fun b => Pure.pure (text ++ b)) st = _
          dsimp only
          cases foldB ((b64Encode sg).length + 1) 3 (b64Encode sg) with
          | error e => rfl
          | ok b => rfl
      have := (Ends.encode64 need (Refused o [s] names bh) (σ := σ) bh).bind (fun _ => new_with (k := .digestCtx) hh tail)
      simp only [liftX_ok_bind, hf]
      exact this

theorem allSignatures_ends {need : List Nat} (E : Env) (o : Options E) (clock : Nat → Int) {head : Nat}
    (hh : head ∈ need) (hashed : Bytes) (names : List Bytes) (bh : Bytes) (k : Nat) (acc : Bytes)
    (ss : List (SigOpts E)) :
    Ends need (Refused o ss names bh) (allSignatures (σ := σ) E o clock head hashed names bh k acc ss)
      (liftE (Dkim.allSignatures E o clock hashed names bh k acc ss)) := by
  induction ss generalizing k acc with
  | nil => exact Ends.pure _ _ _
  | cons s ss ih =>
    unfold allSignatures
    refine (Ends.bind ((oneSignature_ends E o s (clock k) hh hashed names bh).mono (fun _ h => h)
      (by rintro e ⟨s', hs, h⟩; exact ⟨s', by simp at hs; simp [hs], h⟩)) fun h =>
      (ih (k + 1) _).mono (fun _ h => h) (by rintro e ⟨s', hs, h⟩; exact ⟨s', by simp [hs], h⟩)).of_eq fun st => ?_
    rw [Dkim.allSignatures]
    cases Dkim.oneSignature E o s (clock k) hashed names bh with
    | error e => rfl
    | ok h => rfl

/-- What was read when the generated fields are put together. -/
def Reaches {E : Env} (o : Options E) (sg : Signatory) (Q : List Bytes → Bytes → Err → Prop) (e : Err) : Prop :=
  ∃ msg s1 calls s2 hashed names, sg.msg.parseAll sg.file = .ok (msg, s1) ∧
    canonBody s1 o.canonBody msg.bodyOffset o.bodySignLength o.bodyLength = .ok ((calls, true), s2) ∧
    signLoop o.canonHead o.headers msg.headers.reverse = .ok (hashed, names) ∧
    Q (names ++ o.oversign.map lower) (E.hash o.digest calls.flatten) e

theorem createSignature_ends (E : Env) (o : Options E) (clock : Nat → Int) (sg : Signatory) (h : TmpObjects)
    (hw : Numbered h) :
    outcome (createSignature E o clock (sg, h)) = stateful (fun sg => sg.createSignature E o clock) sg ∧
    h.next ≤ (leftover (createSignature E o clock (sg, h))).next ∧
    (AllFreed h (leftover (createSignature E o clock (sg, h))) ∨
      ((∃ e w, createSignature E o clock (sg, h) = .error e w ∧ Reaches o sg (Refused o o.signatures) e) ∧
        OneContextLost h (leftover (createSignature E o clock (sg, h))))) := by
  have key : ∀ msg s1, sg.msg.parseAll sg.file = .ok (msg, s1) →
      Ends [] (Reaches o sg (Refused o o.signatures)) (do
        lift (set ({ file := s1, msg := msg } : Signatory))
        guarded .digestCtx fun body => do
          let ((calls, ok), s2) ←
            liftX (canonBody s1 o.canonBody msg.bodyOffset o.bodySignLength o.bodyLength)
          lift (set ({ file := s2, msg := msg } : Signatory))
          use body
          if !ok then lift (throw (.p .bodyLimitExceeded))
          let bh := E.hash o.digest calls.flatten
          guarded .digestCtx fun head => do
            let (hashed, names) ← liftX (signLoop o.canonHead o.headers msg.headers.reverse)
            use head
            allSignatures E o clock head hashed (names ++ o.oversign.map lower) bh 0 []
              o.signatures.reverse) (stateful fun _ =>
        match canonBody s1 o.canonBody msg.bodyOffset o.bodySignLength o.bodyLength with
        | .error e => (.error e, { file := s1, msg := msg })
        | .ok ((calls, ok), s2) =>
          let sg' : Signatory := { file := s2, msg := msg }
          if !ok then (.error (.p .bodyLimitExceeded), sg')
          else
            let bh := E.hash o.digest calls.flatten
            match signLoop o.canonHead o.headers msg.headers.reverse with
            | .error e => (.error e, sg')
            | .ok (hashed, names) =>
              (Dkim.allSignatures E o clock hashed (names ++ o.oversign.map lower) bh 0 []
                o.signatures.reverse, sg')) := by
    intro msg s1 hp
    refine (Ends.bind (g := set ({ file := s1, msg := msg } : Signatory)) (Ends.lift _ _ _) (g' := fun _ => (do
        let p ← liftE (canonBody s1 o.canonBody msg.bodyOffset o.bodySignLength o.bodyLength)
        set ({ file := p.2, msg := msg } : Signatory)
        if !p.1.2 then throw (.p .bodyLimitExceeded)
        let q ← liftE (signLoop o.canonHead o.headers msg.headers.reverse)
        liftE (Dkim.allSignatures E o clock q.1 (q.2 ++ o.oversign.map lower) (E.hash o.digest p.1.1.flatten) 0 []
                o.signatures.reverse) : EStateM Err Signatory Bytes)) fun _ => ?_).of_eq fun st => ?_
    · refine Ends.guarded fun body => ?_
      cases hc : canonBody s1 o.canonBody msg.bodyOffset o.bodySignLength o.bodyLength with
      | error e =>
        intro st h hw ha
        exact ⟨rfl, Nat.le_refl _, Or.inl ⟨rfl, rfl⟩⟩
      | ok p =>
        obtain ⟨⟨calls, ok⟩, s2⟩ := p
        simp only [liftX_ok_bind]
        refine Ends.bind (g := set ({ file := s2, msg := msg } : Signatory)) (Ends.lift _ _ _) (g' := fun _ => (do
          if !ok then throw (.p .bodyLimitExceeded)
          let q ← liftE (signLoop o.canonHead o.headers msg.headers.reverse)
          liftE (Dkim.allSignatures E o clock q.1 (q.2 ++ o.oversign.map lower) (E.hash o.digest calls.flatten) 0 []
                o.signatures.reverse) : EStateM Err Signatory Bytes)) fun _ => ?_
        refine (Ends.bind (Ends.use _ (List.mem_cons_self ..)) (g' := fun _ => (do
          if !ok then throw (.p .bodyLimitExceeded)
          let q ← liftE (signLoop o.canonHead o.headers msg.headers.reverse)
          liftE (Dkim.allSignatures E o clock q.1 (q.2 ++ o.oversign.map lower) (E.hash o.digest calls.flatten) 0 []
                o.signatures.reverse) : EStateM Err Signatory Bytes)) fun _ => ?_).of_eq (fun _ => rfl)
        cases ok with
        | false =>
          intro st h hw ha
          exact ⟨rfl, Nat.le_refl _, Or.inl ⟨rfl, rfl⟩⟩
        | true =>
          simp only [Bool.not_true, Bool.false_eq_true, if_false]
          refine Ends.guarded fun head => ?_
          cases hl : signLoop o.canonHead o.headers msg.headers.reverse with
          | error e =>
            intro st h hw ha
            exact ⟨rfl, Nat.le_refl _, Or.inl ⟨rfl, rfl⟩⟩
          | ok q =>
            obtain ⟨hashed, names⟩ := q
            simp only [liftX_ok_bind]
            refine (Ends.bind (Ends.use _ (List.mem_cons_self ..)) (g' := fun _ =>
              liftE (Dkim.allSignatures E o clock hashed (names ++ o.oversign.map lower) (E.hash o.digest calls.flatten) 0 []
                o.signatures.reverse)) fun _ => ?_).of_eq (fun _ => rfl)
            exact (allSignatures_ends E o clock (List.mem_cons_self ..) _ _ _ _ _ _).mono (fun _ h => h)
              (fun e hr => ⟨msg, s1, calls, s2, hashed, names, hp, hc, hl, by
                obtain ⟨s', hs, h⟩ := hr
                exact ⟨s', by simpa using hs, h⟩⟩)
    · cases hc : canonBody s1 o.canonBody msg.bodyOffset o.bodySignLength o.bodyLength with
      | error e => simp only [stateful, hc]; rfl
      | ok p =>
        obtain ⟨⟨calls, ok⟩, s2⟩ := p
        simp only [stateful, hc]
        cases ok with
        | false => rfl
        | true =>
          cases hl : signLoop o.canonHead o.headers msg.headers.reverse with
          | error e => rfl
          | ok q =>
            obtain ⟨hashed, names⟩ := q
            simp only [Bool.not_true, Bool.false_eq_true, if_false]
            show liftE _ _ = _
            dsimp only
            cases Dkim.allSignatures E o clock hashed (names ++ o.oversign.map lower) (E.hash o.digest calls.flatten)
              0 [] o.signatures.reverse with
            | error e => rfl
            | ok r => rfl
  unfold createSignature
  rw [bind_run]
  have hg : lift get (sg, h) = .ok sg (sg, h) := rfl
  rw [hg]
  dsimp only
  cases hp : sg.msg.parseAll sg.file with
  | error e =>
    have : stateful (fun sg => Signatory.createSignature E o clock sg) sg = .error e sg := by
      simp only [stateful, Signatory.createSignature, hp]
    rw [this]
    exact ⟨rfl, Nat.le_refl _, Or.inl ⟨rfl, rfl⟩⟩
  | ok p =>
    obtain ⟨msg, s1⟩ := p
    obtain ⟨k1, k2, k3⟩ := key msg s1 hp sg h hw (by simp)
    refine ⟨k1.trans ?_, k2, k3⟩
    unfold stateful Signatory.createSignature
    dsimp only
    rw [hp]
    rfl

/-! ### the lost context -/

/-- `f` throws `e` and loses one digest context. -/
def Loses (need : List Nat) (f : TmpM σ α) (st : σ) (e : Err) (st' : σ) : Prop :=
  ∀ h, Numbered h → (∀ i ∈ need, h.alive i = true) →
    ∃ h', f (st, h) = .error e (st', h') ∧ OneContextLost h h'

theorem Loses.guarded {need : List Nat} {k : TmpKind} {block : Nat → TmpM σ α} {st st' : σ} {e : Err}
    (h : ∀ i, Loses (i :: need) (block i) st e st') : Loses need (Tmp.guarded k block) st e st' := by
  intro o hw ha
  obtain ⟨o', h1, i, j1, j2, j3, j4⟩ := h o.next (push o k) (numbered_push hw k) (by
    intro i hi
    simp only [TmpObjects.alive, push, List.any_cons, Bool.or_eq_true, decide_eq_true_eq]
    rcases List.mem_cons.1 hi with rfl | hi
    · exact Or.inl rfl
    · exact Or.inr (ha i hi))
  have hrun : Tmp.guarded k block (st, o) = (match block o.next (st, push o k) with
    | .ok a w' => match free o.next w' with
      | .ok () w'' => .ok a w''
      | .error e w'' => .error e w''
    | .error e w' => match free o.next w' with
      | .ok () w'' => .error e w''
      | .error e' w'' => .error e' w'') := rfl
  rw [hrun, h1]
  have j1' : o.next + 1 ≤ i := j1
  have halive : o'.alive o.next = true := by
    simp [TmpObjects.alive, j3, push]
  have e2 : free o.next (st', o') = .ok () (st', { o' with live := o'.live.filter (fun p => p.1 ≠ o.next) }) := by
    unfold free; simp only [halive, if_true]
  simp only [e2]
  refine ⟨_, rfl, i, by omega, j2, ?_, j4⟩
  simp only [j3, push]
  rw [List.filter_cons_of_pos (by simp; omega), List.filter_cons_of_neg (by simp), filter_old hw (Nat.le_refl _)]

theorem Loses.bind {need : List Nat} {f : TmpM σ α} {f' : α → TmpM σ β} {st st' : σ} {e : Err}
    (h : Loses need f st e st') : Loses need (f >>= f') st e st' := by
  intro o hw ha
  obtain ⟨o', h1, h2⟩ := h o hw ha
  refine ⟨o', ?_, h2⟩
  rw [bind_run, h1]

theorem Loses.use {need : List Nat} {i : Nat} (hi : i ∈ need) {f : TmpM σ α} {st st' : σ} {e : Err}
    (h : Loses need f st e st') : Loses need (do Tmp.use i; f) st e st' := by
  intro o hw ha
  obtain ⟨o', h1, h2⟩ := h o hw ha
  refine ⟨o', ?_, h2⟩
  rw [bind_run, use_run (ha i hi)]
  exact h1

theorem Loses.step {need : List Nat} {g : EStateM Err σ β} {a : β} {f : β → TmpM σ α} {st st1 st' : σ} {e : Err}
    (hg : g st = .ok a st1) (h : Loses need (f a) st1 e st') : Loses need (Tmp.lift g >>= f) st e st' := by
  intro o hw ha
  obtain ⟨o', h1, h2⟩ := h o hw ha
  refine ⟨o', ?_, h2⟩
  rw [bind_run]
  unfold Tmp.lift
  simp only [hg]
  exact h1

theorem oneSignature_loses {need : List Nat} (E : Env) (o : Options E) (s : SigOpts E) (now : Int) {head : Nat}
    (hh : head ∈ need) (hashed : Bytes) (names : List Bytes) (bh : Bytes) {text : Bytes} {e : Err}
    (ht : sigHeaderText o s now names bh = .ok text) (hf : filterHeader o.canonHead text = .error e) (st : σ) :
    Loses need (oneSignature E o s now head hashed names bh) st e st := by
  unfold oneSignature
  simp only [ht, liftX_ok_bind, hf, liftX_error_bind]
  intro h hw ha
  have ha' : (push (skip h 2) .digestCtx).alive head = true := by
    have := ha head hh
    simp only [TmpObjects.alive, push, skip, List.any_cons, Bool.or_eq_true] at this ⊢
    exact Or.inr this
  refine ⟨push (skip h 2) .digestCtx, ?_, (skip h 2).next, ?_, ?_, rfl, rfl⟩
  · rw [bind_run, encode64_run bh st hw]
    dsimp only
    rw [bind_run, new_run]
    dsimp only
    rw [bind_run, use_run ha']
    rfl
  · show h.next ≤ h.next + 2; omega
  · show h.next + 2 < h.next + 2 + 1; omega

theorem createSignature_loses (E : Env) (o : Options E) (clock : Nat → Int) (sg : Signatory)
    {msg : Message} {s1 s2 : IStream} {calls : List Bytes} {hashed : Bytes} {names : List Bytes}
    {s : SigOpts E} {ss : List (SigOpts E)} {text : Bytes} {e : Err}
    (hp : sg.msg.parseAll sg.file = .ok (msg, s1))
    (hc : canonBody s1 o.canonBody msg.bodyOffset o.bodySignLength o.bodyLength = .ok ((calls, true), s2))
    (hl : signLoop o.canonHead o.headers msg.headers.reverse = .ok (hashed, names))
    (hs : o.signatures.reverse = s :: ss)
    (ht : sigHeaderText o s (clock 0) (names ++ o.oversign.map lower) (E.hash o.digest calls.flatten) = .ok text)
    (hf : filterHeader o.canonHead text = .error e) :
    Loses [] (createSignature E o clock) sg e { file := s2, msg := msg } := by
  unfold createSignature
  refine Loses.step (a := sg) rfl ?_
  simp only [hp, liftX_ok_bind]
  refine Loses.step (a := ⟨⟩) (st1 := { file := s1, msg := msg }) rfl ?_
  refine Loses.guarded fun body => ?_
  simp only [hc, liftX_ok_bind]
  refine Loses.step (a := ⟨⟩) (st1 := { file := s2, msg := msg }) rfl ?_
  refine Loses.use (List.mem_cons_self ..) ?_
  simp only [Bool.not_true, Bool.false_eq_true, if_false]
  refine Loses.guarded fun head => ?_
  simp only [hl, liftX_ok_bind]
  refine Loses.use (List.mem_cons_self ..) ?_
  rw [hs]
  unfold allSignatures
  exact Loses.bind (oneSignature_loses E o s (clock 0) (List.mem_cons_self ..) _ _ _ ht hf _)

end Tmp

/-! ### the names in the message stay as parsed -/

theorem namesInText_after (E : Env) (s : IStream) (calls : List (Options E × (Nat → Int))) :
    NamesInText (({ file := s } : Signatory).after E calls).msg := by
  have step : ∀ (o : Options E) (clock : Nat → Int) (sg : Signatory), NamesInText sg.msg →
      NamesInText (sg.createSignature E o clock).2.msg := by
    intro o clock sg h
    unfold Signatory.createSignature
    cases hp : sg.msg.parseAll sg.file with
    | error e => exact h
    | ok p =>
      obtain ⟨msg, s1⟩ := p
      have hm : NamesInText msg := NamesInText.parseLoop _ h hp
      dsimp only
      split
      · exact hm
      · split
        · exact hm
        · split <;> exact hm
  have : ∀ sg : Signatory, NamesInText sg.msg → NamesInText (sg.after E calls).msg := by
    induction calls with
    | nil => exact fun sg h => h
    | cons c calls ih =>
      intro sg h
      exact ih _ (step c.1 c.2 sg h)
  exact this _ ⟨by simp, by simp⟩

theorem Tmp.stateful_eq (f : σ → Except Err α × σ) (st : σ) : Tmp.stateful f st = asOutcome (f st) := by
  unfold Tmp.stateful asOutcome
  rcases f st with ⟨_ | _, _⟩ <;> rfl

/-! ## Property C98 -/

/-- C98: constructing a signature from a header field, successfully or not, frees what it creates. -/
theorem C98_parse_signature (E : Env) (now : Int) (field : Header) (st : SigSt) (h : TmpObjects) (hw : Numbered h) :
    outcome (Tmp.parseSignature E now field (st, h)) = Signature.parse E now field st ∧
    AllFreed h (leftover (Tmp.parseSignature E now field (st, h))) := by
  obtain ⟨h1, _, h3⟩ := Tmp.parseSignature_ends E now field st h hw (by simp)
  refine ⟨h1, ?_⟩
  rcases h3 with h3 | ⟨⟨_, _, _, hf⟩, _⟩
  · exact h3
  · exact hf.elim

/-- C98: so does `GetPublicKey`, for every answer of the resolver, and parsing a key record. -/
theorem C98_public_key (E : Env) (resolver : Bytes → Bool × Bytes) (sig : Signature) (st : PublicKey E)
    (h : TmpObjects) (hw : Numbered h) :
    outcome (Tmp.getPublicKey E resolver sig (st, h)) = getPublicKey (E := E) resolver sig st ∧
    AllFreed h (leftover (Tmp.getPublicKey E resolver sig (st, h))) := by
  obtain ⟨h1, _, h3⟩ := Tmp.getPublicKey_ends E resolver sig st h hw (by simp)
  refine ⟨h1, ?_⟩
  rcases h3 with h3 | ⟨⟨_, _, _, hf⟩, _⟩
  · exact h3
  · exact hf.elim

/-- C98: so does `SetPrivateKey`, for every key text. -/
theorem C98_private_key (E : Env) (k : Bytes) (st : SigOpts E) (h : TmpObjects) (hw : Numbered h) :
    outcome (Tmp.setPrivateKey E k (st, h)) = SigOpts.setPrivateKey (E := E) k st ∧
    AllFreed h (leftover (Tmp.setPrivateKey E k (st, h))) := by
  obtain ⟨h1, _, h3⟩ := Tmp.setPrivateKey_ends E k st h hw (by simp)
  refine ⟨h1, ?_⟩
  rcases h3 with h3 | ⟨⟨_, _, _, hf⟩, _⟩
  · exact h3
  · exact hf.elim

/-- C98: so does `CheckBodyHash`. -/
theorem C98_body_hash (E : Env) (sig : Signature) (v : Validatory) (h : TmpObjects) (hw : Numbered h) :
    outcome (Tmp.checkBodyHash E sig (v, h)) = asOutcome (v.checkBodyHash E sig) ∧
    AllFreed h (leftover (Tmp.checkBodyHash E sig (v, h))) := by
  obtain ⟨h1, _, h3⟩ := Tmp.checkBodyHash_ends E sig v h hw (by simp)
  refine ⟨h1.trans (Tmp.stateful_eq _ _), ?_⟩
  rcases h3 with h3 | ⟨⟨_, _, _, hf⟩, _⟩
  · exact h3
  · exact hf.elim

/-- C98: so does `CheckSignature`. -/
theorem C98_check_signature (E : Env) (msg : Message) (field : Header) (sig : Signature) (pub : PublicKey E)
    (h : TmpObjects) (hw : Numbered h) :
    outcome (Tmp.checkSignature E msg field sig pub ((), h)) = asOutcome (checkSignature E msg field sig pub, ()) ∧
    AllFreed h (leftover (Tmp.checkSignature E msg field sig pub ((), h))) := by
  obtain ⟨h1, _, h3⟩ := Tmp.checkSignature_ends (σ := Unit) E msg field sig pub () h hw (by simp)
  refine ⟨h1.trans ?_, ?_⟩
  · cases checkSignature E msg field sig pub <;> rfl
  · rcases h3 with h3 | ⟨⟨_, _, _, hf⟩, _⟩
    · exact h3
    · exact hf.elim

variable {E : Env}

/-- C98, signing: on the first or any later call, either everything is freed, or exactly one digest
context is lost; the latter only with the error for a bare CR, relaxed header canonicalization and a
bare CR in one of the names to be oversigned. -/
theorem C98_sign_exact (s : IStream) (calls : List (Options E × (Nat → Int))) (o : Options E) (hsafe : SafeOptions o)
    (clock : Nat → Int) (h : TmpObjects) (hw : Numbered h) (sg : Signatory)
    (hsg : sg = ({ file := s } : Signatory).after E calls) :
    outcome (Tmp.createSignature E o clock (sg, h)) = asOutcome (sg.createSignature E o clock) ∧
    (AllFreed h (leftover (Tmp.createSignature E o clock (sg, h))) ∨
      (OneContextLost h (leftover (Tmp.createSignature E o clock (sg, h))) ∧
        (sg.createSignature E o clock).1 = .error (.p .crWithoutLf) ∧
        o.canonHead = .relaxed ∧ ∃ n ∈ o.oversign, HasBareCR n)) := by
  obtain ⟨h1, _, h3⟩ := Tmp.createSignature_ends E o clock sg h hw
  have h1' : outcome (Tmp.createSignature E o clock (sg, h)) = asOutcome (sg.createSignature E o clock) :=
    h1.trans (Tmp.stateful_eq _ _)
  refine ⟨h1', ?_⟩
  rcases h3 with h3 | ⟨⟨e, w, he, msg, s1, bc, s2, hashed, names, hp, hc, hl, x, hx, now, text, ht, hf⟩, h4⟩
  · exact Or.inl h3
  · right
    cases hm : o.canonHead with
    | simple => rw [hm] at hf; cases hf
    | relaxed =>
      rw [hm] at hf hl
      obtain ⟨b1, b2⟩ := sigHeaderText_bareCR ht (safe_no_CR (hsafe x hx).1) (safe_no_CR (hsafe x hx).2)
      have hmsg : NamesInText msg := NamesInText.parseLoop _ (hsg ▸ namesInText_after E s calls) hp
      rcases filterHeader_bareCR b2 with ⟨_, t, h5⟩ | ⟨h5, h6⟩
      · rw [hf] at h5; cases h5
      · rw [hf] at h6
        cases h6
        refine ⟨h4, ?_, rfl, ?_⟩
        · rw [he] at h1'
          revert h1'
          rcases sg.createSignature E o clock with ⟨_ | _, _⟩
          · intro h1'; cases h1'; rfl
          · intro h1'; cases h1'
        · obtain ⟨n, hn, hb⟩ := b1.1 h5
          rcases List.mem_append.1 hn with hn | hn
          · exact absurd hb (signLoop_names_bareCR _ _ (fun y hy => hmsg.2 y (by simpa using hy)) hl n hn)
          · obtain ⟨n0, h7, rfl⟩ := List.mem_map.1 hn
            exact ⟨n0, h7, (bareCR_lower n0).1 hb⟩

/-- C98, signing (all but the lost context): if no name to be oversigned has a bare CR, or header
canonicalization is simple, then every call frees what it creates, whether it returns or throws. -/
theorem C98_sign_partial (s : IStream) (calls : List (Options E × (Nat → Int))) (o : Options E) (hsafe : SafeOptions o)
    (clock : Nat → Int) (h : TmpObjects) (hw : Numbered h) (sg : Signatory)
    (hsg : sg = ({ file := s } : Signatory).after E calls)
    (hok : o.canonHead = .simple ∨ ∀ n ∈ o.oversign, ¬ HasBareCR n) :
    outcome (Tmp.createSignature E o clock (sg, h)) = asOutcome (sg.createSignature E o clock) ∧
    AllFreed h (leftover (Tmp.createSignature E o clock (sg, h))) := by
  obtain ⟨h1, h2⟩ := C98_sign_exact s calls o hsafe clock h hw sg hsg
  refine ⟨h1, ?_⟩
  rcases h2 with h2 | ⟨_, _, h3, n, h4, h5⟩
  · exact h2
  · rcases hok with hok | hok
    · rw [hok] at h3; cases h3
    · exact absurd h5 (hok n h4)

/-- C98 is false: if the options sign without names to be oversigned, then with a name that has a bare
CR and relaxed header canonicalization every call throws and loses a digest context. -/
theorem C98_sign_leaks (s : IStream) (calls : List (Options E × (Nat → Int))) (o : Options E) (hsafe : SafeOptions o)
    (clock : Nat → Int) (h : TmpObjects) (hw : Numbered h) (sg : Signatory)
    (hsg : sg = ({ file := s } : Signatory).after E calls) (H : Bytes)
    (hplain : (sg.createSignature E { o with oversign := [] } clock).1 = .ok H)
    (hm : o.canonHead = .relaxed) (n : Bytes) (hn : n ∈ o.oversign) (hb : HasBareCR n) :
    (sg.createSignature E o clock).1 = .error (.p .crWithoutLf) ∧
    OneContextLost h (leftover (Tmp.createSignature E o clock (sg, h))) := by
  unfold Signatory.createSignature at hplain
  cases hp : sg.msg.parseAll sg.file with
  | error e => rw [hp] at hplain; cases hplain
  | ok p =>
    obtain ⟨msg, s1⟩ := p
    rw [hp] at hplain
    dsimp only at hplain
    cases hc : canonBody s1 o.canonBody msg.bodyOffset o.bodySignLength o.bodyLength with
    | error e => rw [hc] at hplain; cases hplain
    | ok p =>
      obtain ⟨⟨bc, ok⟩, s2⟩ := p
      rw [hc] at hplain
      dsimp only at hplain
      cases ok with
      | false => cases hplain
      | true =>
        simp only [Bool.not_true, Bool.false_eq_true, if_false] at hplain
        cases hl : signLoop o.canonHead o.headers msg.headers.reverse with
        | error e => rw [hl] at hplain; cases hplain
        | ok q =>
          obtain ⟨hashed, names⟩ := q
          rw [hl] at hplain
          dsimp only at hplain
          cases hs : o.signatures.reverse with
          | nil => simp [Options.signatures] at hs
          | cons x xs =>
            have hs' : (Options.signatures { o with oversign := [] }).reverse = x :: xs := hs
            rw [hs'] at hplain
            unfold allSignatures at hplain
            have hx : x ∈ o.signatures := by
              have : x ∈ o.signatures.reverse := by rw [hs]; simp
              simpa using this
            have ⟨times, htimes⟩ : ∃ t, sigTimes o (clock 0) = .ok t := by
              cases hT : sigTimes o (clock 0) with
              | ok t => exact ⟨t, rfl⟩
              | error e =>
                exfalso
                have : sigTimes { o with oversign := [] } (clock 0) = .error e := hT
                simp only [oneSignature, sigHeaderText, this] at hplain
                cases hplain
            obtain ⟨text, ht⟩ : ∃ t, sigHeaderText o x (clock 0) (names ++ o.oversign.map lower)
                (E.hash o.digest bc.flatten) = .ok t := by
              unfold sigHeaderText; rw [htimes]; exact ⟨_, rfl⟩
            obtain ⟨b1, b2⟩ := sigHeaderText_bareCR ht (safe_no_CR (hsafe x hx).1) (safe_no_CR (hsafe x hx).2)
            have hbt : HasBareCR text := b1.2 ⟨lower n, List.mem_append_right _ (List.mem_map_of_mem hn), (bareCR_lower n).2 hb⟩
            have hf : filterHeader o.canonHead text = .error (.p .crWithoutLf) := by
              rw [hm]
              rcases filterHeader_bareCR b2 with ⟨h5, _⟩ | ⟨_, h6⟩
              · exact absurd hbt h5
              · exact h6
            obtain ⟨h', h1, h2⟩ := Tmp.createSignature_loses E o clock sg hp hc hl hs ht hf h hw (by simp)
            have h3 := (C98_sign_exact s calls o hsafe clock h hw sg hsg).1
            rw [h1] at h3 ⊢
            refine ⟨?_, h2⟩
            revert h3
            rcases sg.createSignature E o clock with ⟨_ | _, _⟩
            · intro h1'; cases h1'; rfl
            · intro h1'; cases h1'

/-- C98 is false: one lost context, in the toy environment. -/
theorem C98_leak_witness :
    (leftover (Tmp.createSignature toyEnv { Samples.rsaOpts with oversign := [b!"a\rb"] } (fun _ => 0)
      ({ file := { data := Samples.message } }, {}))).live.map (·.2) = [.digestCtx] ∧
    Samples.sign { Samples.rsaOpts with oversign := [b!"a\rb"] } Samples.message = .error (.p .crWithoutLf) := by
  decide +kernel

/-- Eight objects are created and freed when the sample message is signed. -/
example : leftover (Tmp.createSignature toyEnv { Samples.rsaOpts with oversign := [b!"a\r\n b"] } (fun _ => 0)
    ({ file := { data := Samples.message } }, {})) = { next := 8 } := by decide +kernel

example : SafeOptions { Samples.rsaOpts with oversign := [b!"a\rb"] } := by
  intro s hs
  simp only [Options.signatures, Samples.rsaOpts, List.mem_cons, List.not_mem_nil, or_false] at hs
  subst hs
  exact ⟨Or.inr (((C23_validateDomain _).1 (by decide))), Or.inr (((C23_validateDomain _).1 (by decide)))⟩

example : HasBareCR b!"a\rb" := ⟨b!"a", b!"b", rfl, by decide⟩

/-- A key record that is no RSA key: two BIOs and an `EVP_PKEY` are freed and the error is thrown. -/
example : leftover (Tmp.parseKey toyEnv b!"p=AA==" ({}, {})) = { next := 3 } ∧
    (PublicKey.parse (E := toyEnv) b!"p=AA==" {}) matches .error (.perm .keyNotRSA _) _ := by decide +kernel

/-- A PEM key in the options. -/
example : (leftover (Tmp.setPrivateKey toyEnv b!"-----x" ({}, {}))).misused = [] := by decide +kernel

end Dkim
