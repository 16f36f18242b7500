import Verif.Model.Steps
import Verif.Proofs.StringTags
import Verif.Proofs.StringWords
import Verif.Proofs.StringAddress
/-!
# Counting does not change the results
-/

namespace Dkim.Steps
open SS (toChar code)

variable {α β : Type}

/-- The result of a stream program with a counter attached. -/
def at_ (n : Nat) : EStateM.Result SErr SS α → EStateM.Result SErr (SS × Nat) α
  | .ok a s => .ok a (s, n)
  | .error e s => .error e (s, n)

/-- The counting program does what the program does. -/
def Sim (mc : CM α) (m : SM α) : Prop := ∀ s n, ∃ k, mc (s, n) = at_ (n + k) (m s)

theorem sim_tick (m : SM α) : Sim (tick m) m := by
  intro s n
  refine ⟨1, ?_⟩
  unfold tick
  simp only
  cases m s <;> rfl

theorem sim_pure (a : α) : Sim (pure a) (pure a) := fun _ _ => ⟨0, rfl⟩
theorem sim_throw (e : SErr) : Sim (throw e : CM α) (throw e) := fun _ _ => ⟨0, rfl⟩
theorem sim_left : Sim Steps.left SS.left := fun _ _ => ⟨0, rfl⟩

theorem Sim.bind {mc : CM α} {m : SM α} {fc : α → CM β} {f : α → SM β} (h : Sim mc m) (h2 : ∀ a, Sim (fc a) (f a)) :
    Sim (mc >>= fc) (m >>= f) := by
  intro s n
  obtain ⟨k, hk⟩ := h s n
  rw [es_bind, es_bind, hk]
  cases hm : m s with
  | ok a s' =>
    obtain ⟨k2, hk2⟩ := h2 a s' (n + k)
    refine ⟨k + k2, ?_⟩
    rw [← Nat.add_assoc]
    exact hk2
  | error e s' => exact ⟨k, rfl⟩

theorem Sim.ite {c : Prop} [Decidable c] {a b : CM α} {a' b' : SM α} (h : c → Sim a a') (h2 : ¬ c → Sim b b') :
    Sim (if c then a else b) (if c then a' else b') := by
  split
  · exact h ‹_›
  · exact h2 ‹_›

theorem sim_orM {a b : CM Bool} {a' b' : SM Bool} (h : Sim a a') (h2 : Sim b b') : Sim (a <||> b) (a' <||> b') := by
  unfold orM
  refine Sim.bind h fun x => ?_
  cases x
  · exact h2
  · exact sim_pure _

theorem sim_andM {a b : CM Bool} {a' b' : SM Bool} (h : Sim a a') (h2 : Sim b b') : Sim (a <&&> b) (a' <&&> b') := by
  unfold andM
  refine Sim.bind h fun x => ?_
  cases x
  · exact sim_pure _
  · exact h2

theorem sim_peek : Sim peek SS.peek := sim_tick _
theorem sim_get : Sim get SS.get := sim_tick _
theorem sim_putback (c : Byte) : Sim (putback c) (SS.putback c) := sim_tick _
theorem sim_clear : Sim clear SS.clear := sim_tick _
theorem sim_tellg : Sim tellg SS.tellg := sim_tick _

/-- Walk through a program. -/
macro "sim" : tactic => `(tactic| repeat (first
  | assumption
  | exact sim_peek | exact sim_get | exact sim_putback _ | exact sim_clear | exact sim_tellg
  | exact sim_left | exact sim_pure _ | exact sim_throw _
  | refine sim_orM ?_ ?_ | refine sim_andM ?_ ?_
  | refine Sim.bind ?_ ?_
  | refine Sim.ite ?_ ?_
  | intro _
  | dsimp only))

theorem sim_peekIs (c : Byte) : Sim (peekIs c) (SS.peekIs c) := by unfold peekIs SS.peekIs; sim
theorem sim_peekEOF : Sim peekEOF SS.peekEOF := by unfold peekEOF SS.peekEOF; sim
theorem sim_peekGe (c : Byte) : Sim (peekGe c) (SS.peekGe c) := by
  unfold peekGe SS.peekGe
  refine Sim.bind sim_peek fun o => ?_
  cases o <;> exact sim_pure _
theorem sim_peekLe (c : Byte) : Sim (peekLe c) (SS.peekLe c) := by
  unfold peekLe SS.peekLe
  refine Sim.bind sim_peek fun o => ?_
  cases o <;> exact sim_pure _
theorem sim_between (a b : Byte) : Sim (between a b) (SS.between a b) := sim_andM (sim_peekGe _) (sim_peekLe _)

theorem sim_peekTell (lr : Bool) : Sim (peekTell lr) (SS.peekTell lr) := by unfold peekTell SS.peekTell; sim
theorem sim_throwAt (lr : Bool) (r : Reason) : Sim (throwAt lr r : CM α) (SS.throwAt lr r) := by
  unfold throwAt SS.throwAt
  exact Sim.bind (sim_peekTell lr) fun _ => sim_throw _
theorem sim_throwPos (r : Reason) : Sim (throwPos r : CM α) (SS.throwPos r) := by
  unfold throwPos SS.throwPos
  exact Sim.bind sim_tellg fun _ => sim_throw _
theorem sim_throwPlain (r : Reason) : Sim (throwPlain r : CM α) (SS.throwPlain r) := sim_throw _

/-- Walk through a program that uses the tests and errors. -/
macro "simt" : tactic => `(tactic| repeat (first
  | assumption
  | exact sim_peekIs _ | exact sim_peekEOF | exact sim_between _ _ | exact sim_throwAt _ _ | exact sim_throwPos _ | exact sim_throwPlain _
  | exact sim_peek | exact sim_get | exact sim_putback _ | exact sim_clear | exact sim_tellg
  | exact sim_left | exact sim_pure _ | exact sim_throw _
  | refine sim_orM ?_ ?_ | refine sim_andM ?_ ?_
  | refine Sim.bind ?_ ?_
  | refine Sim.ite ?_ ?_
  | intro _
  | dsimp only))

theorem sim_readCRLF (lr : Bool) : Sim (readCRLF lr) (SS.readCRLF lr) := by unfold readCRLF SS.readCRLF; simt
theorem sim_readWSP : Sim readWSP SS.readWSP := by unfold readWSP SS.readWSP; simt
theorem sim_readLoose : Sim readLoose SS.readLoose := by unfold readLoose SS.readLoose; simt

theorem sim_loopWSP (n : Nat) (s : Bytes) : Sim (loopWSP n s) (SS.loopWSP n s) := by
  induction n generalizing s with
  | zero => exact sim_throw _
  | succ n ih => unfold loopWSP SS.loopWSP; exact Sim.bind sim_readWSP fun t => Sim.ite (fun _ => sim_pure _) (fun _ => ih _)

theorem sim_putbackAll (w : Bytes) : Sim (putbackAll w) (SS.putbackAll w) := by
  induction w with
  | nil => exact sim_pure _
  | cons c w ih => unfold putbackAll SS.putbackAll; exact Sim.bind (sim_putback c) fun _ => ih

theorem sim_readFWS (lr : Bool) : Sim (readFWS lr) (SS.readFWS lr) := by
  unfold readFWS SS.readFWS
  refine Sim.bind sim_left fun _ => Sim.bind (sim_loopWSP _ _) fun _ => Sim.bind (sim_readCRLF lr) fun _ => Sim.ite (fun _ => sim_pure _) fun _ => ?_
  refine Sim.bind sim_readWSP fun _ => Sim.ite (fun _ => ?_) fun _ => ?_
  · exact Sim.bind sim_clear fun _ => Sim.bind (sim_putbackAll _) fun _ => sim_pure _
  · exact Sim.bind sim_left fun _ => sim_loopWSP _ _

theorem sim_skipFWS (lr : Bool) (n : Nat) (b : Bool) : Sim (skipFWS lr n b) (SS.skipFWS lr n b) := by
  induction n generalizing b with
  | zero => exact sim_throw _
  | succ n ih => unfold skipFWS SS.skipFWS; exact Sim.bind (sim_readFWS lr) fun _ => Sim.ite (fun _ => sim_pure _) fun _ => ih _

theorem sim_skipLoose (n : Nat) : Sim (skipLoose n) (SS.skipLoose n) := by
  induction n with
  | zero => exact sim_throw _
  | succ n ih => unfold skipLoose SS.skipLoose; exact Sim.bind sim_readLoose fun _ => Sim.ite (fun _ => sim_pure _) fun _ => ih

theorem sim_valueLoop (lr : Bool) (n : Nat) (b v : Bytes) : Sim (valueLoop lr n b v) (SS.valueLoop lr n b v) := by
  induction n generalizing b v with
  | zero => exact sim_throw _
  | succ n ih =>
    unfold valueLoop SS.valueLoop
    refine Sim.bind (sim_readFWS lr) fun _ => Sim.ite (fun _ => ?_) fun _ => ih _ _
    refine Sim.bind (sim_orM (sim_peekIs _) sim_peekEOF) fun _ => Sim.ite (fun _ => sim_pure _) fun _ => ?_
    exact Sim.bind sim_get fun _ => ih _ _

theorem sim_valueListLoop (lr : Bool) (n : Nat) (vs : List Bytes) : Sim (valueListLoop lr n vs) (SS.valueListLoop lr n vs) := by
  induction n generalizing vs with
  | zero => exact sim_throw _
  | succ n ih =>
    unfold valueListLoop SS.valueListLoop
    refine Sim.bind sim_left fun _ => Sim.bind (sim_skipFWS lr _ _) fun _ => Sim.bind sim_peekEOF fun _ => Sim.ite (fun _ => sim_pure _) fun _ => ?_
    refine Sim.bind sim_left fun _ => Sim.bind (sim_valueLoop lr _ _ _) fun _ => Sim.ite (fun _ => sim_throwPos _) fun _ => ?_
    exact Sim.bind sim_get fun _ => Sim.ite (fun _ => sim_pure _) fun _ => ih _

/-- The result of a run is that of the program without counter. -/
theorem run_eq {mc : CM α} {m : SM α} (h : Sim mc m) (input : Bytes) : (run mc input).1 = SS.run m input := by
  obtain ⟨k, hk⟩ := h { data := input } 0
  unfold run SS.run
  rw [hk]
  cases m { data := input } <;> rfl

theorem sim_collapse (lr : Bool) (n : Nat) (x : Bytes) : Sim (collapse lr n x) (SS.collapse lr n x) := by
  induction n generalizing x with
  | zero => exact sim_throw _
  | succ n ih =>
    unfold collapse SS.collapse
    refine Sim.bind sim_left fun _ => Sim.bind (sim_skipFWS lr _ _) fun _ => Sim.bind sim_peekEOF fun _ => Sim.ite (fun _ => sim_pure _) fun _ => ?_
    exact Sim.bind sim_get fun _ => ih _

theorem sim_peekHex : Sim peekHex SS.peekHex := sim_orM (sim_between _ _) (sim_between _ _)

theorem sim_qpLoop (lr sp : Bool) (n : Nat) (o : Bytes) : Sim (qpLoop lr sp n o) (SS.qpLoop lr sp n o) := by
  induction n generalizing o with
  | zero => exact sim_throw _
  | succ n ih =>
    unfold qpLoop SS.qpLoop
    refine Sim.bind sim_peekEOF fun _ => Sim.ite (fun _ => sim_pure _) fun _ => ?_
    refine Sim.bind (sim_andM (sim_pure _) (sim_peekIs _)) fun _ => Sim.ite (fun _ => Sim.bind sim_get fun _ => ih _) fun _ => ?_
    refine Sim.bind (sim_peekIs _) fun _ => Sim.ite (fun _ => ?_) fun _ => ?_
    · refine Sim.bind sim_get fun _ => Sim.bind sim_peekHex fun _ => Sim.ite (fun _ => ?_) fun _ => sim_throwAt _ _
      refine Sim.bind sim_get fun _ => Sim.bind sim_peekHex fun _ => Sim.ite (fun _ => ?_) fun _ => sim_throwAt _ _
      exact Sim.bind sim_get fun _ => ih _
    · refine Sim.bind (sim_orM (sim_between _ _) (sim_orM (sim_peekIs _) (sim_between _ _))) fun _ => Sim.ite (fun _ => Sim.bind sim_get fun _ => ih _) fun _ => ?_
      exact Sim.bind (sim_readFWS lr) fun _ => Sim.ite (fun _ => sim_throwAt _ _) fun _ => ih _

theorem sim_ewSpace (lr : Bool) (n : Nat) (w : Bytes) : Sim (ewSpace lr n w) (SS.ewSpace lr n w) := by
  induction n generalizing w with
  | zero => exact sim_throw _
  | succ n ih =>
    unfold ewSpace SS.ewSpace
    refine Sim.bind sim_readWSP fun _ => Sim.ite (fun _ => ih _) fun _ => ?_
    exact Sim.bind (sim_readCRLF lr) fun _ => Sim.ite (fun _ => ih _) fun _ => sim_pure _

theorem sim_untilQ (n : Nat) (x : Bytes) : Sim (untilQ n x) (SS.untilQ n x) := by
  induction n generalizing x with
  | zero => exact sim_throw _
  | succ n ih =>
    unfold untilQ SS.untilQ
    refine Sim.bind sim_peekEOF fun _ => Sim.ite (fun _ => sim_pure _) fun _ => ?_
    refine Sim.bind (sim_peekIs _) fun _ => Sim.ite (fun _ => sim_pure _) fun _ => ?_
    exact Sim.bind sim_get fun _ => ih _

theorem sim_ewPart (f : Bool) (b : Bytes) : Sim (ewPart f b) (SS.ewPart f b) := by
  unfold ewPart SS.ewPart
  refine Sim.bind (sim_andM (sim_pure _) (sim_peekIs _)) fun _ => Sim.ite (fun _ => ?_) fun _ => sim_pure _
  exact Sim.bind sim_get fun _ => Sim.bind sim_left fun _ => Sim.bind (sim_untilQ _ _) fun ⟨_, _⟩ => sim_pure _

theorem sim_notEOF : Sim (do return !(← peekEOF)) (do return !(← SS.peekEOF)) := Sim.bind sim_peekEOF fun _ => sim_pure _
theorem sim_not (c : Byte) : Sim (do return !(← peekIs c)) (do return !(← SS.peekIs c)) := Sim.bind (sim_peekIs _) fun _ => sim_pure _

theorem sim_ewEnd (fail : Bool) (a b c : Bytes) :
    Sim (do let bad ← pure (!fail) <&&> ((do return !(← peekEOF)) <&&> ((do return !(← peekIs SP)) <&&>
              ((do return !(← peekIs CR)) <&&> ((do return !(← peekIs LF)) <&&> (do return !(← peekIs TAB))))))
            return (fail || bad, a, b, c))
        (do let bad ← pure (!fail) <&&> ((do return !(← SS.peekEOF)) <&&> ((do return !(← SS.peekIs SP)) <&&>
              ((do return !(← SS.peekIs CR)) <&&> ((do return !(← SS.peekIs LF)) <&&> (do return !(← SS.peekIs TAB))))))
            return (fail || bad, a, b, c)) :=
  Sim.bind (sim_andM (sim_pure _) (sim_andM sim_notEOF (sim_andM (sim_not _) (sim_andM (sim_not _) (sim_andM (sim_not _) (sim_not _)))))) fun _ => sim_pure _

theorem sim_ewScan : Sim ewScan SS.ewScan := by
  unfold ewScan SS.ewScan
  refine Sim.bind sim_get fun _ => Sim.bind (sim_ewPart _ _) fun ⟨_, _, _⟩ => Sim.bind (sim_ewPart _ _) fun ⟨_, _, _⟩ =>
    Sim.bind (sim_ewPart _ _) fun ⟨_, _, _⟩ => Sim.bind (sim_andM (sim_pure _) (sim_peekIs _)) fun _ => ?_
  refine Sim.ite (fun _ => ?_) fun _ => ?_
  · refine Sim.bind sim_get fun _ => Sim.bind (sim_peekIs _) fun _ => Sim.ite (fun _ => Sim.bind sim_get fun _ => ?_) fun _ => ?_
    · exact Sim.bind (sim_pure _) fun ⟨_, _⟩ => sim_ewEnd _ _ _ _
    · exact Sim.bind (sim_pure _) fun ⟨_, _⟩ => sim_ewEnd _ _ _ _
  · exact Sim.bind (sim_pure _) fun ⟨_, _⟩ => sim_ewEnd _ _ _ _

theorem ewData_eq (lr : Bool) (E : Env) (enc dat : Bytes) : (ewData lr E enc dat).1 = SS.ewData lr E enc dat := by
  unfold ewData SS.ewData
  have h := run_eq (sim_qpLoop lr true (dat.length + 1) []) dat
  split
  · unfold qpDecode SS.qpDecode
    rw [← h]
    cases hr : run (qpLoop lr true (dat.length + 1) []) dat with
    | mk r k => cases r <;> rfl
  · split <;> rfl

theorem sim_charge (a : α) (k : Nat) : Sim (Steps.charge (a, k)) (pure a) := fun _ _ => ⟨k, rfl⟩

theorem sim_ewLoop (lr : Bool) (E : Env) (n : Nat) (w o : Bytes) : Sim (ewLoop lr E n w o) (SS.ewLoop lr E n w o) := by
  induction n generalizing w o with
  | zero => exact sim_throw _
  | succ n ih =>
    unfold ewLoop SS.ewLoop
    refine Sim.bind sim_left fun _ => Sim.bind (sim_ewSpace lr _ _) fun ws => Sim.bind (sim_peekIs _) fun _ => Sim.ite (fun _ => ?_) fun _ => ?_
    · refine Sim.bind sim_ewScan fun ⟨f0, enc, dat, buf⟩ => ?_
      dsimp only
      have h1 : Sim (Steps.charge (if f0 then (none, 0) else ewData lr E enc dat)) (pure (if f0 then none else SS.ewData lr E enc dat)) := by
        intro s n
        refine ⟨(if f0 then (none, 0) else ewData lr E enc dat).2, ?_⟩
        unfold Steps.charge
        cases f0
        · simp only [Bool.false_eq_true, if_false, ewData_eq]; rfl
        · rfl
      have h3 : ∀ (fc : Option Bytes → CM Bytes) (f : Option Bytes → SM Bytes), (∀ r, Sim (fc r) (f r)) →
          Sim (Steps.charge (if f0 then (none, 0) else ewData lr E enc dat) >>= fc) (f (if f0 then none else SS.ewData lr E enc dat)) := fun fc f h => Sim.bind h1 h
      refine h3 _ (fun r => match r with
        | some o2 => SS.ewLoop lr E n [] (o ++ o2) | none => SS.ewLoop lr E n [] (o ++ (ws ++ buf))) ?_
      intro r; cases r <;> exact ih _ _
    · refine Sim.bind sim_peekEOF fun _ => Sim.ite (fun _ => sim_pure _) fun _ => ?_
      exact Sim.bind sim_get fun _ => ih _ _

theorem sim_quotedLoop (sc : Bool) (n : Nat) (t : Bytes) : Sim (quotedLoop sc n t) (SS.quotedLoop sc n t) := by
  induction n generalizing t with
  | zero => exact sim_throw _
  | succ n ih =>
    unfold quotedLoop SS.quotedLoop
    refine Sim.bind sim_get fun _ => Sim.ite (fun _ => sim_throwPlain _) fun _ => Sim.ite (fun _ => ?_) fun _ => Sim.ite (fun _ => sim_pure _) fun _ => ih _
    exact Sim.bind sim_peekEOF fun _ => Sim.ite (fun _ => sim_throwPlain _) fun _ => Sim.bind sim_get fun _ => ih _

theorem sim_commentStep (d : Nat) (t : Bytes) : Sim (commentStep d t) (SS.commentStep d t) := by
  unfold commentStep SS.commentStep
  exact Sim.bind (sim_peekIs _) fun _ => Sim.bind (sim_peekIs _) fun _ => Sim.bind sim_get fun _ =>
    Sim.ite (fun _ => sim_pure _) fun _ => sim_pure _

theorem sim_commentLoop (n d : Nat) (t : Bytes) : Sim (commentLoop n d t) (SS.commentLoop n d t) := by
  induction n generalizing d t with
  | zero => exact sim_throw _
  | succ n ih =>
    unfold commentLoop SS.commentLoop
    refine Sim.ite (fun _ => sim_pure _) fun _ => Sim.bind sim_peekEOF fun _ => Sim.ite (fun _ => sim_throwPlain _) fun _ => ?_
    refine Sim.bind (sim_peekIs _) fun _ => Sim.ite (fun _ => ?_) fun _ => ?_
    · refine Sim.bind sim_get fun _ => Sim.bind sim_peekEOF fun _ => Sim.ite (fun _ => sim_throwPlain _) fun _ => ?_
      exact Sim.bind sim_get fun _ => Sim.bind (sim_commentStep _ _) fun ⟨_, _⟩ => ih _ _
    · exact Sim.bind (sim_commentStep _ _) fun ⟨_, _⟩ => ih _ _

theorem sim_nextTok (lr sc : Bool) (n : Nat) (t : Bytes) : Sim (nextTok lr sc n t) (SS.nextTok lr sc n t) := by
  induction n generalizing t with
  | zero => exact sim_throw _
  | succ n ih =>
    unfold nextTok SS.nextTok
    refine Sim.bind sim_peekEOF fun _ => Sim.ite (fun _ => Sim.ite (fun _ => sim_pure _) fun _ => sim_pure _) fun _ => ?_
    refine Sim.bind (sim_readFWS lr) fun _ => Sim.ite (fun _ => Sim.ite (fun _ => sim_pure _) fun _ => sim_pure _) fun _ => ?_
    refine Sim.bind sim_peekEOF fun _ => Sim.ite (fun _ => Sim.ite (fun _ => sim_pure _) fun _ => sim_pure _) fun _ => ?_
    refine Sim.bind (sim_peekIs _) fun _ => Sim.ite (fun _ => Sim.ite (fun _ => sim_pure _) fun _ => ?_) fun _ => ?_
    · exact Sim.bind sim_get fun _ => Sim.bind sim_left fun _ => Sim.bind (sim_quotedLoop _ _ _) fun _ => sim_pure _
    refine Sim.bind (sim_peekIs _) fun _ => Sim.ite (fun _ => Sim.ite (fun _ => sim_pure _) fun _ => ?_) fun _ => ?_
    · exact Sim.bind sim_get fun _ => Sim.bind sim_left fun _ => Sim.bind (sim_commentLoop _ _ _) fun _ => sim_pure _
    refine Sim.bind (sim_peekIs _) fun _ => Sim.ite (fun _ => Sim.ite (fun _ => sim_pure _) fun _ => Sim.bind sim_get fun _ => sim_pure _) fun _ => ?_
    refine Sim.bind (sim_peekIs _) fun _ => Sim.ite (fun _ => Sim.ite (fun _ => sim_pure _) fun _ => Sim.bind sim_get fun _ => sim_pure _) fun _ => ?_
    refine Sim.bind (sim_orM (sim_peekIs _) (sim_peekIs _)) fun _ => Sim.ite (fun _ => Sim.ite (fun _ => sim_pure _) fun _ => Sim.bind sim_get fun _ => sim_pure _) fun _ => ?_
    exact Sim.bind sim_get fun _ => ih _

theorem sim_liftErr (r : Except SErr α × Nat) : Sim (liftErr r) (SS.liftErr r.1) := by
  intro s n
  refine ⟨r.2, ?_⟩
  obtain ⟨r, k⟩ := r
  cases r <;> rfl

theorem addrSwitch_eq {rc : Bytes → Except SErr (List Bytes) × Nat} {r : Bytes → Except SErr (List Bytes)} (h : ∀ t, (rc t).1 = r t)
    (st : AddrSt) (token : Bytes) : (addrSwitch rc st token).1 = SS.addrSwitch r st token := by
  have hm : ∀ (t : Bytes) (g : List Bytes → AddrSt), (match rc t with
          | (.error e, k) => ((.error e, k) : Except SErr AddrSt × Nat)
          | (.ok addrs, k) => (.ok (g addrs), k)).1 =
        match r t with
          | .error e => .error e
          | .ok addrs => .ok (g addrs) := by
    intro t g
    rw [← h t]
    obtain ⟨x, k⟩ := rc t
    cases x <;> rfl
  have hi : ∀ {β γ : Type} {c : Prop} [Decidable c] (a b : β × γ), (if c then a else b).1 = if c then a.1 else b.1 := by
    intros; split <;> rfl
  unfold addrSwitch SS.addrSwitch
  cases hty : st.type <;> try rfl
  all_goals
    dsimp only
    rw [hi]
    cases htk : st.tokens with
    | nil => rfl
    | cons t ts => 
      dsimp only
      rw [hi, hi]
      split
      · rfl
      split
      · rfl
      split
      · exact hm t _
      · rfl

theorem sim_addrLoop (lr sc : Bool) {rc : Bytes → Except SErr (List Bytes) × Nat} {r : Bytes → Except SErr (List Bytes)} (h : ∀ t, (rc t).1 = r t)
    (n : Nat) (st : AddrSt) : Sim (addrLoop lr sc rc n st) (SS.addrLoop lr sc r n st) := by
  induction n generalizing st with
  | zero => exact sim_throw _
  | succ n ih =>
    unfold addrLoop SS.addrLoop
    refine Sim.ite (fun _ => sim_pure _) fun _ => Sim.bind sim_left fun _ => Sim.bind (sim_nextTok _ _ _ _) fun ⟨_, _⟩ => ?_
    refine Sim.ite (fun _ => sim_throwPlain _) fun _ => Sim.bind ?_ fun _ => ih _
    rw [← addrSwitch_eq h]
    exact sim_liftErr _

theorem parseAddrDepth_eq (lr sc : Bool) (n : Nat) (t : Bytes) : (parseAddrDepth lr sc n t).1 = SS.parseAddrDepth lr sc n t := by
  induction n generalizing t with
  | zero => rfl
  | succ n ih => exact run_eq (sim_addrLoop lr sc ih _ _) t

theorem sim_peekAlnum : Sim peekAlnum SS.peekAlnum := sim_orM (sim_between _ _) (sim_orM (sim_between _ _) (sim_between _ _))
theorem sim_peekNameChar : Sim peekNameChar SS.peekNameChar :=
  sim_orM (sim_between _ _) (sim_orM (sim_between _ _) (sim_orM (sim_between _ _) (sim_peekIs _)))

theorem sim_nameLoop (n : Nat) (x : Bytes) : Sim (nameLoop n x) (SS.nameLoop n x) := by
  induction n generalizing x with
  | zero => exact sim_throw _
  | succ n ih =>
    unfold nameLoop SS.nameLoop
    exact Sim.bind sim_peekNameChar fun _ => Sim.ite (fun _ => Sim.bind sim_get fun _ => ih _) fun _ => sim_pure _

theorem sim_readName : Sim readName SS.readName := by
  unfold readName SS.readName
  refine Sim.bind sim_peekAlnum fun _ => Sim.ite (fun _ => Sim.bind sim_get fun _ => Sim.bind (sim_pure _) fun _ => ?_) fun _ => Sim.bind (sim_pure _) fun _ => ?_
  all_goals exact Sim.bind sim_left fun _ => sim_nameLoop _ _

theorem sim_readValue (lr : Bool) (n : Nat) (b v : Bytes) : Sim (readValue lr n b v) (SS.readValue lr n b v) := by
  induction n generalizing b v with
  | zero => exact sim_throw _
  | succ n ih =>
    unfold readValue SS.readValue
    refine Sim.bind (sim_andM (sim_not _) sim_notEOF) fun _ => Sim.ite (fun _ => ?_) fun _ => sim_pure _
    refine Sim.bind (sim_orM (sim_between _ _) (sim_between _ _)) fun _ => Sim.ite (fun _ => Sim.bind sim_get fun _ => ih _ _) fun _ => ?_
    exact Sim.bind sim_readLoose fun _ => Sim.ite (fun _ => sim_throwAt _ _) fun _ => ih _ _

/-- The result of a program of `TagList::Parse` with a counter attached. -/
def atT (n : Nat) : EStateM.Result SErr (SS × TagList) α → EStateM.Result SErr ((SS × Nat) × TagList) α
  | .ok a s => .ok a ((s.1, n), s.2)
  | .error e s => .error e ((s.1, n), s.2)

/-- The counting program does what the program does. -/
def SimT (mc : TM α) (m : SS.TM α) : Prop := ∀ s n t, ∃ k, mc ((s, n), t) = atT (n + k) (m (s, t))

theorem simT_pure (a : α) : SimT (pure a) (pure a) := fun _ _ _ => ⟨0, rfl⟩
theorem simT_throw (e : SErr) : SimT (throw e : TM α) (throw e) := fun _ _ _ => ⟨0, rfl⟩

theorem SimT.bind {mc : TM α} {m : SS.TM α} {fc : α → TM β} {f : α → SS.TM β} (h : SimT mc m) (h2 : ∀ a, SimT (fc a) (f a)) :
    SimT (mc >>= fc) (m >>= f) := by
  intro s n t
  obtain ⟨k, hk⟩ := h s n t
  rw [es_bind, es_bind, hk]
  cases hm : m (s, t) with
  | ok a s' =>
    obtain ⟨k2, hk2⟩ := h2 a s'.1 (n + k) s'.2
    refine ⟨k + k2, ?_⟩
    rw [← Nat.add_assoc]
    exact hk2
  | error e s' => exact ⟨k, rfl⟩

theorem SimT.ite {c : Prop} [Decidable c] {a b : TM α} {a' b' : SS.TM α} (h : c → SimT a a') (h2 : ¬ c → SimT b b') :
    SimT (if c then a else b) (if c then a' else b') := by
  split
  · exact h ‹_›
  · exact h2 ‹_›

theorem simT_on {mc : CM α} {m : SM α} (h : Sim mc m) : SimT (onStream mc) (SS.onStream m) := by
  intro s n t
  obtain ⟨k, hk⟩ := h s n
  refine ⟨k, ?_⟩
  unfold onStream SS.onStream
  dsimp only
  rw [hk]
  cases m s <;> rfl

theorem simT_loose : SimT (onStream (do skipLoose ((← left) + 1))) (SS.onStream (do SS.skipLoose ((← SS.left) + 1))) :=
  simT_on (Sim.bind sim_left fun _ => sim_skipLoose _)

theorem sim_tagLoop (lr : Bool) (n : Nat) : SimT (tagLoop lr n) (SS.tagLoop lr n) := by
  induction n with
  | zero => exact simT_throw _
  | succ n ih =>
    unfold tagLoop SS.tagLoop
    refine SimT.bind simT_loose fun _ => SimT.bind (simT_on sim_peekEOF) fun _ => SimT.ite (fun _ => simT_pure _) fun _ => ?_
    refine SimT.bind (simT_on sim_readName) fun name => SimT.ite (fun _ => simT_on (sim_throwPos _)) fun _ => ?_
    intro s c t
    have key : SimT (do
          onStream (do skipLoose ((← left) + 1))
          if !(← onStream (peekIs EQ)) then onStream (throwAt lr .expectedEq)
          else
            let _ ← onStream get
            onStream (do skipLoose ((← left) + 1))
            let offset ← onStream tellg
            let value ← onStream (do readValue lr ((← left) + 1) [] [])
            modify (fun (s, tags) => (s, tags ++ [(name, { value := value, offset := offset })]))
            if (← onStream get) == none then return ()
            else tagLoop lr n)
        (do
          SS.onStream (do SS.skipLoose ((← SS.left) + 1))
          if !(← SS.onStream (SS.peekIs EQ)) then SS.onStream (SS.throwAt lr .expectedEq)
          else
            let _ ← SS.onStream SS.get
            SS.onStream (do SS.skipLoose ((← SS.left) + 1))
            let offset ← SS.onStream SS.tellg
            let value ← SS.onStream (do SS.readValue lr ((← SS.left) + 1) [] [])
            modify (fun (s, tags) => (s, tags ++ [(name, { value := value, offset := offset })]))
            if (← SS.onStream SS.get) == none then return ()
            else SS.tagLoop lr n) := by
      refine SimT.bind simT_loose fun _ => SimT.bind (simT_on (sim_peekIs _)) fun _ => SimT.ite (fun _ => simT_on (sim_throwAt _ _)) fun _ => ?_
      refine SimT.bind (simT_on sim_get) fun _ => SimT.bind simT_loose fun _ => SimT.bind (simT_on sim_tellg) fun _ => ?_
      refine SimT.bind (simT_on (Sim.bind sim_left fun _ => sim_readValue _ _ _ _)) fun _ => SimT.bind ?_ fun _ => ?_
      · exact fun _ _ _ => ⟨0, rfl⟩
      · exact SimT.bind (simT_on sim_get) fun _ => SimT.ite (fun _ => simT_pure _) fun _ => ih
    by_cases ht : (t.getTag name).isSome
    · refine ⟨0, ?_⟩
      rw [es_bind, es_bind, es_get, es_get, esBind_ok, esBind_ok]
      rw [if_pos ht, if_pos ht]
      rfl
    · rw [es_bind, es_bind, es_get, es_get, esBind_ok, esBind_ok]
      rw [if_neg ht, if_neg ht]
      exact key s c t

theorem tagParse_eq (lr : Bool) (input : Bytes) (tags : TagList) :
    ((tagParse lr input tags).1.1, (tagParse lr input tags).2) = SS.tagParse lr input tags := by
  obtain ⟨k, hk⟩ := sim_tagLoop lr (input.length + 1) { data := input } 0 tags
  unfold tagParse SS.tagParse
  rw [hk]
  cases SS.tagLoop lr (input.length + 1) ({ data := input }, tags) <;> rfl

theorem valueList_eq (lr : Bool) (input : Bytes) : (valueList lr input).1 = SS.valueList lr input :=
  run_eq (sim_valueListLoop lr _ _) input

theorem qpDecode_eq (lr sp : Bool) (input : Bytes) : (qpDecode lr input sp).1 = SS.qpDecode lr input sp :=
  run_eq (sim_qpLoop lr sp _ _) input

theorem ewDecode_eq (lr : Bool) (E : Env) (input : Bytes) : (ewDecode lr E input).1 = SS.ewDecode lr E input :=
  run_eq (Sim.bind sim_left fun _ => Sim.bind (sim_skipFWS _ _ _) fun _ => Sim.bind sim_left fun _ => sim_ewLoop _ _ _ _ _) input

theorem parseAddressList_eq (lr sc : Bool) (input : Bytes) : (parseAddressList lr sc input).1 = SS.parseAddressList lr sc input :=
  parseAddrDepth_eq lr sc _ input

theorem filterHeader_eq (lr : Bool) (mode : CanonMode) (input : Bytes) : (filterHeader lr mode input).1 = SS.filterHeader lr mode input := by
  cases mode with
  | simple => rfl
  | relaxed =>
    unfold filterHeader SS.filterHeader
    dsimp only
    cases input.findIdx? (· == COLON) with
    | none => rfl
    | some k =>
      dsimp only
      have h := run_eq (sim_collapse lr ((lower (input.take k) ++ input.drop k).length + 1) []) (lower (input.take k) ++ input.drop k)
      rw [← h]
      obtain ⟨x, c⟩ := run (collapse lr ((lower (input.take k) ++ input.drop k).length + 1) []) (lower (input.take k) ++ input.drop k)
      cases x with
      | error e => rfl
      | ok x =>
        dsimp only
        cases colonTrim input x <;> rfl

end Dkim.Steps
