/-!
# Running `EStateM` programs step by step
-/

namespace Dkim

variable {ε σ α β : Type}

/-- Result of the first step fed to the second. -/
def esBind (r : EStateM.Result ε σ α) (f : α → EStateM ε σ β) : EStateM.Result ε σ β :=
  match r with
  | .ok a s => f a s
  | .error e s => .error e s

theorem es_bind (x : EStateM ε σ α) (f : α → EStateM ε σ β) (s : σ) : (x >>= f) s = esBind (x s) f := by
  show EStateM.bind x f s = _
  unfold EStateM.bind esBind
  cases x s <;> rfl

theorem esBind_ok (a : α) (s : σ) (f : α → EStateM ε σ β) : esBind (.ok a s) f = f a s := rfl
theorem esBind_error (e : ε) (s : σ) (f : α → EStateM ε σ β) : esBind (.error e s) f = .error e s := rfl
theorem es_pure (a : α) (s : σ) : (pure a : EStateM ε σ α) s = .ok a s := rfl
theorem es_throw (e : ε) (s : σ) : (throw e : EStateM ε σ α) s = .error e s := rfl
theorem es_modify (f : σ → σ) (s : σ) : (modify f : EStateM ε σ PUnit) s = .ok () (f s) := rfl
theorem es_get (s : σ) : (get : EStateM ε σ σ) s = .ok s s := rfl
theorem es_set (s s' : σ) : (set s' : EStateM ε σ PUnit) s = .ok () s' := rfl

/-- State after a run, however it ended. -/
def esState (r : EStateM.Result ε σ α) : σ :=
  match r with
  | .ok _ s => s
  | .error _ s => s

@[simp] theorem esState_ok (a : α) (s : σ) : esState (.ok a s : EStateM.Result ε σ α) = s := rfl
@[simp] theorem esState_error (e : ε) (s : σ) : esState (.error e s : EStateM.Result ε σ α) = s := rfl

end Dkim
