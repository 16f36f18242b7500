import Verif.Model.Env
/-!
# A concrete environment

Used only to show that hypotheses of theorems are satisfiable and to run the model on concrete
inputs. "Keys" are numbers, the "digest" is the message itself, and a "signature" is the key followed by the
digest (padded or cut to 64 bytes for the Ed25519 stand-in).
-/

namespace Dkim

/-- Pad with zeros or cut to `n` bytes. -/
def fit (n : Nat) (b : Bytes) : Bytes := (b ++ List.replicate n 0).take n

/-- Toy environment. -/
def toyEnv : Env where
  RsaPub := Nat
  RsaPriv := Nat
  hash da m := (match da with | .sha1 => 1 | .sha256 => 2) :: m
  b64dec := b64DecodeRef
  d2iPubkey d := match d with | [] => none | 0 :: _ => some none | k :: _ => some (some k.toNat)
  rsaVerify k _ md sg := sg == UInt8.ofNat k :: md
  edVerify k md sg := k.length == 32 && sg == fit 64 (k ++ md)
  rsaSign k _ md := some (UInt8.ofNat k :: md)
  edSign k md := some (fit 64 (k.drop 32 ++ md))
  pemPriv _ := some (some 7)
  derPriv d := match d with | [] => none | k :: _ => some k.toNat
  edSeed s := fit 32 s ++ fit 32 s

/-- A run that succeeds with a result of a given form, from its evaluation. -/
theorem ok_of {ε α : Type} (x : Except ε α) (p : α → Bool) (h : (match x with | .ok a => p a | .error _ => false) = true) :
    ∃ a, x = .ok a ∧ p a = true := by
  cases x with
  | ok a => exact ⟨a, rfl, h⟩
  | error e => cases h

/-- The same for functions with a state. -/
theorem res_of {ε σ α : Type} (x : EStateM.Result ε σ α) (p : α → σ → Bool)
    (h : (match x with | .ok a s => p a s | .error _ _ => false) = true) : ∃ a s, x = .ok a s ∧ p a s = true := by
  cases x with
  | ok a s => exact ⟨a, s, rfl, h⟩
  | error e s => cases h

end Dkim
