import Verif.Model.CLib
/-!
# `src/Util.cpp`
-/

namespace Dkim

/-- `CanonMode2String`, src/Util.cpp:27-37. -/
def CanonMode.text : CanonMode → Bytes
  | .simple => b!"simple"
  | .relaxed => b!"relaxed"

/-- `Algorithm2String`, src/Util.cpp:39-62. -/
def algText (sa : SigAlg) (da : DigestAlg) : Bytes :=
  (match sa with | .rsa => b!"rsa" | .ed25519 => b!"ed25519") ++ b!"-" ++
  (match da with | .sha1 => b!"sha1" | .sha256 => b!"sha256")

/-- `ValidateSubDomain`, src/Util.cpp:82-97. -/
def validateSub (s : Bytes) : Bool :=
  match s.head?, s.getLast? with
  | some a, some z => isAlnum a && isAlnum z && s.all (fun c => isAlnum c || c == 45)
  | _, _ => false

/-- The loop of `ValidateDomain`, src/Util.cpp:101-110, with the label being collected. -/
def domainLoop : Bytes → Bytes → Bool
  | lab, [] => validateSub lab
  | lab, c :: r =>
    if c = 46 then (if validateSub lab then domainLoop [] r else false)
    else domainLoop (lab ++ [c]) r

/-- `ValidateDomain`, src/Util.cpp:99-111. -/
def validateDomain (s : Bytes) : Bool := domainLoop [] s

end Dkim
