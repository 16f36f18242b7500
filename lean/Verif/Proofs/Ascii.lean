import Verif.Spec.Ascii
/-!
# The model's byte classes are the specified ones
-/

namespace Dkim

@[simp] theorem Spec.isWSP_eq : Spec.isWSP = Dkim.isWSP := rfl
@[simp] theorem Spec.isLoose_eq : Spec.isLoose = Dkim.isLoose := rfl
@[simp] theorem Spec.isSpace_eq : Spec.isSpace = Dkim.isSpace := rfl
@[simp] theorem Spec.isAlnum_eq : Spec.isAlnum = Dkim.isAlnum := rfl
@[simp] theorem Spec.toLower_eq : Spec.toLower = Dkim.toLower := rfl
@[simp] theorem Spec.lower_eq : Spec.lower = Dkim.lower := rfl

end Dkim
