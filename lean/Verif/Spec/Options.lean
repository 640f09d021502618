import Verif.Spec.LetterCase
import Verif.Model.Env

/-!
# Specification: what the constructor's `precision` argument asks for
-/

namespace Hpelm.Spec

/-- The string mentions a word, in any letter case. -/
def Mentions (s word : String) : Prop := (capitals word).toList <:+: (capitals s).toList

instance (s word : String) : Decidable (Mentions s word) := inferInstanceAs (Decidable (_ <:+: _))

/-- The precision a string asks for: double precision if it mentions "double" or "64", single precision if it mentions "single" or
"32" and not double, otherwise the default, which is double precision. -/
def asksFor (s : String) : Prec :=
  if Mentions s "double" ∨ Mentions s "64" then .double
  else if Mentions s "single" ∨ Mentions s "32" then .single
  else .double

end Hpelm.Spec
