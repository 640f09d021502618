/-!
# Specification: flags in any letter case
-/

namespace Hpelm.Spec

/-- A string with every letter capitalised. -/
def capitals (a : String) : String := String.ofList (a.toList.map Char.toUpper)

/-- The flag `s` (in capitals) is among the arguments, in any letter case. -/
def Given (args : List String) (s : String) : Prop := s ∈ args.map capitals

instance (args : List String) (s : String) : Decidable (Given args s) := inferInstanceAs (Decidable (s ∈ args.map capitals))

/-- Two strings agree up to the case of their letters. -/
def SameLetters (a b : String) : Prop := capitals a = capitals b

end Hpelm.Spec
