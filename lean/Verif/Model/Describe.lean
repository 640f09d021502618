import Verif.Model.Elm

/-!
# The printed description of a model
-/

namespace Hpelm
variable {K : Type} [Field K] [LinearOrder K]

/-- `"%d" % n` for a non-negative number (hpelm/elm.py:101,104). -/
def fmtD (n : Nat) : List Char := Nat.toDigits 10 n

/-- `"%s" % func` (hpelm/elm.py:104): a name prints as itself, a NumPy function prints as NumPy writes it. -/
def fmtFunc : Func → List Char
  | .name s => s.toList
  | .ufunc s => "<ufunc '".toList ++ s.toList ++ "'>".toList

/-- One step of the loop over the neuron types (hpelm/elm.py:103-104): `s += "%d %s, " % (n, func)`. -/
def fmtGroup (g : Group K) : List Char := fmtD g.number ++ " ".toList ++ fmtFunc g.func ++ ", ".toList

/-- `ELM.__str__` (hpelm/elm.py:100-106), as a list of characters: the last two characters are cut, `s[:-2]`. -/
def ELM.str (e : ELM K) : List Char :=
  let s := "ELM with ".toList ++ fmtD e.nnet.inputs ++ " inputs and ".toList ++ fmtD e.nnet.outputs ++ " outputs\n".toList
  let s := s ++ "Hidden layer neurons: ".toList
  let s := e.nnet.neurons.foldl (fun s g => s ++ fmtGroup g) s
  s.take (s.length - 2)

end Hpelm
