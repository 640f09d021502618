import Verif.Model.Elm

/-!
# Model of bin/elm_naive.py
-/

namespace Hpelm
variable {K : Type} [Field K] [LinearOrder K]

/-- The demonstration script bin/elm_naive.py:17-24 on a data set `X`, `Y` (lines 13-18 read it from text files): train a classifier with 15 sigmoid
neurons and print the percentage of wrongly classified training samples.  `rW`, `rB`, `sq` stand for the random draws and the scale factor of
`add_neurons`, as in `ELM.addNeurons`; the result is the printed number before it is rounded to one decimal. -/
def naiveScript (env : Env K) (fs : Files K) (rnd : Rnd) (rW : Nat → Mat K) (rB : Nat → List K) (sq : K) (X Y : Mat K) : Except PyErr K := do
  let elm ← ELM.init env 4 3 "" none 1000 none (.str "double") none                                    -- line 20
  let elm ← elm.addNeurons env rW rB sq 15 (.name "sigm") none none                                    -- line 21
  match elm.train env fs rnd (.mat X) (.mat Y) ["c"] {} with                                           -- line 22
  | (.error x, _) => .error x
  | (.ok _, elm) => do
    let Yh ← elm.predict env fs (.mat X)                                                               -- line 23
    let hits := (List.zipWith (fun y yh => decide (argmax y = argmax yh)) Y.rows Yh.rows).countP id    -- line 24
    if Y.nrows = 0 then .error .zeroDivision
    let acc : K := (hits : K) / (Y.nrows : K)
    pure (100 - acc * 100)                                                                             -- line 25

end Hpelm
