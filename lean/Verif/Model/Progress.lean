import Verif.Model.Basic
import Mathlib.Algebra.Order.Floor.Ring

/-!
# Progress reports of the loops over batches (hpelm/hp_elm.py)

The clock is a sequence of readings: `clock 0`, `clock 1`, … are the results of the successive calls of `time()` in one run of the
loop.  Simplification: exact arithmetic.
-/

namespace Hpelm
variable {K : Type} [Field K] [LinearOrder K] [FloorRing K]

/-- Python's `int(x)`: towards zero. -/
def pyInt (x : K) : Int := if 0 ≤ x then ⌊x⌋ else ⌈x⌉

/-- One pass of the loop as seen from outside: the line printed, if any, says `processing batch done/total, eta h:m:s`; `k` is the number of
clock readings before this pass ends with its report. -/
structure Tick where
  done : Nat
  total : Nat
  k : Nat
  line : Option (Int × Int × Int)
  deriving DecidableEq, Repr

/-- The arguments `eta/3600, (eta % 3600)/60, eta % 60` as `%d` prints them (true division, truncated). -/
def hms (eta : Int) : Int × Int × Int := (Int.tdiv eta 3600, eta % 3600 / 60, eta % 60)

/-- The report at the end of the passes `b` of the loop (hpelm/hp_elm.py:160-164, also 229-233, 287-291, 446-450, 543-547, 603-607); `t` is
the time of the last report, `k` the number of clock readings so far. -/
def progress (clock : Nat → K) (tprint : K) (nb : Nat) : List Nat → Nat → K → List Tick
  | [], _, _ => []
  | b :: bs, k, t =>
    let eta := pyInt ((clock k - clock 1) / ((b : K) + 1) * ((nb : K) - (b : K) - 1))
    if clock (k + 1) - t > tprint then
      ⟨b + 1, nb, k, some (hms eta)⟩ :: progress clock tprint nb bs (k + 3) (clock (k + 2))
    else ⟨b + 1, nb, k, none⟩ :: progress clock tprint nb bs (k + 2) t

/-- The loops of `add_data`, `predict`, `project`, `validation_corr`: `for b in xrange(nb)`, after `t = time(); t0 = time()`
(hpelm/hp_elm.py:147-150,216-218,274-276,433-435). -/
def progressSync (clock : Nat → K) (tprint : K) (nb : Nat) : List Tick := progress clock tprint nb (List.range nb) 2 (clock 0)

/-- The loops of `add_data_async` and `predict_async`: `for b in xrange(0, nb+1)`, the first pass only requests data
(hpelm/hp_elm.py:525-528,585-587). -/
def progressAsync (clock : Nat → K) (tprint : K) (nb : Nat) : List Tick := progress clock tprint nb (List.range (nb + 1)) 2 (clock 0)

end Hpelm
