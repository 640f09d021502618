import Verif.Model.Rounded

/-!
# The leave-one-out quantities of `train_loo` in rounded arithmetic

Rounding and unknown orders of summation as in `Model/Rounded.lean`.  The inverse `P` of `HH` that a linear algebra library
computed is taken as it is.
-/

namespace Hpelm
variable {K : Type} [Field K] [LinearOrder K]

/-- One entry of `R = np.ones(N) - np.einsum('ij,ji->i', np.dot(H, P), H.T)` for a sample with hidden layer output `h`
(hpelm/mss_loo.py:35,67): the row `g` of `np.dot(H, P)`, its product `d` with `h`, and the difference. -/
def LeverageR (r : K → K) (P : Mat K) (h : List K) (R : K) : Prop :=
  ∃ (g : Nat → K) (d : K),
    (∀ j < h.length, Sums r ((List.range h.length).map fun i => .prod (h.getD i 0) (P.get i j)) (g j)) ∧
    Sums r ((List.range h.length).map fun j => .prod (g j) (h.getD j 0)) d ∧
    R = r (1 - d)

/-- What NumPy returns for a quotient: a number, an infinity for a division of a non-zero number by zero, `nan` for `0/0`. -/
inductive NpQuotient (K : Type)
  | num (x : K)
  | inf
  | nan
  deriving DecidableEq

/-- `a / b` as NumPy computes it with rounding `r`. -/
def quotient (r : K → K) (a b : K) : NpQuotient K :=
  if b = 0 then (if a = 0 then .nan else .inf) else .num (r (a / b))

/-- One entry of the leave-one-out prediction errors `(Y - T) / R` (hpelm/elm.py:512), for a sample with hidden layer output
`h` and target `t`.  `B` is column `c` of the product of `P` and `HT`, `y` the prediction (hpelm/mss_loo.py:34,36). -/
def LooErrorR (r : K → K) (P HT : Mat K) (h : List K) (t : K) (c : Nat) (e : NpQuotient K) : Prop :=
  ∃ (B : Nat → K) (y R : K),
    (∀ i < h.length, Sums r ((List.range h.length).map fun k => .prod (P.get i k) (HT.get k c)) (B i)) ∧
    Sums r ((List.range h.length).map fun i => .prod (h.getD i 0) (B i)) y ∧
    LeverageR r P h R ∧
    e = quotient r (r (y - t)) R

end Hpelm
