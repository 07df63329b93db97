import Mathlib.Analysis.SpecialFunctions.Exp
import Mathlib.Analysis.SpecialFunctions.Trigonometric.Basic
import Mathlib.Algebra.BigOperators.Group.Finset.Basic
/-!
# Test functions with gradients

sim_funcs/six_hump_camel.py, rosenbrock.py, chwirut1.py, periodic_func.py: the formulas.

The numbers are real numbers: rounding is not modelled.  The polynomials are written for any field, so they can be computed with rational numbers.
-/
namespace Verif.TestFuncs

/-- `six_hump_camel_func` (six_hump_camel.py:113-123). -/
def camel {K : Type} [Field K] (x1 x2 : K) : K :=
  let term1 := (4 - 21 / 10 * x1 ^ 2 + x1 ^ 4 / 3) * x1 ^ 2
  let term2 := x1 * x2
  let term3 := (-4 + 4 * x2 ^ 2) * x2 ^ 2
  term1 + term2 + term3

/-- `six_hump_camel_grad` (six_hump_camel.py:126-138). -/
def camelGrad {K : Type} [Field K] (x1 x2 : K) : K × K :=
  (2 * (x1 ^ 5 - 42 / 10 * x1 ^ 3 + 4 * x1 + 1 / 2 * x2), x1 + 16 * x2 ^ 3 - 8 * x2)

/-- A component of the chained Rosenbrock function (rosenbrock.py:39-42). -/
def rosenComp {K : Type} [Field K] (x : Nat → K) (i : Nat) : K :=
  100 * (x (2 * i) ^ 2 - x (2 * i + 1)) ^ 2 + (x (2 * i) - 1) ^ 2

/-- `EvaluateFunction(x)` for `2 * n` coordinates (rosenbrock.py:31-36): two sums. -/
def rosen {K : Type} [Field K] (n : Nat) (x : Nat → K) : K :=
  (∑ i ∈ Finset.range n, 100 * (x (2 * i) ^ 2 - x (2 * i + 1)) ^ 2) + ∑ i ∈ Finset.range n, (x (2 * i) - 1) ^ 2

/-- `EvaluateJacobian(x, i, const)` (rosenbrock.py:69, 75-83): entry `k`. -/
def rosenCompGrad {K : Type} [Field K] (const : K) (x : Nat → K) (i k : Nat) : K :=
  1 / const * (if k = 2 * i then 400 * x (2 * i) * (x (2 * i) ^ 2 - x (2 * i + 1)) + 2 * (x (2 * i) - 1)
    else if k = 2 * i + 1 then -200 * (x (2 * i) ^ 2 - x (2 * i + 1)) else 0)

/-- `EvaluateJacobian(x, nan, const)` (rosenbrock.py:68-73, 83): entry `k` of `2 * n`; `x[::2]` are the even coordinates and `x[1::2]` the odd ones. -/
def rosenGrad {K : Type} [Field K] (const : K) (n : Nat) (x : Nat → K) (k : Nat) : K :=
  if k < 2 * n then
    1 / const * (if k % 2 = 0 then 400 * (x k * (x k ^ 2 - x (k + 1))) + 2 * (x k - 1) else -200 * (x (k - 1) ^ 2 - x k))
  else 0

/-- `func_def` (chwirut1.py:227-228) for an observation `(y, t)`. -/
noncomputable def chwirut (y t : ℝ) (x : Fin 3 → ℝ) : ℝ :=
  y - Real.exp (-x 0 * t) / (x 1 + x 2 * t)

/-- A row of `EvaluateJacobian` (chwirut1.py:252-257). -/
noncomputable def chwirutJac (t : ℝ) (x : Fin 3 → ℝ) : Fin 3 → ℝ :=
  let base := Real.exp (-x 0 * t) / (x 1 + x 2 * t)
  ![t * base, base / (x 1 + x 2 * t), base * t / (x 1 + x 2 * t)]

/-- `periodic_func` (periodic_func.py:23-27). -/
noncomputable def periodic (x1 x2 : ℝ) : ℝ := Real.sin x1 * Real.cos x2

end Verif.TestFuncs
