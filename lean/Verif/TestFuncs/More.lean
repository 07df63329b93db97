import Verif.TestFuncs.Model
import Mathlib.Analysis.SpecialFunctions.Log.Basic
import Mathlib.Analysis.SpecialFunctions.Sqrt
/-!
# Branin, borehole and noisy functions

sim_funcs/branin/branin.py, borehole.py, noisy_vector_mapping.py, surmise_test_function.py: the formulas for one point.

The numbers are real numbers: rounding and infinite results are not modelled (a division of zero by zero is `none`).
-/
namespace Verif.TestFuncs

/-- `branin` (branin/branin.py:10-20). -/
noncomputable def branin (x1 x2 : ℝ) : ℝ :=
  1 * (x2 - 51 / 10 / (4 * Real.pi ^ 2) * x1 ^ 2 + 5 / Real.pi * x1 - 6) ^ 2 + 10 * (1 - 1 / (8 * Real.pi)) * Real.cos x1 + 10

/-- The columns of `x` in `borehole_func` (borehole.py:63). -/
structure Bore where
  tu : ℝ
  tl : ℝ
  hu : ℝ
  hl : ℝ
  r : ℝ
  rw : ℝ
  kw : ℝ
  l : ℝ

/-- The assertion (borehole.py:4-15, 57). -/
def Bore.inside (x : Bore) : Prop :=
  (63070 ≤ x.tu ∧ x.tu ≤ 115600) ∧ (631 / 10 ≤ x.tl ∧ x.tl ≤ 116) ∧ (990 ≤ x.hu ∧ x.hu ≤ 1110) ∧ (700 ≤ x.hl ∧ x.hl ≤ 820) ∧ 0 ≤ x.r ∧
  (5 / 100 ≤ x.rw ∧ x.rw ≤ 15 / 100) ∧ (9855 ≤ x.kw ∧ x.kw ≤ 12045) ∧ (1120 ≤ x.l ∧ x.l ≤ 1680)

/-- `borehole_func` for a point in the bounds (borehole.py:65-69).  For `r = rw` the logarithm is zero and zero is multiplied by an infinite
number; for `r = 0` it is minus infinity, and the result is zero as in the formula with the logarithm zero. -/
noncomputable def Bore.flow (x : Bore) : Option ℝ :=
  if x.r = x.rw then none else
  let numer := 2 * Real.pi * x.tu * (x.hu - x.hl)
  let denom1 := 2 * x.l * x.tu / (Real.log (x.r / x.rw) * x.rw ^ 2 * x.kw)
  let denom2 := x.tu / x.tl
  some (numer / (Real.log (x.r / x.rw) * (1 + denom1 + denom2)))

/-- `phi` with the weights `a` and `b` (noisy_vector_mapping.py:35-42), for two coordinates. -/
noncomputable def phi (a b x1 x2 : ℝ) : ℝ :=
  let y := a * Real.sin (100 * (|x1| + |x2|)) * Real.cos (100 * max |x1| |x2|) + b * Real.cos (Real.sqrt (x1 ^ 2 + x2 ^ 2))
  y * (4 * y ^ 2 - 3)

/-- `noisy_function` (noisy_vector_mapping.py:27-49), component `i`. -/
noncomputable def noisy (x1 x2 : ℝ) (i : Fin 3) : ℝ :=
  match i with
  | 0 => (1 + 1 / 10 * phi (9 / 10) (1 / 10) x1 x2) * ((4 - 21 / 10 * x1 ^ 2 + x1 ^ 4 / 3) * x1 ^ 2)
  | 1 => (1 + 1 / 100 * phi (8 / 10) (2 / 10) x1 x2) * (x1 * x2)
  | 2 => (1 + 1 / 1000 * phi (7 / 10) (3 / 10) x1 x2) * ((-4 + 4 * x2 ^ 2) * x2 ^ 2)

/-- Standardized `thetas` (`Treffs`, `Hus`, `LdKw`, `powparams`) and `x` (`rws`, `Hls`) (surmise_test_function.py:74, 93). -/
structure Std where
  treff : ℝ
  hu : ℝ
  ldkw : ℝ
  pow : ℝ
  rw : ℝ
  hl : ℝ

/-- `tstd2theta` and `xstd2x` (surmise_test_function.py:76-83, 95-97). -/
noncomputable def Std.scale (t : Std) : Std :=
  { treff := (1 / 2 - 5 / 100) * t.treff + 5 / 100
    hu := t.hu * (1110 - 990) + 990
    ldkw := t.ldkw * (1680 / 1500 - 1120 / 15000) + 1120 / 15000
    pow := t.pow * (1 / 2 - (-(1 / 2))) + (-(1 / 2))
    rw := Real.exp (t.rw * (Real.log (1 / 2) - Real.log (5 / 100)) + Real.log (5 / 100))
    hl := t.hl * (820 - 700) + 700 }

/-- `borehole_vec` (surmise_test_function.py:57-67). -/
noncomputable def Std.vec (t : Std) : ℝ :=
  2 * Real.pi * (t.hu - t.hl) / (2 * t.ldkw / t.rw ^ 2 + t.treff) * Real.exp (t.pow * t.rw)

/-- `borehole_model` for one point (surmise_test_function.py:34-45). -/
noncomputable def Std.model (t : Std) : ℝ := t.scale.vec

/-- `borehole_failmodel` for one point (surmise_test_function.py:26-31, 48-54); `none`: the value is infinite, the evaluation has failed. -/
noncomputable def Std.fail (t : Std) : Option ℝ :=
  if t.model / ({ t with treff := 1 / 2, hu := 1 / 2, ldkw := 1 / 2, pow := 1 / 2 } : Std).model > 125 / 100 then none else some t.model

end Verif.TestFuncs
