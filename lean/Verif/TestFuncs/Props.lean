import Verif.TestFuncs.Model
import Mathlib.Analysis.Calculus.Deriv.Pow
import Mathlib.Analysis.Calculus.Deriv.Inv
import Mathlib.Analysis.SpecialFunctions.ExpDeriv
import Mathlib.Tactic.Ring
import Mathlib.Tactic.FieldSimp
import Mathlib.Tactic.NormNum
/-!
# C94: the gradients of the test functions are their derivatives
-/
namespace Verif.TestFuncs

/-- `g` is the partial derivative of `f` by coordinate `k` at `x`. -/
def Partial {ι : Type} [DecidableEq ι] (f : (ι → ℝ) → ℝ) (x : ι → ℝ) (k : ι) (g : ℝ) : Prop :=
  HasDerivAt (fun s => f (Function.update x k s)) g (x k)

theorem hasDerivAt_of_eq {f g : ℝ → ℝ} {a b x : ℝ} (h : HasDerivAt f a x) (e : ∀ s, g s = f s) (e' : b = a) : HasDerivAt g b x := by
  rw [funext e, e']; exact h

/-- C94: the gradient of the six-hump camel function. -/
theorem C94_camel (x : Fin 2 → ℝ) :
    Partial (fun z => camel (z 0) (z 1)) x 0 (camelGrad (x 0) (x 1)).1 ∧ Partial (fun z => camel (z 0) (z 1)) x 1 (camelGrad (x 0) (x 1)).2 := by
  constructor
  · have h := hasDerivAt_id (x 0)
    have := ((((h.pow 2).const_mul (21 / 10)).const_sub 4 |>.add ((h.pow 4).div_const 3)).mul (h.pow 2)).add (h.mul_const (x 1)) |>.add_const ((-4 + 4 * x 1 ^ 2) * x 1 ^ 2)
    unfold Partial
    refine hasDerivAt_of_eq this (fun s => ?_) ?_
    · simp [camel]
    · simp [camelGrad]; ring
  · have h := hasDerivAt_id (x 1)
    have := ((((h.pow 2).const_mul 4).const_add (-4)).mul (h.pow 2)).const_add ((4 - 21 / 10 * x 0 ^ 2 + x 0 ^ 4 / 3) * x 0 ^ 2) |>.add (h.const_mul (x 0))
    unfold Partial
    refine hasDerivAt_of_eq this (fun s => ?_) ?_
    · simp [camel]; ring
    · simp [camelGrad]; ring

/-- The function is the sum of its components. -/
theorem C94_rosen_sum (n : Nat) (x : Nat → ℝ) : rosen n x = ∑ i ∈ Finset.range n, rosenComp x i := by
  unfold rosen rosenComp
  rw [Finset.sum_add_distrib]

/-- C94: the gradient of a component of the Rosenbrock function, times `const`, is the derivative by any coordinate. -/
theorem C94_rosen_comp (const : ℝ) (hc : const ≠ 0) (x : Nat → ℝ) (i k : Nat) :
    Partial (fun z => rosenComp z i) x k (const * rosenCompGrad const x i k) := by
  have e : const * rosenCompGrad const x i k = (if k = 2 * i then 400 * x (2 * i) * (x (2 * i) ^ 2 - x (2 * i + 1)) + 2 * (x (2 * i) - 1)
      else if k = 2 * i + 1 then -200 * (x (2 * i) ^ 2 - x (2 * i + 1)) else 0) := by
    unfold rosenCompGrad
    rw [← mul_assoc, mul_one_div_cancel hc, one_mul]
  rw [e]
  unfold Partial
  have h := hasDerivAt_id (x k)
  by_cases h1 : k = 2 * i
  · rw [if_pos h1]
    subst h1
    have := ((((h.pow 2).sub_const (x (2 * i + 1))).pow 2).const_mul 100).add ((h.sub_const 1).pow 2)
    refine hasDerivAt_of_eq this (fun s => ?_) ?_
    · simp [rosenComp]
    · simp; ring
  · rw [if_neg h1]
    by_cases h2 : k = 2 * i + 1
    · rw [if_pos h2]
      subst h2
      have := ((((h.const_sub (x (2 * i) ^ 2)).pow 2).const_mul 100)).add_const ((x (2 * i) - 1) ^ 2)
      refine hasDerivAt_of_eq this (fun s => ?_) ?_
      · simp [rosenComp]
      · simp; ring
    · rw [if_neg h2]
      have : (fun s => rosenComp (Function.update x k s) i) = fun _ => rosenComp x i := by
        funext s
        unfold rosenComp
        rw [Function.update_of_ne (Ne.symm h1), Function.update_of_ne (Ne.symm h2)]
      rw [this]
      exact hasDerivAt_const _ _

/-- The gradient is the sum of the gradients of the components. -/
theorem C94_rosen_grad_sum (const : ℝ) (n : Nat) (x : Nat → ℝ) (k : Nat) :
    rosenGrad const n x k = ∑ i ∈ Finset.range n, rosenCompGrad const x i k := by
  have hz : ∀ i, i ≠ k / 2 → rosenCompGrad const x i k = 0 := by
    intro i hi
    unfold rosenCompGrad
    rw [if_neg (by omega), if_neg (by omega), mul_zero]
  unfold rosenGrad
  split
  · rename_i hk
    rw [Finset.sum_eq_single (k / 2) (fun i _ hi => hz i hi) (fun h => absurd (Finset.mem_range.2 (by omega)) h)]
    unfold rosenCompGrad
    rcases Nat.mod_two_eq_zero_or_one k with h | h
    · have e : k = 2 * (k / 2) := by omega
      rw [if_pos h, if_pos e, ← e]
      ring
    · have e : k = 2 * (k / 2) + 1 := by omega
      have e' : 2 * (k / 2) = k - 1 := by omega
      rw [if_neg (by omega), if_neg (by omega), if_pos e, ← e, e']
  · rename_i hk
    symm
    apply Finset.sum_eq_zero
    intro i hi
    have := Finset.mem_range.1 hi
    exact hz i (by omega)

/-- C94: the gradient of the Rosenbrock function, times `const`, is the derivative by every coordinate. -/
theorem C94_rosen (const : ℝ) (hc : const ≠ 0) (n : Nat) (x : Nat → ℝ) (k : Nat) :
    Partial (rosen n) x k (const * rosenGrad const n x k) := by
  unfold Partial
  have : (fun s => rosen n (Function.update x k s)) = fun s => ∑ i ∈ Finset.range n, rosenComp (Function.update x k s) i := by
    funext s; exact C94_rosen_sum n _
  rw [this, C94_rosen_grad_sum, Finset.mul_sum]
  exact HasDerivAt.fun_sum (fun i _ => C94_rosen_comp const hc x i k)

/-- What is returned is not the gradient unless it is scaled back: with the default `const` of 1000 it is a thousandth of it. -/
theorem C94_rosen_scaled (n : Nat) (x : Nat → ℝ) (k : Nat) (g : ℝ) (hg : Partial (rosen n) x k g) : rosenGrad 1000 n x k = g / 1000 := by
  have := HasDerivAt.unique hg (C94_rosen 1000 (by norm_num) n x k)
  rw [this]
  field_simp

/-- C94: the Jacobian of the residuals of the Chwirut problem, where they are defined. -/
theorem C94_chwirut (y t : ℝ) (x : Fin 3 → ℝ) (h : x 1 + x 2 * t ≠ 0) (k : Fin 3) : Partial (chwirut y t) x k (chwirutJac t x k) := by
  unfold Partial
  have hd := hasDerivAt_id (x k)
  match k with
  | 0 =>
    have := ((((hd.neg).mul_const t).exp).div_const (x 1 + x 2 * t)).const_sub y
    refine hasDerivAt_of_eq this (fun s => ?_) ?_
    · simp [chwirut]
    · simp [chwirutJac]; ring
  | 1 =>
    have := (((hd.add_const (x 2 * t)).inv h).const_mul (Real.exp (-x 0 * t))).const_sub y
    refine hasDerivAt_of_eq this (fun s => ?_) ?_
    · simp [chwirut, div_eq_mul_inv]
    · simp [chwirutJac]; field_simp
  | 2 =>
    have := ((((hd.mul_const t).const_add (x 1)).inv h).const_mul (Real.exp (-x 0 * t))).const_sub y
    refine hasDerivAt_of_eq this (fun s => ?_) ?_
    · simp [chwirut, div_eq_mul_inv]
    · simp [chwirutJac]; field_simp

/-- The point and the first observation of the example in chwirut1.py. -/
example (k : Fin 3) : Partial (chwirut 92.9 0.5) ![0.15, 0.008, 0.010] k (chwirutJac 0.5 ![0.15, 0.008, 0.010] k) :=
  C94_chwirut _ _ _ (by show (0.008 : ℝ) + 0.010 * 0.5 ≠ 0; norm_num) k

/-- `periodic_func` is periodic in both coordinates. -/
theorem C94_periodic (x1 x2 : ℝ) (m n : ℤ) : periodic (x1 + m * (2 * Real.pi)) (x2 + n * (2 * Real.pi)) = periodic x1 x2 := by
  unfold periodic
  rw [Real.sin_add_int_mul_two_pi, Real.cos_add_int_mul_two_pi]

/-- With rational numbers: values and gradients at some points. -/
example : camel (1 : ℚ) 2 = 4 - 21 / 10 + 1 / 3 + 2 + 48 ∧ camelGrad (1 : ℚ) 2 = (36 / 10, 113) := by
  constructor <;> norm_num [camel, camelGrad]

example : rosen 2 (fun k => if k = 0 then (2 : ℚ) else 1) = 901 ∧ rosenGrad 1000 2 (fun k => if k = 0 then (2 : ℚ) else 1) 0 = 2402 / 1000 ∧
    rosenGrad 1 2 (fun k => if k = 0 then (2 : ℚ) else 1) 1 = -600 := by
  refine ⟨?_, ?_, ?_⟩ <;> norm_num [rosen, rosenGrad, Finset.sum_range_succ]

end Verif.TestFuncs
