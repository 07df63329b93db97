import Verif.TestFuncs.More
import Mathlib.Analysis.Real.Pi.Bounds
import Mathlib.Analysis.SpecialFunctions.Trigonometric.Inverse
import Mathlib.Tactic.Linarith
import Mathlib.Tactic.Positivity
import Mathlib.Tactic.Ring
import Mathlib.Tactic.FieldSimp
import Mathlib.Tactic.NormNum
/-!
# C102: the formulas of Branin, borehole and noisy functions
-/
namespace Verif.TestFuncs

/-! ### Branin -/

theorem one_sub_t_pos : 0 < 1 - 1 / (8 * Real.pi) := by
  have h := Real.pi_gt_three
  have : 1 / (8 * Real.pi) < 1 := by
    rw [div_lt_one (by positivity)]; linarith
  linarith

/-- The parabola on which the square is zero. -/
noncomputable def valley (x1 : ℝ) : ℝ := 51 / 40 * (x1 / Real.pi) ^ 2 - 5 * (x1 / Real.pi) + 6

theorem branin_eq (x1 x2 : ℝ) :
    branin x1 x2 = 10 / (8 * Real.pi) + (x2 - valley x1) ^ 2 + 10 * (1 - 1 / (8 * Real.pi)) * (1 + Real.cos x1) := by
  have h : Real.pi ≠ 0 := Real.pi_ne_zero
  unfold branin valley
  field_simp
  ring

/-- C102: no value is below `10 / (8 π)`, and this value is taken exactly in the valley below the odd multiples of π. -/
theorem C102_branin (x1 x2 : ℝ) :
    10 / (8 * Real.pi) ≤ branin x1 x2 ∧ (branin x1 x2 = 10 / (8 * Real.pi) ↔ Real.cos x1 = -1 ∧ x2 = valley x1) := by
  have ht := one_sub_t_pos
  have hc := Real.neg_one_le_cos x1
  have h1 : 0 ≤ (x2 - valley x1) ^ 2 := sq_nonneg _
  have h2 : 0 ≤ 10 * (1 - 1 / (8 * Real.pi)) * (1 + Real.cos x1) := by
    apply mul_nonneg <;> linarith
  rw [branin_eq]
  refine ⟨by linarith, ?_, ?_⟩
  · intro h
    have a : (x2 - valley x1) ^ 2 = 0 := by linarith
    have b : 10 * (1 - 1 / (8 * Real.pi)) * (1 + Real.cos x1) = 0 := by linarith
    have a' := pow_eq_zero_iff (two_ne_zero) |>.mp a
    rcases mul_eq_zero.mp b with b | b
    · linarith
    · exact ⟨by linarith, by linarith⟩
  · rintro ⟨h, rfl⟩
    rw [h]; ring

/-- C102: on the domain of the tests, `-5 ≤ x1 ≤ 10`, there are exactly the three minima of the file `known_minima_and_func_values`. -/
theorem C102_branin_minima (x1 x2 : ℝ) (hl : -5 ≤ x1) (hu : x1 ≤ 10) :
    (∀ y1 y2, branin x1 x2 ≤ branin y1 y2) ↔
    (x1 = -Real.pi ∧ x2 = 12275 / 1000) ∨ (x1 = Real.pi ∧ x2 = 2275 / 1000) ∨ (x1 = 3 * Real.pi ∧ x2 = 2475 / 1000) := by
  have hp : Real.pi ≠ 0 := Real.pi_ne_zero
  have v1 : valley (-Real.pi) = 12275 / 1000 := by unfold valley; field_simp; norm_num
  have v2 : valley Real.pi = 2275 / 1000 := by unfold valley; field_simp; norm_num
  have v3 : valley (3 * Real.pi) = 2475 / 1000 := by unfold valley; field_simp; norm_num
  have c1 : Real.cos (-Real.pi) = -1 := by rw [Real.cos_neg, Real.cos_pi]
  have c3 : Real.cos (3 * Real.pi) = -1 := by
    have : 3 * Real.pi = Real.pi + 2 * Real.pi := by ring
    rw [this, Real.cos_add_two_pi, Real.cos_pi]
  have hm : branin Real.pi (valley Real.pi) = 10 / (8 * Real.pi) := (C102_branin _ _).2.mpr ⟨Real.cos_pi, rfl⟩
  have key : (∀ y1 y2, branin x1 x2 ≤ branin y1 y2) ↔ Real.cos x1 = -1 ∧ x2 = valley x1 := by
    rw [← (C102_branin x1 x2).2]
    constructor
    · intro h
      exact le_antisymm (hm ▸ h _ _) (C102_branin _ _).1
    · intro h y1 y2
      rw [h]; exact (C102_branin _ _).1
  rw [key]
  constructor
  · rintro ⟨hc, rfl⟩
    have hc' : Real.cos (x1 - Real.pi) = 1 := by rw [Real.cos_sub_pi, hc]; norm_num
    obtain ⟨n, hn⟩ := (Real.cos_eq_one_iff _).mp hc'
    have hx : x1 = (2 * n + 1) * Real.pi := by linarith
    have hpi := Real.pi_gt_three
    have hpi' := Real.pi_lt_four
    have n1 : -2 < n := by
      by_contra h
      have : (n : ℝ) ≤ -2 := by exact_mod_cast not_lt.mp h
      nlinarith
    have n2 : n < 2 := by
      by_contra h
      have : (2 : ℝ) ≤ n := by exact_mod_cast not_lt.mp h
      nlinarith
    have : n = -1 ∨ n = 0 ∨ n = 1 := by omega
    rcases this with rfl | rfl | rfl
    · left
      have : x1 = -Real.pi := by rw [hx]; push_cast; ring
      exact ⟨this, by rw [this, v1]⟩
    · right; left
      have : x1 = Real.pi := by rw [hx]; push_cast; ring
      exact ⟨this, by rw [this, v2]⟩
    · right; right
      have : x1 = 3 * Real.pi := by rw [hx]; push_cast; ring
      exact ⟨this, by rw [this, v3]⟩
  · rintro (⟨rfl, rfl⟩ | ⟨rfl, rfl⟩ | ⟨rfl, rfl⟩)
    · exact ⟨c1, v1.symm⟩
    · exact ⟨Real.cos_pi, v2.symm⟩
    · exact ⟨c3, v3.symm⟩

/-- C102: the places and the value in the file are right to all digits given. -/
theorem C102_branin_file :
    |Real.pi - 314159 / 100000| < 1 / 200000 ∧ |3 * Real.pi - 942478 / 100000| < 1 / 200000 ∧
    |10 / (8 * Real.pi) - 397887 / 1000000| < 1 / 2000000 := by
  have h1 := Real.pi_gt_d6
  have h2 := Real.pi_lt_d6
  refine ⟨?_, ?_, ?_⟩
  · rw [abs_lt]; constructor <;> norm_num at * <;> linarith
  · rw [abs_lt]; constructor <;> norm_num at * <;> linarith
  · have a : 10 / (8 * Real.pi) < 397887 / 1000000 + 1 / 2000000 := by
      rw [div_lt_iff₀ (by positivity)]; norm_num at *; linarith
    have b : 397887 / 1000000 - 1 / 2000000 < 10 / (8 * Real.pi) := by
      rw [lt_div_iff₀ (by positivity)]; norm_num at *; linarith
    rw [abs_lt]; constructor <;> linarith

/-! ### Noisy function -/

theorem cheb_abs {y : ℝ} (h : |y| ≤ 1) : |y * (4 * y ^ 2 - 3)| ≤ 1 := by
  obtain ⟨h1, h2⟩ := abs_le.mp h
  rw [abs_le]
  constructor
  · nlinarith [mul_nonneg (by linarith : 0 ≤ 1 + y) (sq_nonneg (2 * y - 1))]
  · nlinarith [mul_nonneg (by linarith : 0 ≤ 1 - y) (sq_nonneg (2 * y + 1))]

theorem phi_abs {a b : ℝ} (ha : 0 ≤ a) (hb : 0 ≤ b) (h : a + b = 1) (x1 x2 : ℝ) : |phi a b x1 x2| ≤ 1 := by
  unfold phi
  apply cheb_abs
  have hs := Real.abs_sin_le_one (100 * (|x1| + |x2|))
  have hc := Real.abs_cos_le_one (100 * max |x1| |x2|)
  have hd := Real.abs_cos_le_one (Real.sqrt (x1 ^ 2 + x2 ^ 2))
  have h1 : |a * Real.sin (100 * (|x1| + |x2|)) * Real.cos (100 * max |x1| |x2|)| ≤ a := by
    rw [mul_assoc, abs_mul, abs_of_nonneg ha, abs_mul]
    have : |Real.sin (100 * (|x1| + |x2|))| * |Real.cos (100 * max |x1| |x2|)| ≤ 1 := mul_le_one₀ hs (abs_nonneg _) hc
    nlinarith
  have h2 : |b * Real.cos (Real.sqrt (x1 ^ 2 + x2 ^ 2))| ≤ b := by
    rw [abs_mul, abs_of_nonneg hb]
    nlinarith
  exact (abs_add_le _ _).trans (by linarith)

/-- The terms of the six-hump camel function. -/
noncomputable def camelTerm (x1 x2 : ℝ) : Fin 3 → ℝ
  | 0 => (4 - 21 / 10 * x1 ^ 2 + x1 ^ 4 / 3) * x1 ^ 2
  | 1 => x1 * x2
  | 2 => (-4 + 4 * x2 ^ 2) * x2 ^ 2

theorem scaled_abs {e p t : ℝ} (he : 0 ≤ e) (hp : |p| ≤ 1) : |(1 + e * p) * t - t| ≤ e * |t| := by
  have : (1 + e * p) * t - t = e * p * t := by ring
  rw [this, abs_mul, abs_mul, abs_of_nonneg he]
  have := abs_nonneg t
  have h : e * |p| ≤ e := by nlinarith
  exact mul_le_mul_of_nonneg_right h this

/-- C102: the components are the terms of the six-hump camel function, with a relative error of at most 10, 1 and 0.1 percent. -/
theorem C102_noise (x1 x2 : ℝ) :
    camelTerm x1 x2 0 + camelTerm x1 x2 1 + camelTerm x1 x2 2 = camel x1 x2 ∧
    ∀ i : Fin 3, |noisy x1 x2 i - camelTerm x1 x2 i| ≤ (1 / 10) ^ (i.val + 1) * |camelTerm x1 x2 i| := by
  refine ⟨by simp [camelTerm, camel], ?_⟩
  intro i
  match i with
  | 0 =>
    have := scaled_abs (e := 1 / 10) (t := camelTerm x1 x2 0) (by norm_num) (phi_abs (a := 9 / 10) (b := 1 / 10) (by norm_num) (by norm_num) (by norm_num) x1 x2)
    simpa [noisy, camelTerm] using this
  | 1 =>
    have := scaled_abs (e := 1 / 100) (t := camelTerm x1 x2 1) (by norm_num) (phi_abs (a := 8 / 10) (b := 2 / 10) (by norm_num) (by norm_num) (by norm_num) x1 x2)
    have e : ((1 : ℝ) / 10) ^ ((1 : Fin 3).val + 1) = 1 / 100 := by norm_num
    rw [e]; exact this
  | 2 =>
    have := scaled_abs (e := 1 / 1000) (t := camelTerm x1 x2 2) (by norm_num) (phi_abs (a := 7 / 10) (b := 3 / 10) (by norm_num) (by norm_num) (by norm_num) x1 x2)
    have e : ((1 : ℝ) / 10) ^ ((2 : Fin 3).val + 1) = 1 / 1000 := by norm_num
    rw [e]; exact this

/-! ### Borehole -/

/-- The denominator without the division by the logarithm. -/
noncomputable def Bore.den (x : Bore) : ℝ := Real.log (x.r / x.rw) * (1 + x.tu / x.tl) + 2 * x.l * x.tu / (x.rw ^ 2 * x.kw)

theorem flow_eq (x : Bore) (hi : x.inside) (h0 : 0 < x.r) (h : x.r ≠ x.rw) :
    x.flow = some (2 * Real.pi * x.tu * (x.hu - x.hl) / x.den) := by
  obtain ⟨h1, h2, _, _, _, h6, h7, _⟩ := hi
  have hrw : 0 < x.rw := by linarith [h6.1]
  have hl : Real.log (x.r / x.rw) ≠ 0 := by
    have hd : 0 < x.r / x.rw := by positivity
    intro e
    rcases Real.log_eq_zero.mp e with e | e | e
    · linarith
    · exact h ((div_eq_one_iff_eq hrw.ne').mp e)
    · linarith
  have hk : x.kw ≠ 0 := by linarith [h7.1]
  rw [Bore.flow, if_neg h]
  dsimp only
  congr 2
  unfold Bore.den
  generalize Real.log (x.r / x.rw) = y at *
  field_simp
  ring

/-- C102: water flows for a radius of influence above that of the borehole, in proportion to the difference of the heads (`den` is the same for all heads). -/
theorem C102_flow_partial (x : Bore) (hi : x.inside) (h : x.rw < x.r) :
    ∃ f, x.flow = some f ∧ 0 < f ∧ f * x.den = 2 * Real.pi * x.tu * (x.hu - x.hl) ∧ 0 < x.den := by
  have hi' := hi
  obtain ⟨h1, h2, h3, h4, _, h6, h7, h8⟩ := hi'
  have hrw : 0 < x.rw := by linarith [h6.1]
  have hlog : 0 < Real.log (x.r / x.rw) := Real.log_pos ((one_lt_div hrw).mpr h)
  have htu : 0 < x.tu := by linarith [h1.1]
  have htl : 0 < x.tl := by linarith [h2.1]
  have hk : 0 < x.kw := by linarith [h7.1]
  have hL : 0 < x.l := by linarith [h8.1]
  have hh : 0 < x.hu - x.hl := by linarith [h3.1, h4.2]
  have hd : 0 < x.den := by unfold Bore.den; positivity
  have hp := Real.pi_pos
  refine ⟨_, flow_eq x hi (by linarith) h.ne', by positivity, ?_, hd⟩
  field_simp

/-- C102: the bounds admit radii below that of the borehole: for all other values there is one with a negative flow. -/
theorem C102_flow_negative (x : Bore) (hi : x.inside) : ∃ r f, ({ x with r := r } : Bore).inside ∧ ({ x with r := r } : Bore).flow = some f ∧ f < 0 := by
  have hi' := hi
  obtain ⟨h1, h2, h3, h4, h5, h6, h7, h8⟩ := hi'
  have hrw : 0 < x.rw := by linarith [h6.1]
  have htu : 0 < x.tu := by linarith [h1.1]
  have htl : 0 < x.tl := by linarith [h2.1]
  have hk : 0 < x.kw := by linarith [h7.1]
  have hL : 0 < x.l := by linarith [h8.1]
  have hh : 0 < x.hu - x.hl := by linarith [h3.1, h4.2]
  have hp := Real.pi_pos
  have hq : 0 < 2 * x.l * x.tu / (x.rw ^ 2 * x.kw) := by positivity
  have hs : 0 < x.tu / x.tl := by positivity
  generalize hK : 2 * x.l * x.tu / (x.rw ^ 2 * x.kw) = q at hq
  have he : 0 < Real.exp (-(q + 1)) := Real.exp_pos _
  have hlt : Real.exp (-(q + 1)) < 1 := Real.exp_lt_one_iff.mpr (by linarith)
  have hin : ({ x with r := x.rw * Real.exp (-(q + 1)) } : Bore).inside := ⟨h1, h2, h3, h4, by dsimp only; positivity, h6, h7, h8⟩
  have hne : x.rw * Real.exp (-(q + 1)) ≠ x.rw := by
    intro e; nlinarith
  refine ⟨x.rw * Real.exp (-(q + 1)), _, hin, flow_eq _ hin (by dsimp only; positivity) hne, ?_⟩
  have hden : ({ x with r := x.rw * Real.exp (-(q + 1)) } : Bore).den < 0 := by
    unfold Bore.den
    dsimp only
    rw [mul_div_cancel_left₀ _ hrw.ne', Real.log_exp, hK]
    nlinarith
  exact div_neg_of_pos_of_neg (by dsimp only; positivity) hden

/-- The values for which the parameters and places are standardized. -/
def Std.unit (t : Std) : Prop :=
  (0 ≤ t.treff ∧ t.treff ≤ 1) ∧ (0 ≤ t.hu ∧ t.hu ≤ 1) ∧ (0 ≤ t.ldkw ∧ t.ldkw ≤ 1) ∧ (0 ≤ t.pow ∧ t.pow ≤ 1) ∧ (0 ≤ t.rw ∧ t.rw ≤ 1) ∧ (0 ≤ t.hl ∧ t.hl ≤ 1)

/-- C102: standardized values are mapped into the ranges of the borehole function. -/
theorem C102_scale (t : Std) (h : t.unit) :
    (5 / 100 ≤ t.scale.treff ∧ t.scale.treff ≤ 1 / 2) ∧ (990 ≤ t.scale.hu ∧ t.scale.hu ≤ 1110) ∧
    (1120 / 15000 ≤ t.scale.ldkw ∧ t.scale.ldkw ≤ 1680 / 1500) ∧ (-(1 / 2) ≤ t.scale.pow ∧ t.scale.pow ≤ 1 / 2) ∧
    (5 / 100 ≤ t.scale.rw ∧ t.scale.rw ≤ 1 / 2) ∧ (700 ≤ t.scale.hl ∧ t.scale.hl ≤ 820) := by
  obtain ⟨h1, h2, h3, h4, h5, h6⟩ := h
  have hll : Real.log (5 / 100) < Real.log (1 / 2) := Real.log_lt_log (by norm_num) (by norm_num)
  have e1 : Real.exp (Real.log (5 / 100)) = 5 / 100 := Real.exp_log (by norm_num)
  have e2 : Real.exp (Real.log (1 / 2)) = 1 / 2 := Real.exp_log (by norm_num)
  refine ⟨?_, ?_, ?_, ?_, ?_, ?_⟩
  · simp only [Std.scale]; constructor <;> linarith [h1.1, h1.2]
  · simp only [Std.scale]; constructor <;> linarith [h2.1, h2.2]
  · simp only [Std.scale]; constructor <;> linarith [h3.1, h3.2]
  · simp only [Std.scale]; constructor <;> linarith [h4.1, h4.2]
  · simp only [Std.scale]
    constructor
    · rw [← e1]
      apply Real.exp_le_exp.mpr
      rw [e1]
      nlinarith [h5.1]
    · rw [← e2]
      apply Real.exp_le_exp.mpr
      rw [e2]
      nlinarith [h5.2]
  · simp only [Std.scale]; constructor <;> linarith [h6.1, h6.2]

theorem model_pos (t : Std) (h : t.unit) : 0 < t.model := by
  obtain ⟨h1, h2, h3, h4, h5, h6⟩ := C102_scale t h
  unfold Std.model Std.vec
  have hp := Real.pi_pos
  have a : 0 < t.scale.hu - t.scale.hl := by linarith [h2.1, h6.2]
  have b : 0 < t.scale.ldkw := by linarith [h3.1]
  have c : 0 < t.scale.rw := by linarith [h5.1]
  have d : 0 < t.scale.treff := by linarith [h1.1]
  positivity

/-- C102: values are positive; an evaluation fails exactly if its value is more than a quarter above that of the true parameters, so that the
true parameters never fail. -/
theorem C102_fail (t : Std) (h : t.unit) :
    0 < t.model ∧
    (t.fail = none ↔ 125 / 100 * ({ t with treff := 1 / 2, hu := 1 / 2, ldkw := 1 / 2, pow := 1 / 2 } : Std).model < t.model) ∧
    (∀ v, t.fail = some v → v = t.model) ∧
    ({ t with treff := 1 / 2, hu := 1 / 2, ldkw := 1 / 2, pow := 1 / 2 } : Std).fail ≠ none := by
  have hu : ({ t with treff := 1 / 2, hu := 1 / 2, ldkw := 1 / 2, pow := 1 / 2 } : Std).unit := by
    obtain ⟨_, _, _, _, h5, h6⟩ := h
    refine ⟨?_, ?_, ?_, ?_, h5, h6⟩ <;> constructor <;> dsimp only <;> norm_num
  have hp := model_pos _ hu
  have hm : ∀ (s : Std), 0 < ({ s with treff := 1 / 2, hu := 1 / 2, ldkw := 1 / 2, pow := 1 / 2 } : Std).model →
      (s.fail = none ↔ 125 / 100 * ({ s with treff := 1 / 2, hu := 1 / 2, ldkw := 1 / 2, pow := 1 / 2 } : Std).model < s.model) := by
    intro s hs
    rw [← lt_div_iff₀ hs]
    unfold Std.fail
    split
    · rename_i hh; exact ⟨fun _ => hh, fun _ => rfl⟩
    · rename_i hh; exact ⟨fun e => (nomatch e), fun e => absurd e hh⟩
  refine ⟨model_pos t h, hm t hp, ?_, ?_⟩
  · intro v hv
    unfold Std.fail at hv
    split at hv
    · exact nomatch hv
    · cases hv; rfl
  · intro e
    have := (hm { t with treff := 1 / 2, hu := 1 / 2, ldkw := 1 / 2, pow := 1 / 2 } hp).mp e
    linarith

example : (⟨70000, 100, 1000, 800, 5, 1 / 10, 10000, 1200⟩ : Bore).inside ∧ (1 : ℝ) / 10 < 5 ∧ (⟨1 / 3, 1 / 2, 0, 1, 1 / 4, 1⟩ : Std).unit := by
  refine ⟨?_, by norm_num, ?_⟩
  · unfold Bore.inside; norm_num
  · unfold Std.unit; norm_num

end Verif.TestFuncs
