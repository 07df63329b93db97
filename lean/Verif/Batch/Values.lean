import Verif.Batch.Model
/-!
# Values of the points of a batch

The simulators of `sim_funcs` that compute a number for each point.  What a point is and how its number is computed (`g`) is left open; a number is an integer without meaning.
-/
namespace Verif.Batch

/-- `for i, x in enumerate(H["x"]): H_o["f"][i] = …`, the loop from row `i` on. -/
def assignFrom {α : Type} (g : α → Int) : Nat → List α → List Int → List Int
  | _, [], out => out
  | i, x :: xs, out => assignFrom g (i + 1) xs (out.set i (g x))

/-- Simulators with a loop over the points: six_hump_camel.py:38-50, branin/branin_obj.py:18-34, chwirut1.py:277-298, rosenbrock.py:111-128, periodic_func.py:14-20, noisy_vector_mapping.py:18-24, inverse_bayes.py:13-17. -/
def loopSim {α : Type} (g : α → Int) (xs : List α) : List Int :=
  assignFrom g 0 xs (List.replicate xs.length 0)

/-- `borehole` (borehole.py:18-25, 57-69): points outside of the bounds raise an AssertionError, no point an IndexError; `borehole_func` returns the first entry of its vector, which is assigned to the whole field. -/
def boreholeSim {α : Type} (inside : α → Bool) (g : α → Int) (xs : List α) : Option (List Int) :=
  if xs.all inside then
    match xs.map g with
    | [] => none
    | v :: _ => some (List.replicate xs.length v)
  else none

/-- `borehole` of surmise_test_function.py:10-23, 34-45: the model is computed for every pair of a row of `x` and a row of `thetas`; a matrix with more than one row and column does not fit in the field (ValueError).
Simplification: at least one point.  `late`: the first row of the order is above `num_obs`; `fail`: with the failure model. -/
def surmiseSim {α : Type} (g fail : α → Int) (late : Bool) : List α → Option (List Int)
  | [x] => some [if late then fail x else g x]
  | _ => none

/-- `norm_eval` (simple_sim.py:21-24): one record, the norm of the whole array. -/
def normSim {α : Type} (norm : List α → Int) (xs : List α) : List Int := [norm xs]

open Verif.History in
/-- The array that is returned: one field. -/
def answer (f : Field) (vs : List Int) : Rec := { cols := [(f, .scalar)], rows := vs.map fun v _ => .s v }

end Verif.Batch
