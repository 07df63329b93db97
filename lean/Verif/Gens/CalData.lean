import Verif.Sampling.Uniform
/-!
# The data of the calibration generator

What gen_funcs/persistent_surmise_calib.py sends, and the data of gen_funcs/surmise_calib_support.py; when it is sent is in `Gens/Cal.lean`.

* Places and parameters are of any type.  `none`: an exception.
* The order made by `np.random.shuffle` is an input; random numbers are as in `Sampling/Uniform.lean`.
* Values, noise and the constant of the variance are integers, and the root of the variance is left out: an observation is given by its
  value, its noise and its variance.
-/
namespace Verif.Gens.CalData
open Verif.Sampling.Uniform (Stream)

/-- `gen_xs` (surmise_calib_support.py:40-45): three coordinates over `D`, the third is 0 or 1. -/
def genXs (s : Stream) (p n : Nat) : List (List Int) :=
  (List.range n).map fun i => [s.u (p + i * 3), s.u (p + i * 3 + 1), if s.D < 2 * s.u (p + i * 3 + 2) then s.D else 0]

section
variable {X T : Type}

/-- `H["x"][start : start + n_thetas] = x` and `H["thetas"][…] = thetas` (persistent_surmise_calib.py:120-121); a slice beyond the end is
shorter, and takes no more than one parameter by broadcasting; for one parameter it is then empty. -/
def fill (h : List (X × T)) (start : Nat) (x : X) (ths : List T) : Option (List (X × T)) :=
  if start + ths.length ≤ h.length then some (h.take start ++ ths.map (x, ·) ++ h.drop (start + ths.length))
  else if ths.length ≤ 1 then some h else none

/-- The loop of `load_H` (persistent_surmise_calib.py:118-121) from the `i`-th place on. -/
def load (ths : List T) (off : Nat) : Nat → List X → List (X × T) → Option (List (X × T))
  | _, [], h => some h
  | i, x :: xs, h => match fill h ((i + off) * ths.length) x ths with
    | none => none
    | some h => load ths off (i + 1) xs h

/-- A new array and `load_H` (persistent_surmise_calib.py:169-171, 235-236): `z` is the row of zeros. -/
def batch (z : X × T) (xs : List X) (ths : List T) : Option (List (X × T)) :=
  load ths 0 0 xs (List.replicate (xs.length * ths.length) z)

/-- `gen_truevals` (persistent_surmise_calib.py:128-137). -/
def truth (xs : List X) (t : T) : List (X × T) := xs.map (·, t)
end

/-- `assign_priority` (persistent_surmise_calib.py:104-109): `sh` is the shuffle. -/
def priorities (sh : List Nat → List Nat) (nx k : Nat) : List Nat := sh (List.range (nx * k))

/-- An observation. -/
structure Obs where
  value : Int
  noise : Int
  var : Int
deriving DecidableEq, Repr

/-- `gen_observations` (surmise_calib_support.py:48-56): `np.squeeze` of a single value has no length; `g`: the noise drawn. -/
def observe (g : Nat → Int) (c : Int) (f : List Int) : Option (List Obs) :=
  if f.length = 1 then none else some (f.zipIdx.map fun y => ⟨y.1, g y.2, max (c * y.1) 5⟩)

end Verif.Gens.CalData
