/-!
# Uniform samples

`uniform_random_sample`, `uniform_random_sample_with_variable_resources`, `uniform_random_sample_with_var_priorities_and_resources` and
`uniform_random_sample_cancel` of gen_funcs/sampling.py, and the sample of gen_funcs/uniform_or_localopt.py.

* The stream of random numbers is an input: `u p` is the p-th number over `D`, in [0, 1); `pick p m` is the p-th choice among `m`.
  Simplification: each number takes one place of the stream.
* Coordinates are integers over `D`; bounds are integers.  Rounding is left out.
* A generator returns its rows and the place in the stream; `none`: it raises.
-/
namespace Verif.Sampling.Uniform

structure Stream where
  D : Int
  u : Nat → Int
  pick : Nat → Nat → Nat
  low : ∀ p, 0 ≤ u p
  high : ∀ p, u p < D
  among : ∀ p m, 0 < m → pick p m < m

/-- The domain: bounds of each of `n` coordinates. -/
structure Dom where
  n : Nat
  lb : Nat → Int
  ub : Nat → Int

/-- `uniform(lb, ub, …)`: the coordinates of one point, over `D`. -/
def point (s : Stream) (d : Dom) (p : Nat) : List Int :=
  (List.range d.n).map (fun j => d.lb j * s.D + (d.ub j - d.lb j) * s.u (p + j))

/-- `uniform(lb, ub, (b, n))`: row after row. -/
def points (s : Stream) (d : Dom) (p b : Nat) : List (List Int) := (List.range b).map (fun i => point s d (p + i * d.n))

/-- A row that is returned. -/
structure Row where
  x : List Int
  rsets : Nat := 0
  priority : Nat := 0
  cancel : Bool := false
deriving DecidableEq, Repr

/-- `uniform_random_sample` (sampling.py:20-38). -/
def sample (s : Stream) (d : Dom) (b p : Nat) : List Row × Nat :=
  ((points s d p b).map (fun x => { x := x }), p + b * d.n)

/-- `uniform_random_sample_with_variable_resources` (sampling.py:41-68): all points first, then the numbers of resource sets. -/
def sampleRes (s : Stream) (d : Dom) (b maxR p : Nat) : Option (List Row × Nat) :=
  if maxR = 0 ∧ b ≠ 0 then none
  else some ((points s d p b).zipIdx.map (fun x => { x := x.1, rsets := 1 + s.pick (p + b * d.n + x.2) maxR }), p + b * d.n + b)

/-- `uniform_random_sample_with_var_priorities_and_resources` (sampling.py:71-105); `h`: the number of rows of the history it is given. -/
def samplePri (s : Stream) (d : Dom) (b maxR h p : Nat) : Option (List Row × Nat) :=
  if h = 0 then some ((points s d p b).map (fun x => { x := x, rsets := 1, priority := 1 }), p + b * d.n)
  else if maxR = 0 then none
  else some ([{ x := point s d p, rsets := 1 + s.pick (p + d.n) maxR, priority := 10 * (1 + s.pick (p + d.n) maxR) }], p + d.n + 1)

/-- `uniform_random_sample_cancel` (sampling.py:136-155). -/
def sampleCancel (s : Stream) (d : Dom) (b p : Nat) : List Row × Nat :=
  ((points s d p b).zipIdx.map (fun x => { x := x.1, cancel := x.2 % 10 == 0 }), p + b * d.n)

/-- A row of `uniform_or_localopt`: the point, the point in the unit cube as fractions (`none`: division by zero), and what the
distances and the nearest better points are at the beginning. -/
structure LRow where
  x : List Int
  cube : List (Option (Int × Int))
  dist : Option Nat := some 0
  better : Int := 0
  localPt : Bool := false
  active : Nat := 0
deriving DecidableEq, Repr

/-- `(x - lb) / (ub - lb)` (uniform_or_localopt.py:122) of a coordinate over `D`. -/
def onCube (D lb ub x : Int) : Option (Int × Int) := if ub = lb then none else some (x - lb * D, (ub - lb) * D)

/-- `add_to_Out` (uniform_or_localopt.py:116-133) for one row; `dist = none`: infinity.  `local` and `active` are set in all rows (lines 128-131),
but only rows of a single point are made with them. -/
def addToOut (D : Int) (d : Dom) (x : List Int) (isLocal isActive : Bool) : LRow :=
  { x := x, cube := x.zipIdx.map (fun c => onCube D (d.lb c.2) (d.ub c.2) c.1), dist := none, better := -1, localPt := isLocal,
    active := if isActive then 1 else 0 }

/-- The loop of the sample (uniform_or_localopt.py:37-39): one point at a time. -/
def localLoop (s : Stream) (d : Dom) : Nat → Nat → List LRow × Nat
  | 0, p => ([], p)
  | b + 1, p => (addToOut s.D d (point s d p) false false :: (localLoop s d b (p + d.n)).1, (localLoop s d b (p + d.n)).2)

/-- Calls one after the other; each is given the place in the stream that the last one left. -/
def runs {R : Type} (g : Nat → Nat → List R × Nat) : List Nat → Nat → List R × Nat
  | [], p => ([], p)
  | b :: bs, p => ((g b p).1 ++ (runs g bs (g b p).2).1, (runs g bs (g b p).2).2)

end Verif.Sampling.Uniform
