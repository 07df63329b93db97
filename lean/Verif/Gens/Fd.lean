/-
The finite-difference generator `fd_param_finder` (libensemble/gen_funcs/persistent_fd_param_finder.py).

The state is that of the loop; a generator that was given the arrays `rs` (without a stop) is in the state `after rs`.

Simplifications: function values are integers; coordinates, the steps `noise_h_mat` and `Fnoise` are left out, as they do not influence
what is asked for; the noise estimate of ECnoise (an Octave program) is any function of the values; numbers of variables and components
in the arrays received are within bounds.
-/
namespace Verif.Gens.Fd

/-- Which variable and which component. -/
abbrev Pair := Nat × Nat

/-- `x_ind`, `f_ind`, `n_ind` and, in what is received, `f_val`. -/
structure Key where
  pair : Pair
  k : Nat
deriving DecidableEq, Repr

structure Row where
  key : Key
  f : Int
deriving DecidableEq, Repr

/-- `n = len(x0)`, `p`, `nf`, `maxnoiseits`, `f0`; `ec`: the value `inform` of ECnoise. -/
structure Cfg where
  n : Nat
  p : Nat
  nf : Nat
  maxIts : Nat
  f0 : Nat → Int
  ec : List Int → Int

/-- All pairs, in lexicographic order. -/
def grid (n p : Nat) : List Pair := (List.range n).flatMap fun i => (List.range p).map fun j => (i, j)

/-- Rows of `m` numbers each (`reshape(-1, m)`); `fuel` bounds their number. -/
def chunks (m : Nat) : Nat → List Nat → List (List Nat)
  | 0, _ => []
  | fuel + 1, l => if l = [] then [] else l.take m :: chunks m fuel (l.drop m)

/-- `for i, j in …` takes a row apart. -/
def unpack : List Nat → Option Pair
  | [i, j] => some (i, j)
  | _ => none

/-- The pairs of the first batch (persistent_fd_param_finder.py:63, 23): `meshgrid(…).T` has the pairs as its last axis, which are then cut
into rows of length `n`. -/
def firstPairs (n p : Nat) : Option (List Pair) :=
  (chunks n (2 * n * p) ((grid n p).flatMap fun q => [q.1, q.2])).mapM unpack

/-- `build_H0` (persistent_fd_param_finder.py:10-32): all `n_ind` but `nf // 2`. -/
def build (nf : Nat) (ps : List Pair) : List Key :=
  ps.flatMap fun q => ((List.range (nf + 1)).filter (· ≠ nf / 2)).map fun k => ⟨q, k⟩

structure St where
  inform : Pair → Int
  iters : Pair → Nat
  hist : Pair → Nat → Int

/-- Before the loop (persistent_fd_param_finder.py:49, 55-61, 66). -/
def St.init (c : Cfg) : St :=
  { inform := fun _ => 0, iters := fun _ => 1, hist := fun q k => if k = c.nf / 2 then c.f0 q.2 else 0 }

def put {α : Type} (g : Pair → α) (q : Pair) (x : α) : Pair → α := fun q' => if q' = q then x else g q'

/-- `calc_in["f_val"][…][0]` (persistent_fd_param_finder.py:79-80). -/
def look (rows : List Row) (key : Key) : Option Int := (rows.find? (·.key = key)).map (·.f)

/-- The values of a pair (persistent_fd_param_finder.py:76-80): `k != nf / 2` compares with the exact quotient. -/
def line (c : Cfg) (st : St) (rows : List Row) (q : Pair) : Option (List Int) :=
  (List.range (c.nf + 1)).mapM fun k => if 2 * k = c.nf then some (st.hist q k) else look rows ⟨q, k⟩

/-- One pair (persistent_fd_param_finder.py:76-113). -/
def judge (c : Cfg) (rows : List Row) (a : St × List Pair) (q : Pair) : Option (St × List Pair) :=
  match line c a.1 rows q with
  | none => none
  | some l =>
    let st := { a.1 with hist := put a.1.hist q (fun k => l.getD k 0), inform := put a.1.inform q (c.ec l) }
    if 2 ≤ c.ec l then
      if a.1.iters q < c.maxIts then some ({ st with iters := put st.iters q (st.iters q + 1) }, a.2 ++ [q])
      else some (st, a.2)
    else some (st, a.2)

def judgeAll (c : Cfg) (rows : List Row) : List Pair → St × List Pair → Option (St × List Pair)
  | [], a => some a
  | q :: qs, a => match judge c rows a q with
    | none => none
    | some a => judgeAll c rows qs a

/-- The pairs in an array (`np.unique`, persistent_fd_param_finder.py:72). -/
def pairsIn (c : Cfg) (rows : List Row) : List Pair := (grid c.n c.p).filter fun q => rows.any (·.key.pair = q)

/-- Where the generator is: it has asked for `nf` values for each of the pairs and waits; all estimates were successful; an exception. -/
inductive Res
  | asks (st : St) (ps : List Pair)
  | done
  | failed

/-- persistent_fd_param_finder.py:63-68. -/
def start (c : Cfg) : Res := match firstPairs c.n c.p with
  | some ps => .asks (.init c) ps
  | none => .failed

/-- The loop (persistent_fd_param_finder.py:71-119). -/
def next (c : Cfg) (r : Res) (rows : List Row) : Res :=
  match r with
  | .asks st _ =>
    match judgeAll c rows (pairsIn c rows) (st, []) with
    | none => .failed
    | some (st, new) => if (grid c.n c.p).all (fun q => st.inform q = 1) then .done else .asks st new
  | r => r

def after (c : Cfg) (rs : List (List Row)) : Res := rs.foldl (next c) (start c)

end Verif.Gens.Fd
