/-!
# Simulation functions in the format of gest-api

`gest_api_sim` (sim_funcs/gest_api_wrapper.py:14-93), which calls a simulator for each point of the history, and the part of the runner that calls user
functions (utils/runners.py:17-67).

Simplifications: a value of a point or an output is a number (0 is what `np.zeros` gives); the description of variables (VOCS) is the two lists of names that the
wrapper makes from it; `user` arguments are part of the simulator.
-/

namespace Verif.Gest

/-- Exceptions: TypeError, others, and the errors of the wrapper itself. -/
inductive Exc
  | type
  | other (n : Nat)
  | noField                     -- a field that the array does not have
  | attribute                   -- runners.py:61-66
deriving DecidableEq, Repr

abbrev Dict := List (String × Int)

/-- A simulator with a state `S` of the outside world (files, processes, counters): whether it takes `libE_info`, and what it does with and without it. -/
structure Sim (S : Type) where
  takes : Bool
  body : S → Bool → Dict → S × Except Exc Dict

/-- A call; Python refuses an argument that is not taken, with a TypeError, before the function begins. -/
def Sim.call {S} (f : Sim S) (s : S) (info : Bool) (x : Dict) : S × Except Exc Dict :=
  if info && !f.takes then (s, .error .type) else f.body s info x

/-- gest_api_wrapper.py:78-83. -/
def attempt {S} (f : Sim S) (s : S) (x : Dict) : S × Except Exc Dict := match f.call s true x with
  | (s', .error .type) => f.call s' false x
  | r => r

/-- The input of one point (gest_api_wrapper.py:73-76). -/
def inputOf (inputs : List String) (row : Dict) : Option Dict := inputs.mapM fun n => (row.lookup n).map fun v => (n, v)

/-- One row of `H_o` (gest_api_wrapper.py:59, 86-89): zeros, and the outputs that were returned. -/
def outputOf (cols outs : List String) (d : Dict) : Except Exc Dict :=
  if outs.all fun n => (d.lookup n).isNone || decide (n ∈ cols) then
    .ok (cols.map fun c => (c, if c ∈ outs then (d.lookup c).getD 0 else 0))
  else .error .noField

/-- `gest_api_sim` from a point on. -/
def loop {S} (f : Sim S) (inputs outs cols : List String) : List Dict → S → S × Except Exc (List Dict)
  | [], s => (s, .ok [])
  | row :: rows, s => match inputOf inputs row with
    | none => (s, .error .noField)
    | some x => match attempt f s x with
      | (s, .error e) => (s, .error e)
      | (s, .ok d) => match outputOf cols outs d with
        | .error e => (s, .error e)
        | .ok o => match loop f inputs outs cols rows s with
          | (s, .error e) => (s, .error e)
          | (s, .ok os) => (s, .ok (o :: os))

/-! ### The runner -/

/-- The kinds of runners. -/
inductive Kind
  | globus | thread | genThread | libEGen | standardGen | plain
deriving DecidableEq, Repr

inductive Generator
  | interfacer                  -- PersistentGenInterfacer (a LibensembleGenerator with a thread)
  | libE
  | other
deriving DecidableEq, Repr

/-- `Runner.from_specs` (runners.py:18-32). -/
def fromSpecs (endpoint : String) (threaded : Bool) (gen : Option Generator) : Kind :=
  if endpoint.length > 0 then .globus
  else if threaded then .thread
  else match gen with
    | some .interfacer => .genThread
    | some .libE => .libEGen
    | some .other => .standardGen
    | none => .plain

/-- The arguments a user function with `n` parameters gets (runners.py:39-42). -/
inductive Arg
  | input | persisInfo | specs | libEInfo
deriving DecidableEq, Repr

def truncated (n : Nat) : List Arg := [.input, .persisInfo, .specs, .libEInfo].take n

end Verif.Gest
