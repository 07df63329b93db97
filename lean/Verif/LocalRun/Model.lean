/-!
# A local optimization run in a persistent generator

`uniform_or_localopt` in persistent mode (gen_funcs/uniform_or_localopt.py:26-29, 45-113).  NLopt is an input: what it does next is a function of the points it has evaluated and the values it
was given.  Gradients, which travel with the values, are left out; so is the conversion of points into rows (116-133), apart from the point itself.
-/

namespace Verif.LocalRun

/-- What NLopt does next: evaluate a point, return a point with an exit code, or raise an error. -/
inductive Ask (X : Type) where
  | eval (x : X)
  | finish (x : X) (code : Int)
  | error

/-- What `send_recv` returns: a row with a value, a row that has none (`float(calc_in["f"])` raises), or a message to stop. -/
inductive Reply (V : Type) where
  | value (v : V)
  | bad
  | stop

/-- `persis_info_updates` (uniform_or_localopt.py:106-111). -/
structure Updates (X : Type) where
  done : Bool
  xOpt : Option X
deriving DecidableEq

/-- A run: points sent, evaluations NLopt has seen, and the updates returned with FINISHED_PERSISTENT_GEN_TAG; `none`: waiting for the manager. -/
structure Out (X V : Type) where
  sent : List X
  seen : List (X × V)
  back : Option (Updates X)
deriving DecidableEq

/-- Line 106-108: what is returned after `opt.optimize` with this exit code. -/
def ended {X : Type} (x : X) (code : Int) : Updates X := ⟨true, if 0 < code ∧ code < 5 then some x else none⟩

/-- Lines 109-111: `except Exception`. -/
def raised {X : Type} : Updates X := ⟨false, none⟩

/-- `try_and_run_nlopt` (45-113).  `evals` is how many evaluations are left of `localopt_maxeval` (96), which is positive; `best` is what NLopt returns when none is left, with code 5.
`start` is the row the run begins with: its point is answered without the manager (55-58). -/
def run {X V : Type} [DecidableEq X] (opt : List (X × V) → Ask X) (best : List (X × V) → X) (start : X × V) : Nat → List X → List (X × V) → List (Reply V) → Out X V
  | 0, sent, seen, _ => ⟨sent, seen, some (ended (best seen) 5)⟩
  | n + 1, sent, seen, replies => match opt seen with
    | .finish x c => ⟨sent, seen, some (ended x c)⟩
    | .error => ⟨sent, seen, some raised⟩
    | .eval x =>
      if x = start.1 then run opt best start n sent (seen ++ [(x, start.2)]) replies
      else match replies with
        | [] => ⟨sent ++ [x], seen, none⟩
        | .value v :: rest => run opt best start n (sent ++ [x]) (seen ++ [(x, v)]) rest
        | .bad :: _ => ⟨sent ++ [x], seen, some raised⟩
        | .stop :: _ => ⟨sent ++ [x], seen, some raised⟩

end Verif.LocalRun
