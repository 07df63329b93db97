/-!
# The multitask generator for Ax

`persistent_gp_mt_ax_gen_f`, `AxRunner.run` and `max_utility_from_GP` (gen_funcs/persistent_ax_multitask.py:147-384).  Ax is an input: the Sobol points, the points a fitted model proposes and its
predictions are functions of the trials so far.  The bounds of the search space, names of arms and files are left out, and so is the merging of equal arms by Ax.
-/

namespace Verif.MultiTask

/-- `name_hifi` and `name_lofi`. -/
inductive Task where
  | hifi
  | lofi
deriving DecidableEq

/-- A batch trial with what its metadata hold: values (by position, 333-340), or `none` if there were none. -/
structure Trial (X V : Type) where
  task : Task
  pts : List X
  vals : Option (List V)
deriving DecidableEq

/-- What `send_recv` returns: values, or a message to stop, with values or without (`calc_in is None`). -/
inductive Reply (V : Type) where
  | vals (vs : List V)
  | stop (vs : Option (List V))

/-- The user's numbers (165-168) and Ax.  `gen trials n h` are the points proposed for the high fidelity task as in trial `h` (239-243); `util` is minus the predicted value (376-378);
`argsort` is `np.argsort`, of which only the order of equal entries is open. -/
structure Ax (X V : Type) where
  nInitHifi : Nat
  nInitLofi : Nat
  nOptHifi : Nat
  nOptLofi : Nat
  sobol : Nat → List X
  gen : List (Trial X V) → Nat → Nat → List X
  util : List (Trial X V) → X → Int
  argsort : List Int → List Nat

/-- The experiment, `hifi_trials`, and the files in `model_history`. -/
structure St (X V : Type) where
  exp : List (Trial X V)
  hifis : List Nat
  saved : List (List (Trial X V))
deriving DecidableEq

/-- Where the loop is: the two turns of the loop at 216, and the two batches of later iterations. -/
inductive Phase where
  | initHi
  | initLo
  | optLo
  | optHi
deriving DecidableEq

/-- `np.flip(np.argsort(u))[:n]` and the arms at these indices (379-381). -/
def best {X V : Type} (a : Ax X V) (trials : List (Trial X V)) (n : Nat) (pts : List X) : List X :=
  ((a.argsort (pts.map (a.util trials))).reverse.take n).filterMap (fun i => pts[i]?)

/-- The next batch.  `none`: an exception; of `hifi_trials[-1]` (242), or of GeneratorRun when there are not as many arms as weights (380-383). -/
def batch {X V : Type} (a : Ax X V) (s : St X V) : Phase → Option (Task × List X)
  | .initHi => some (.hifi, a.sobol a.nInitHifi)
  | .initLo => some (.lofi, a.sobol a.nInitLofi)
  | .optLo => match s.hifis.getLast? with
    | none => none
    | some h => some (.lofi, a.gen s.exp a.nOptLofi h)
  | .optHi => match s.exp.getLast? with
    | none => none
    | some t =>
      let pts := best a s.exp a.nOptHifi t.pts
      if pts.length = a.nOptHifi then some (.hifi, pts) else none

def Phase.next : Phase → Phase
  | .initHi => .initLo
  | .initLo => .optLo
  | .optLo => .optHi
  | .optHi => .optLo

/-- After a trial that was not stopped: `hifi_trials.append` (225-226, 268). -/
def note {X V : Type} (s : St X V) (t : Trial X V) : St X V :=
  { s with exp := s.exp ++ [t], hifis := if t.task = .hifi then s.hifis ++ [s.exp.length] else s.hifis }

/-- `save_experiment` (291-297). -/
def save {X V : Type} (s : St X V) : St X V := { s with saved := s.saved ++ [s.exp] }

/-- How the function ends: it returns, waits for the manager, or fails with an exception. -/
inductive End where
  | returned
  | waits
  | fails
deriving DecidableEq

/-- The loop (213-300).  A stop in the first iteration leaves only the inner loop, so that the experiment is saved; later ones leave the outer loop (250-251, 266-267).  A reply with fewer rows than
were sent fails at line 339. -/
def run {X V : Type} (a : Ax X V) : Phase → St X V → List (Reply V) → End × St X V
  | p, s, replies => match batch a s p with
    | none => (.fails, s)
    | some (k, pts) => match replies with
      | [] => (.waits, { s with exp := s.exp ++ [⟨k, pts, none⟩] })
      | .vals vs :: rest =>
        if vs.length < pts.length then (.fails, { s with exp := s.exp ++ [⟨k, pts, none⟩] })
        else
          let s' := note s ⟨k, pts, some (vs.take pts.length)⟩
          run a p.next (if p = .initLo ∨ p = .optHi then save s' else s') rest
      | .stop none :: _ =>
        let s' : St X V := { s with exp := s.exp ++ [⟨k, pts, none⟩] }
        (.returned, if p = .initHi ∨ p = .initLo then save s' else s')
      | .stop (some vs) :: _ =>
        if vs.length < pts.length then (.fails, { s with exp := s.exp ++ [⟨k, pts, none⟩] })
        else
          let s' : St X V := { s with exp := s.exp ++ [⟨k, pts, some (vs.take pts.length)⟩] }
          (.returned, if p = .initHi ∨ p = .initLo then save s' else s')

/-- From the beginning. -/
def start {X V : Type} (a : Ax X V) (replies : List (Reply V)) : End × St X V := run a .initHi ⟨[], [], []⟩ replies

end Verif.MultiTask
