/-!
# The persistent information of the workers (`persis_info[w]`)

Every worker has a dictionary with what its user functions keep between calls, above all its stream of random numbers.  An allocation function puts a
dictionary into a work order, the user function may change it or return another one, and the manager merges what comes back.

Simplifications: values are immutable, a stream of random numbers is its source with the number of values drawn; a Python object that stands in two dictionaries is not
followed (it matters with threads and `fast_alloc_and_pausing` only).  A message is pickled when it is sent (`multiprocessing.Queue` does it in a thread of its
own, a little later).  A user function is a function of the dictionary it is given, whatever else it depends on is part of the choice of the function.  The end of
a call and the receipt of its message by the manager are one event: in between nobody but this call uses the dictionary.  What is returned is a dictionary.  The orders that a
persistent user function gets while it runs have a dictionary too; the user functions of the repository do not read it.
-/

namespace Verif.Persis

/-- Where a stream of random numbers comes from: a seed, or the `i`-th stream made without one by call `t` (numpy takes entropy of the operating system). -/
inductive Src
  | seed (k : Int)
  | os (t i : Nat)
deriving DecidableEq, Repr

/-- A `np.random.Generator`: its source and how many values were drawn. -/
structure Stream where
  src : Src
  pos : Nat := 0
deriving DecidableEq, Repr

/-- The values in a dictionary. -/
inductive Val
  | stream (s : Stream)
  | num (n : Int)
deriving DecidableEq, Repr

/-- A dictionary as a list of names and values; the first entry with a name counts. -/
abbrev Dict := List (String × Val)

/-- `a.update(b)`. -/
def Dict.update (a b : Dict) : Dict := b ++ a.filter fun p => (b.lookup p.1).isNone

/-- A function changed in one place. -/
def set {α : Type} (f : Nat → α) (i : Nat) (x : α) : Nat → α := fun j => if j = i then x else f j

/-! ### Random streams -/

/-- The argument `seed` of `add_unique_random_streams` (tools.py:172-200): a Python integer, `None`, or anything else (the default is an empty text). -/
inductive Seed
  | int (k : Int)
  | fresh (t : Nat)      -- None, in call `t`
  | other
deriving DecidableEq, Repr

/-- tools.py:203-206. Negative integers make numpy raise an exception: not modelled. -/
def srcOf : Seed → Nat → Src
  | .int k, _ => .seed k
  | .fresh t, i => .os t i
  | .other, i => .seed i

/-- `add_unique_random_streams` (tools.py:202-220), for the entries of workers. -/
def addStreams (info : Nat → Option Dict) (n : Nat) (seed : Seed) : Nat → Option Dict :=
  (List.range n).foldl
    (fun p i => set p i (some (((p i).getD []).update [("rand_stream", .stream ⟨srcOf seed i, 0⟩), ("worker_num", .num i)]))) info

/-- `Ensemble.add_random_streams` (ensemble.py:557-563). `nworkers` is the property of the ensemble. -/
def ensStreams (info : Nat → Option Dict) (nworkers : Int) (num : Nat) (seed : Seed) : Nat → Option Dict :=
  addStreams info ((if num ≠ 0 then (num : Int) else nworkers) + 1).toNat seed

/-! ### Calls of user functions -/

/-- A user function: the dictionary it is given, after its changes in place, and the dictionary it returns, if it returns one. -/
abbrev Fn := Dict → Dict × Option Dict

/-- What a busy worker works with: the worker whose dictionary is in the order (none: `[]`), and its content then (none: there was none). -/
structure Held where
  src : Option Nat
  was : Option Dict
deriving DecidableEq, Repr

/-- A finished call: the worker, whose dictionary it got, what it was given, what became of it, what came back to the manager. -/
structure Call where
  worker : Nat
  src : Option Nat
  given : Dict
  after : Dict
  back : Dict
deriving DecidableEq, Repr

/-- The entries of the workers in `persis_info`, the orders under way, `persis_info["last_worker"]`, and the finished calls, newest first. -/
structure St where
  info : Nat → Option Dict
  held : Nat → Option Held := fun _ => none
  last : Nat := 0
  log : List Call := []

/-- What happens: an order with the dictionary of the worker itself (`persis_info.get(wid)`, give_sim_work_first.py:71, 90; start_only_persistent.py:88, 111-132), an order with
the dictionary of the worker that ran the last generator (fast_alloc_and_pausing.py:123-142), an order with `[]` (fast_alloc.py:40; fast_alloc_and_pausing.py:112),
the end of a call. -/
inductive Event
  | give (w : Nat)
  | giveLast (w : Nat)
  | giveList (w : Nat)
  | ret (w : Nat) (f : Fn)

/-- manager.py:537-538. -/
def receive (entry : Option Dict) (back : Dict) : Option Dict := if back.isEmpty then entry else some ((entry.getD []).update back)

/-- The content of the dictionary that the user function finds (runners.py:52-54; None becomes an empty dictionary). With threads (`share`) the order has the object of the manager,
otherwise a copy (comms.py:119-124, 236-243). -/
def content (share : Bool) (info : Nat → Option Dict) (h : Held) : Dict := match h.src, h.was with
  | some v, some d => if share then (info v).getD d else d
  | _, _ => []

/-- What the worker sends (worker.py:292-304): the dictionary that was returned, else the one of the order. -/
def sent (h : Held) (r : Dict × Option Dict) : Dict := match h.src with
  | some _ => r.2.getD r.1
  | none => r.2.getD []

/-- Changes in place reach the manager's object with threads only. -/
def inPlace (share : Bool) (info : Nat → Option Dict) (h : Held) (after : Dict) : Nat → Option Dict := match share, h.src, h.was with
  | true, some v, some _ => set info v (some after)
  | _, _, _ => info

/-- One event; `none` if it cannot happen. -/
def step (share : Bool) (s : St) : Event → Option St
  | .give w => if (s.held w).isSome then none else some { s with held := set s.held w (some ⟨some w, s.info w⟩) }
  | .giveLast w =>
    if (s.held w).isSome ∨ (s.info s.last).isNone then none      -- persis_info[lw] raises an exception if there is no entry
    else some { s with held := set s.held w (some ⟨some s.last, s.info s.last⟩), last := w }
  | .giveList w => if (s.held w).isSome then none else some { s with held := set s.held w (some ⟨none, none⟩) }
  | .ret w f => match s.held w with
    | none => none
    | some h =>
      let d := content share s.info h
      let r := f d
      let info := inPlace share s.info h r.1
      some { s with
        info := set info w (receive (info w) (sent h r))
        held := set s.held w none
        log := ⟨w, h.src, d, r.1, sent h r⟩ :: s.log }

/-- A run. -/
def run (share : Bool) : St → List Event → Option St
  | s, [] => some s
  | s, e :: es => match step share s e with
    | none => none
    | some s' => run share s' es

end Verif.Persis
