/-!
# The interface to a persistent generator function

`PersistentGenInterfacer` (generators.py:121-246) with the process behind it (`QCommProcess`, comms/comms.py:142-275).

The process is the list of the messages it sends: what it sends may depend on what it receives, so this list is an input, and theorems are about every list.
The last message of a generator function that ends is its result or its error (`_qcomm_main`, comms.py:223-233).
A process that was never started sends nothing.  `waits` stands for a call that does not return.

Simplifications: values are opaque; arrays are field names and rows; the executor and `libE_info` are left out.
-/

namespace Verif.Interfacer

/-- An array: names of fields and rows with one value for each field. -/
structure Arr (V : Type) where
  fields : List String
  rows : List (List V)
deriving DecidableEq

/-- Messages of the process: points, the value of the function, or its error. -/
inductive Msg (P R E : Type)
  | points (p : P)
  | done (r : R)
  | err (e : E)
deriving DecidableEq

/-- What is put into the inbox of the process. -/
inductive In (V : Type)
  | work (tag : Int) (hRows : List V)
  | data (tag : Int) (a : Arr V)
  | nothing (tag : Int)
deriving DecidableEq

inductive Out (P R E : Type)
  | nothing
  | points (p : P)
  | result (r : Option R)
  | runtime       -- RuntimeError
  | finished      -- CommFinishedException
  | remote (e : E)
  | value         -- ValueError of NumPy
  | waits
deriving DecidableEq

def Out.stuck {P R E : Type} : Out P R E → Bool
  | .waits => true
  | _ => false

inductive Proc
  | absent
  | made          -- the object is there, the process was not started
  | started
deriving DecidableEq

structure St (P R E V : Type) where
  proc : Proc
  /-- messages the process will have sent, in order, without those taken -/
  msgs : List (Msg P R E)
  /-- `_done` with `_result` or `_exception` (comms.py:150-166) -/
  ended : Option (R ⊕ E)
  inbox : List (In V)
  /-- `gen_result` -/
  result : Option R

variable {P R E V : Type}

def fresh (msgs : List (Msg P R E)) : St P R E V := ⟨.absent, msgs, none, [], none⟩

inductive Call (V : Type)
  | setup
  | suggest
  | ingest (a : Arr V) (tag : Int)
  | finalize
  | «export»

/-- Values of the row in the fields that are kept. -/
def pick (keep : List String) : List String → List V → List V
  | f :: fs, v :: vs => if f ∈ keep then v :: pick keep fs vs else pick keep fs vs
  | _, _ => []

/-- `_prep_fields` (generators.py:164-180); a name that would come twice is a ValueError of NumPy. -/
def prep (keep : List String) (yes : V) (a : Arr V) : Option (Arr V) :=
  let fs := a.fields.filter (fun f => decide (f ∈ keep)) ++ ["sim_ended"]
  if fs.Nodup then some ⟨fs, a.rows.map (fun r => pick keep a.fields r ++ [yes])⟩ else none

/-- Column of an array, `none` (a ValueError) without such a field. -/
def column (a : Arr V) (f : String) : Option (List V) :=
  if f ∈ a.fields then a.rows.mapM (fun r => r[a.fields.idxOf f]?) else none

/-- `if self._running_gen_f is None: self.setup(); self._running_gen_f.run()` (generators.py:188-190, 196-198). -/
def ensure (s : St P R E V) : St P R E V := if s.proc = .absent then { s with proc := .started } else s

/-- `QCommLocal.recv` without timeout (comms.py:174-188). -/
def recv (s : St P R E V) : St P R E V × Out P R E :=
  if s.ended.isSome then (s, .finished)
  else if s.proc ≠ .started then (s, .waits)
  else match s.msgs with
    | [] => (s, .waits)
    | .points p :: ms => ({ s with msgs := ms }, .points p)
    | .done r :: ms => ({ s with msgs := ms, ended := some (.inl r) }, .finished)
    | .err e :: ms => ({ s with msgs := ms, ended := some (.inr e) }, .finished)

/-- The loop of `QCommLocal.result` (comms.py:197-203): messages are taken until the last one; points are dropped. -/
def drain : List (Msg P R E) → Option (List (Msg P R E) × (R ⊕ E))
  | [] => none
  | .points _ :: ms => drain ms
  | .done r :: ms => some (ms, .inl r)
  | .err e :: ms => some (ms, .inr e)

/-- The end of `QCommLocal.result` and `gen_result = …` (comms.py:206-209, generators.py:213). -/
def settle (s : St P R E V) : R ⊕ E → St P R E V × Out P R E
  | .inl r => ({ s with result := some r }, .nothing)
  | .inr e => (s, .remote e)

/-- One call.  `keep` is `gen_specs["persis_in"]`, `stop` is `PERSIS_STOP`, `yes` is `True`. -/
def step (keep : List String) (yes : V) (stop : Int) (s : St P R E V) : Call V → St P R E V × Out P R E
  -- `setup` (generators.py:142-162)
  | .setup => if s.proc = .absent then ({ s with proc := .made }, .nothing) else (s, .runtime)
  -- `suggest_numpy` (generators.py:186-192)
  | .suggest => recv (ensure s)
  -- `ingest_numpy` (generators.py:194-206)
  | .ingest a tag =>
    let s : St P R E V := ensure s
    match prep keep yes a with
    | none => (s, .value)
    | some b => match column b "sim_id" with
      | none => (s, .value)
      | some ids => ({ s with inbox := s.inbox ++ [.work tag ids, .data tag b] }, .nothing)
  -- `finalize` (generators.py:208-213)
  | .finalize =>
    if s.proc = .absent then (s, .runtime)
    else
      let s : St P R E V := { s with inbox := s.inbox ++ [.nothing stop] }
      match s.ended with
      | some e => settle s e
      | none => if s.proc ≠ .started then (s, .waits) else match drain s.msgs with
        | none => ({ s with msgs := [] }, .waits)
        | some (ms, e) => settle { s with msgs := ms, ended := some e } e
  -- `export` (generators.py:215-246), the result as it is
  | .«export» => (s, .result s.result)

def run (keep : List String) (yes : V) (stop : Int) : St P R E V → List (Call V) → St P R E V × List (Out P R E)
  | s, [] => (s, [])
  | s, c :: cs =>
    let r := step keep yes stop s c
    if r.2.stuck then (r.1, [.waits])       -- the caller is stuck
    else
      let rs := run keep yes stop r.1 cs
      (rs.1, r.2 :: rs.2)

end Verif.Interfacer
