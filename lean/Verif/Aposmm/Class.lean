import Verif.Aposmm.Model

/-
Model of the class `APOSMM` (`libensemble/gen_classes/aposmm.py`), which offers the generator through `suggest` and `ingest`, with what it uses of
`PersistentGenInterfacer` (`libensemble/generators.py`).

Conventions
* A point handed out is its `sim_id` and whether it is marked as a minimum; a result is its number and the rest of its fields (`β`).
* The generator is in another process: `inbox` are the messages it has sent that are not received yet, `out` the batches of results sent to it.
  The lists `taken`, `handed`, `given`, `updates` record what has happened; the code does not have them.
* Simplifications: all results have the same fields; after the generator has been stopped nothing is asked for.
-/
namespace Verif.Aposmm

/-- A point in a message of the generator. -/
structure Sug where
  id : Nat
  lmin : Bool
deriving DecidableEq, Repr

/-- The field of the results that has the number: `sim_id` (as `ingest` makes it from `_id`), `_id`, or none. -/
inductive IdField | simId | underId | missing
deriving DecidableEq, Repr

/-- What can go wrong. -/
inductive ClsErr
  | noBuffer     -- TypeError: `_ingest_buf` is None (aposmm.py:309)
  | expecting    -- RuntimeError (aposmm.py:323-325)
  | blocked      -- the process waits for a message (generators.py:191)
  | shape        -- ValueError: more results than places (aposmm.py:287-291)
  | noId         -- ValueError: no field sim_id (generators.py:202)
deriving DecidableEq, Repr

variable {β : Type}

/-- The attributes (aposmm.py:273-281).  An entry of the buffer without a value is zero. -/
structure Cls (β : Type) where
  size : Nat                                    -- initial_sample_size
  last : Option (List Sug) := none              -- _last_suggest
  idx : Nat := 0                                -- _suggest_idx
  buf : Option (List (Nat × Option β)) := none  -- _ingest_buf
  nbuf : Nat := 0                               -- _n_buffd_results
  told : Bool := false                          -- _told_initial_sample
  lastSug : Bool := false                       -- _last_call == "suggest"
  lastNum : Nat := 0                            -- _last_num_points
  minima : List (List Sug) := []                -- all_local_minima
  inbox : List (List Sug) := []
  out : List (List (Nat × Option β)) := []
  taken : List (List Sug) := []
  handed : List Sug := []
  given : List (Nat × β) := []
  updates : List Sug := []

/-- `_ready_to_suggest_genf` (aposmm.py:298-312). -/
def Cls.ready (s : Cls β) : Except ClsErr Bool :=
  match s.last with
  | none => .ok true
  | some l =>
    if s.told then .ok (decide (l.length ≤ s.idx))
    else match s.buf with
      | none => if l = [] then .ok true else .error .noBuffer
      | some b => .ok (l.all (fun p => decide (p.id ∈ b.map (·.1))) && decide (l.length ≤ s.idx))

/-- A message of the generator is received (aposmm.py:321-331, generators.py:186-192). -/
def Cls.fetch (s : Cls β) (n : Nat) : Except ClsErr (Cls β) :=
  if s.lastSug && decide (n = 0) && decide (s.lastNum = 0) then .error .expecting
  else match s.inbox with
    | [] => .error .blocked
    | m :: ms => .ok { s with
        idx := 0, inbox := ms, taken := s.taken ++ [m]
        last := some (m.filter fun p => !p.lmin)
        minima := if m.any (·.lmin) then s.minima ++ [m.filter (·.lmin)] else s.minima }

/-- Points are handed out (aposmm.py:333-343). -/
def Cls.hand (s : Cls β) (n : Nat) : List Sug × Cls β :=
  let l := s.last.getD []
  if n > 0 then
    ((l.drop s.idx).take n, { s with idx := s.idx + n, handed := s.handed ++ (l.drop s.idx).take n, lastSug := true, lastNum := n })
  else
    (l, { s with last := none, handed := s.handed ++ l, lastSug := true, lastNum := n })

/-- `suggest_numpy` (aposmm.py:314-343). -/
def Cls.suggest (s : Cls β) (n : Nat) : Except ClsErr (List Sug × Cls β) :=
  match s.ready with
  | .error e => .error e
  | .ok false => .ok (s.hand n)
  | .ok true => match s.fetch n with
    | .error e => .error e
    | .ok s => .ok (s.hand n)

/-- Entries `k`, `k + 1`, … of the buffer are overwritten (`_slot_in_data`, aposmm.py:283-291). -/
def slotIn (kind : IdField) : List (Nat × Option β) → Nat → List (Nat × β) → List (Nat × Option β)
  | b, _, [] => b
  | b, k, r :: rs => slotIn kind (b.modify k fun e => (if kind = .missing then e.1 else r.1, some r.2)) (k + 1) rs

/-- The numbers replaced by 0, 1, … (aposmm.py:370-371). -/
def renumber (b : List (Nat × Option β)) : List (Nat × Option β) := b.mapIdx fun i e => (i, e.2)

/-- The buffer before results are added: a new one if nothing is buffered (aposmm.py:358-363; an attribute `_ingest_buf` that is None is never read here). -/
def Cls.base (s : Cls β) : List (Nat × Option β) := if s.nbuf = 0 then List.replicate s.size (0, none) else s.buf.getD []

/-- `ingest_numpy` (aposmm.py:345-376, generators.py:194-206). -/
def Cls.ingest (s : Cls β) (kind : IdField) (rs : List (Nat × β)) : Except ClsErr (Cls β) :=
  if s.told then
    if kind = .simId then
      .ok { s with out := s.out ++ [rs.map fun r => (r.1, some r.2)], given := s.given ++ rs, lastSug := false }
    else .error .noId
  else
    let b := s.base
    if s.nbuf < s.size then
      if s.size < s.nbuf + rs.length then .error .shape
      else
        let b := slotIn kind b s.nbuf rs
        let n := s.nbuf + rs.length
        if s.size ≤ n then
          let b := if kind = .simId then renumber b else b
          .ok { s with buf := some b, nbuf := 0, told := true, out := s.out ++ [b], given := s.given ++ rs, lastSug := false }
        else .ok { s with buf := some b, nbuf := n, given := s.given ++ rs, lastSug := false }
    else
      let b := if kind = .simId then renumber b else b
      .ok { s with buf := some b, nbuf := 0, told := true, out := s.out ++ [b], given := s.given ++ rs, lastSug := false }

/-- `suggest_updates` (aposmm.py:378-382). -/
def Cls.takeUpdates (s : Cls β) : Cls β := { s with minima := [], updates := s.updates ++ s.minima.flatten }

end Verif.Aposmm
