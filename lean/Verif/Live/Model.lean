/-!
`Plot2N` (tools/live_data/plot2n.py): the picture of a running ensemble.

A picture is the list of rows it was drawn from; how it looks is not modelled.  `rows` is the whole array `hist.H`,
with the rows that are reserved but not used yet.
-/
namespace Verif.Live

structure Row (X : Type) where
  x : X
  localPt : Bool
  localMin : Bool
  simEnded : Bool
deriving DecidableEq, Repr

/-- What `live_update` sees of the history (history.py): `H`, `index` (the number of rows in use) and `sim_ended_count`. -/
structure Hist (X : Type) where
  rows : List (Row X)
  index : Nat
  ended : Nat
deriving DecidableEq, Repr

variable {X : Type}

/-- The parts of a picture (plot2n.py:68-117): the dots, the marks of local minima, and the two numbers in the text. -/
structure Frame (X : Type) where
  dots : List X
  opts : List X
  mins : List X
  numMin : Nat
  evaluated : Nat
deriving DecidableEq, Repr

/-- `_update_plot` (plot2n.py:68-117). -/
def draw (h : List (Row X)) : Frame X where
  dots := h.map (·.x)
  opts := (h.filter (·.localPt)).map (·.x)
  mins := (h.filter (·.localMin)).map (·.x)
  numMin := (h.filter (·.localMin)).length
  evaluated := (h.filter (·.simEnded)).length

/-- The object: `last_plot_count` and the picture that is shown, with the number of pictures so far. -/
structure Plot (X : Type) where
  last : Nat := 0
  shown : Option (Frame X) := none
  drawn : Nat := 0

/-- `live_update` (plot2n.py:119-133), called by the manager after each message of a worker (manager.py:534-535). -/
def liveUpdate (p : Plot X) (h : Hist X) : Plot X :=
  if (h.rows.drop p.last).countP (·.localPt) > 5 ∨ (h.rows.drop p.last).any (·.localMin) = true ∨ h.ended ≥ p.last + 50 then
    { last := h.ended, shown := some (draw h.rows), drawn := p.drawn + 1 }
  else p

/-- The updates of a run.  `finalize` (plot2n.py:135-136, manager.py:636-637) draws nothing. -/
def updates (hs : List (Hist X)) : Plot X := hs.foldl liveUpdate {}

end Verif.Live
