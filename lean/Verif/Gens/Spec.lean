import Verif.Gens.Model
/-!
What is said about the sampling generators, in terms of what they send and observe.
-/
namespace Verif.Gens
open Verif.Worker (Obs isStop UAct UserF Body Order)

/-- What can be observed after an action. -/
def Reply : Act → Obs → Prop
  | .send _, .sent => True
  | .recv _, .signal t _ => isStop t = true
  | .recv _, .input .. => True
  | .recv _, .error => True
  | .recv false, .nothing => True
  | _, _ => False

instance (a : Act) (x : Obs) : Decidable (Reply a x) := by unfold Reply; split <;> exact inferInstance

/-- A conversation of the generator with the manager (newest first). -/
inductive Plays (G : Gen) : List Obs → Prop
  | start : Plays G []
  | step {h x} : Plays G h → Reply (G h) x → Plays G (x :: h)

/-- What the generator has sent (newest first). -/
def made (G : Gen) : List Obs → List Made
  | [] => []
  | .sent :: h => match G h with
    | .send m => m :: made G h
    | _ => made G h
  | _ :: h => made G h

/-- The number of new points in an array. -/
def Made.size : Made → Nat
  | .points k => k
  | .numbered ids _ => ids.length
  | _ => 0

/-- The number of points the generator has sent. -/
def pts (G : Gen) (h : List Obs) : Nat := ((made G h).map Made.size).sum

/-- The number of rows the generator has been given. -/
def given : List Obs → Nat
  | [] => 0
  | .input _ o _ :: h => given h + o.rows.length
  | _ :: h => given h

/-- Told to stop: by a signal or by a last array. -/
def tells : Obs → Bool
  | .input t _ _ | .signal t _ => isStop t
  | _ => false

def Act.ends : Act → Bool
  | .ret _ => true
  | _ => false

def Act.fails : Act → Bool
  | .raise => true
  | _ => false

/-- The ids of a request to cancel. -/
def Made.cancels : Made → List Nat
  | .cancel ids => ids
  | _ => []

/-- All ids that the generator has asked to cancel, in this order. -/
def cancelled (G : Gen) (h : List Obs) : List Nat := (made G h).reverse.flatMap Made.cancels

/-- `sim_id` and `corner_id` of the points in an array. -/
def Made.pairs : Made → List (Nat × Nat)
  | .numbered ids cs => ids.zip cs
  | _ => []

/-- `sim_id` and `corner_id` of all points sent, in this order. -/
def sentPairs (G : Gen) (h : List Obs) : List (Nat × Nat) := (made G h).reverse.flatMap Made.pairs

/-- `corner_id` and value of all rows received. -/
def values (vals : Body → List (Nat × Int)) : List Obs → List (Nat × Int)
  | [] => []
  | .input _ _ r :: h => values vals h ++ vals r
  | _ :: h => values vals h

/-- Sum and number of the values received for a corner. -/
def estimate (vals : Body → List (Nat × Int)) (h : List Obs) (c : Nat) : Int × Nat :=
  (((values vals h).filter (·.1 = c)).map (·.2)).sum |> fun s => (s, ((values vals h).filter (·.1 = c)).length)

/-- Points are requested to be cancelled only if they have been sent. -/
def CancelsSent (G : Gen) : Prop := ∀ h, Plays G h → ∀ ids, G h = .send (.cancel ids) → ∀ i ∈ ids, i < pts G h

end Verif.Gens
