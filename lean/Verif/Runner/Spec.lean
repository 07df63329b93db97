import Verif.Runner.Model
/-
Words used to state what the runners of suggest/ingest generators do.
-/
namespace Verif.Runner
open Verif.Worker

/-- Arrays sent to the manager by the running user function, newest first. -/
def said : List Ev → List Nat
  | [] => []
  | .start .. :: _ => []
  | .out (.data x) :: tr => x :: said tr
  | _ :: tr => said tr

/-- Arrays received from the manager by the running user function, newest first. -/
def received : List Ev → List Body
  | [] => []
  | .start .. :: _ => []
  | .utookRows m :: tr => if isStop m.1 then received tr else m.2 :: received tr
  | _ :: tr => received tr

/-- The first size in a list that is given and is not zero (zero if there is none). -/
def firstSet : List (Option Nat) → Nat
  | [] => 0
  | some (n + 1) :: _ => n + 1
  | _ :: l => firstSet l

/-- A conversation with a generator (calls, arrays suggested and arrays ingested, newest first): an initial batch is
suggested; after each batch, results are ingested; after each results, one batch is suggested.  The size of the initial
batch is `initial_batch_size`, otherwise `batch_size`, otherwise the number given by the manager; that of the others is
`batch_size`, otherwise the number of results. -/
inductive Talk (c : Sizes) (len : Body → Option Nat) : List Call → List Nat → List Body → Prop
  | first (x : Nat) : Talk c len [.suggest (firstSet [c.initial, c.batch, some c.libE]) x true] [x] []
  | results {n x : Nat} {f : Bool} {l : List Call} {xs : List Nat} {rs : List Body} (r : Body) (h : Talk c len (.suggest n x f :: l) xs rs) :
      Talk c len (.ingest (some r) f :: .suggest n x f :: l) xs (r :: rs)
  | batch {r : Body} {f : Bool} {l : List Call} {xs : List Nat} {rs : List Body} (x : Nat) (h : Talk c len (.ingest (some r) f :: l) xs rs) :
      Talk c len (.suggest (firstSet [c.batch, len r]) x false :: .ingest (some r) f :: l) (x :: xs) rs

/-- Is the last call in a conversation one of `suggest`? -/
def asked : List Call → Bool
  | .suggest .. :: _ => true
  | _ => false

/-- `H0` is ingested first, if there is one. -/
def h0Calls (len : Body → Option Nat) : Option Body → List Call
  | none => []
  | some b => if len b = some 0 then [] else [.ingest (some b) true]

/-- The calls of the generator really are these, and end in this state: each `suggest` returned the array in the list. -/
def replay {σ : Type} (ops : Ops σ) (g : σ) : List Call → Option σ
  | [] => some g
  | .finalize :: l => (replay ops g l).bind ops.finalize
  | .ingest b true :: l => (replay ops g l).bind (fun g => ops.initIngest g b)
  | .ingest (some b) false :: l => (replay ops g l).bind (fun g => ops.ingest g b)
  | .ingest none false :: _ => none
  | .suggest n x f :: l => (replay ops g l).bind (fun g =>
      match (if f then ops.initSuggest g n else ops.suggest g n) with
      | some (g', y) => if y = x then some g' else none
      | none => none)

/-- In a list of messages (newest first), a stop message is in the last receive (a message, or an order and what followed it) and
none before. -/
def StoppedNow (l : List Msg) : Prop :=
  ∃ l₁ l₂, l = l₁ ++ l₂ ∧ l₁.length ≤ 2 ∧ (∃ m ∈ l₁, isStop m.1 = true) ∧ ∀ m ∈ l₂, isStop m.1 = false

/-- The user function for orders of generation is the runner. -/
def Runs {σ : Type} (F : UserF) (ops : Ops σ) (c : Order → Sizes) (g : Nat → σ) : Prop :=
  ∀ n o rows h, o.tag = EVAL_GEN → F n o rows h = genF ops c g n o rows h

/-- The methods of the generator, and the conversions of arrays, do not raise exceptions: not in states with the property `ok`, which
they keep. -/
structure Willing {σ : Type} (ops : Ops σ) (ok : σ → Prop) : Prop where
  initSuggest : ∀ g n, ok g → ∃ g' x, ops.initSuggest g n = some (g', x) ∧ ok g'
  suggest : ∀ g n, ok g → ∃ g' x, ops.suggest g n = some (g', x) ∧ ok g'
  initIngest : ∀ g x, ok g → ∃ g', ops.initIngest g (some (.data x)) = some g' ∧ ok g'
  ingest : ∀ g x, ok g → ∃ g', ops.ingest g (.data x) = some g' ∧ ok g'
  finalize : ∀ g, ok g → ∃ g', ops.finalize g = some g'
  len : ∀ x, ops.len (.data x) ≠ none

/-- The generator accepts `None` as results. -/
def TakesNone {σ : Type} (ops : Ops σ) (ok : σ → Prop) : Prop := ∀ g, ok g → ∃ g', ops.initIngest g none = some g' ∧ ok g'

end Verif.Runner
