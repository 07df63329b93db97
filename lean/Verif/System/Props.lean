import Verif.System.Weave
import Verif.System.Stops
import Verif.Manager.PropsEnd
/-!
Properties C17 and C19 for manager and workers together.

`Joint env tr ws`: manager, workers and channels have taken their steps in some order, the record of the manager is `tr`, the
worker `w` is in the state `ws w`.  `c.run its t rounds` is an arbitrary run (or a part of one) of the manager; in
`(c.run its t rounds).1.tr = post ++ tr`, `tr` is its record at an arbitrary moment.
-/
namespace Verif.System
open Verif Verif.Worker
open Verif.Manager (Start Iter Round view hasExc)

variable {env : Env} {ws : Nat → W}

theorem tidy_at (c : Start) (its : List Iter) (t : Nat → Int) (rounds : List Round) (hg : c.sp.finalGenSend = false)
    (hc : (c.loop its).2.clean = true) (hnr : ∀ e, (c.run its t rounds).2 ≠ .raisedFinal e) {post tr : List Manager.Ev}
    (htr : (c.run its t rounds).1.tr = post ++ tr) (w : Nat) :
    Manager.Always Manager.Tidy tr ∧ Framed (sentTo w tr) ∧ Framed (sentTo w (c.run its t rounds).1.tr) := by
  obtain ⟨p, hp, hr⟩ := Manager.clean_reach c its t rounds hc hnr
  obtain ⟨h1, h2⟩ := hr.tidy hg Manager.start_vi rfl rfl hp
  have hF : Framed (sentTo w (c.run its t rounds).1.tr) := by unfold Framed; rw [h2 w]; simp
  refine ⟨?_, ?_, hF⟩
  · rw [htr] at h1
    intro post' e pre he
    exact h1 (post ++ post') e pre (by rw [he, List.append_assoc])
  · rw [htr, Manager.sentTo_append] at hF; exact framed_prefix hF

/-! ## C19 -/

/-- At every moment of a clean run, the manager considers a worker busy exactly if an order sent to it has not been answered: the
order is in the channel to the worker, or the worker is at work on it, or the answer is on the way back; and it considers
the worker persistent exactly if the worker runs, or is about to run, a persistent function whose end has not been
received.  This holds for every user function that follows `Disciplined` and `Careful`, for every order of steps and every
delay of messages, until the worker fails or is told to finish.  Missing for the full statement: functions that do
not follow the rules (false, see `C19_race_witness`), worker exceptions, runs with `final_gen_send`. -/
theorem C19_both_sides_partial (c : Start) (its : List Iter) (t : Nat → Int) (rounds : List Round) (hg : c.sp.finalGenSend = false)
    (hc : (c.loop its).2.clean = true) (hnr : ∀ e, (c.run its t rounds).2 ≠ .raisedFinal e) (post tr : List Manager.Ev)
    (htr : (c.run its t rounds).1.tr = post ++ tr) (hx : hasExc tr = false) (hj : Joint env tr ws) (w : Nat)
    (hs : .stop w ∉ tr) (hca : Careful (ws w).tr) (hd : Disciplined env (ws w).tr) (hok : (ws w).ph ≠ .failed) :
    ((view w tr).busy = true ↔ Unanswered env w tr (ws w)) ∧ ((view w tr).persis ≠ 0 ↔ Persistent w tr (ws w)) := by
  obtain ⟨h1, h2, _⟩ := tidy_at c its t rounds hg hc hnr htr w
  have I := hj.inv w ⟨h1, h2, hx, hs, hca, hd, hok⟩
  exact ⟨I.busy_iff, I.persis_iff⟩

/-- The same for the table of the manager, between two steps of its program. -/
theorem C19_table_workers_partial (c : Start) (its : List Iter) (t : Nat → Int) (rounds : List Round) (hg : c.sp.finalGenSend = false)
    (hc : (c.loop its).2.clean = true) (hnr : ∀ e, (c.run its t rounds).2 ≠ .raisedFinal e)
    (hx : hasExc (c.run its t rounds).1.tr = false) (hj : Joint env (c.run its t rounds).1.tr ws) (k : Nat) (x : Alloc.Wrk)
    (hk : (c.run its t rounds).1.W[k]? = some x) (hs : .stop x.id ∉ (c.run its t rounds).1.tr)
    (hca : Careful (ws x.id).tr) (hd : Disciplined env (ws x.id).tr) (hok : (ws x.id).ph ≠ .failed) :
    (x.active ≠ 0 ↔ Unanswered env x.id (c.run its t rounds).1.tr (ws x.id)) ∧
    (x.persis ≠ 0 ↔ Persistent x.id (c.run its t rounds).1.tr (ws x.id)) := by
  obtain ⟨_, h1, h2, _⟩ := Manager.C19_table_exact c its t rounds hc hnr k x hk
  obtain ⟨h3, h4⟩ := C19_both_sides_partial c its t rounds hg hc hnr [] _ rfl hx hj x.id hs hca hd hok
  rw [h1, h2]
  exact ⟨h3, h4⟩

/-- Nothing is lost, invented, doubled or reordered on the way: the `i`-th message that the manager has received from a worker is
the `i`-th that the worker has sent. -/
theorem C19_received_once (tr : List Manager.Ev) (hj : Joint env tr ws) (w i : Nat) (m : Manager.Msg)
    (hm : (msgsFrom w tr)[i]? = some m) : ∃ pre x, (outs (ws w).tr)[i]? = some (pre, x) ∧ Says env pre x m :=
  hj.said w i m hm

/-! ## C17 -/

/-- When a run is over, everything that a worker has sent has been received, no order is left in its channel, and the worker
is idle or has ended, whatever the delays and the order of steps were, unless there was a worker exception or the time
limit was reached.  Missing for the full statement: user functions that do not follow `Disciplined` and `Careful`, main
loops that end with an error, runs with `final_gen_send`. -/
theorem C17_all_received_partial (c : Start) (its : List Iter) (t : Nat → Int) (rounds : List Round) (hg : c.sp.finalGenSend = false)
    (h : (c.run its t rounds).2.over = true) (hc : (c.loop its).2.clean = true)
    (hx : hasExc (c.run its t rounds).1.tr = false) (ht : ∀ r ∈ rounds, Manager.wallTest c.sp r.e = false)
    (hj : Joint env (c.run its t rounds).1.tr ws) (w : Nat) (hw : w ∈ c.workers)
    (hca : Careful (ws w).tr) (hd : Disciplined env (ws w).tr) :
    onTheWay w (c.run its t rounds).1.tr (ws w) = [] ∧ ords (left (ws w).chan) = [] ∧ ((ws w).ph = .idle ∨ (ws w).ph = .ended) := by
  have hnr : ∀ e, (c.run its t rounds).2 ≠ .raisedFinal e := by
    intro e he; rw [he] at h; cases h
  obtain ⟨hv1, hv2⟩ := Manager.C17_received_partial c its t rounds h hc hx ht w hw
  obtain ⟨hr, _⟩ := Manager.run_done c its t rounds h
  obtain ⟨l, pre, htr, hl, hns⟩ := hr.lastStops rfl hx
  obtain ⟨h1, h2, h3⟩ := tidy_at c its t rounds hg hc hnr htr w
  have hview : view w (c.run its t rounds).1.tr = view w pre := by
    rw [htr]
    exact Manager.view_neutral _ _ _ (fun e he => by obtain ⟨v, rfl⟩ := hl e he; rfl)
  have hxp : hasExc pre = false := by
    rw [htr, Manager.hasExc_append, Bool.or_eq_false_iff] at hx; exact hx.2
  have herr : Manager.Ev.recv w .err ∉ pre := by
    intro hm
    obtain ⟨a, b, hab⟩ := List.append_of_mem hm
    rcases Manager.C16_reported c its t rounds (l ++ a) b w .err (by rw [htr, hab, List.append_assoc]) rfl with h' | ⟨p', h'⟩
    · rw [hab, Manager.hasExc_append, show Manager.Ev.recv w .err :: b = [Manager.Ev.recv w .err] ++ b from rfl,
        Manager.hasExc_append, h'] at hxp
      simp at hxp
    · have : Manager.Ev.exc ∈ (c.run its t rounds).1.tr := by rw [htr, hab, ← List.append_assoc, h']; simp
      have : hasExc (c.run its t rounds).1.tr = true := List.any_eq_true.mpr ⟨_, this, rfl⟩
      rw [hx] at this; cases this
  rw [hview] at hv1 hv2
  obtain ⟨a, b, d, _⟩ := hj.after_stops w htr hl ⟨h1, h2, hxp, hns w, herr, hca, hd⟩ h3 hv1 hv2
  exact ⟨d, b, a⟩

/-! ### A concrete execution -/

/-- A persistent generator on worker 1 and evaluations on worker 2; the generator gets the results, then the run is ended. -/
def duoDemo : Start := { cols := History.demoCols, L := 4, H0 := History.noH0, n := 2 }
def duoIts : List Iter :=
  [Manager.pass [] [(1, Manager.pgenOrder [])], Manager.pass [Manager.ppoints 1 [10, 20, 30]] [(2, Manager.simOrder [0, 1])],
   Manager.pass [Manager.value 2 [0, 1] [7, 8]] [(1, Manager.pgenOrder [0, 1])],
   { Manager.pass [] [] with alloc := fun _ => .ok [] [] true {} }]
def duoEnd : List Round :=
  [⟨[{ w := 1, t := 9, m := .data { calcType := Alloc.EVAL_GEN, calcStatus := 12, rows := [0, 1], persistent := true, out := .none } }], 0⟩]
def duoTr : List Manager.Ev := (duoDemo.run duoIts (fun _ => 0) duoEnd).1.tr

/-- The generator sends its points (the message received by event 5), then waits for messages until it gets a signal;
simulators return at once. -/
def duoF : Nat → UserF := fun w _ _ _ h =>
  if w = 1 then
    match h with
    | [] => .send 5
    | .signal .. :: _ => .ret (.triple 12)
    | _ => .recv true
  else .ret .pairInfo

def mans (n : Nat) : List Move := List.replicate n .man

/-- The generator takes the results only after the persistent stop has been sent. -/
def duoMoves : List Move :=
  mans 3 ++ [.carry 1, .tick 1, .tick 1] ++ mans 7 ++ [.carry 2, .carry 2, .tick 2, .tick 2] ++ mans 2 ++ [.tick 2] ++
  mans 10 ++ [.carry 1, .carry 1, .carry 1, .tick 1, .tick 1, .tick 1, .tick 1] ++ mans 3 ++
  [.carry 1, .tick 1, .carry 2, .tick 2]

def duoLast : Option Woven := woven duoF (fun _ => .queue) duoTr duoMoves
def duoEnv : Env := envOf duoF (fun _ => .queue) duoTr.reverse

/-- The hypotheses of `C17_all_received_partial` hold for a complete run in which the workers communicate with delays, and both
workers have sent something and ended. -/
theorem duo_example : ∃ ws, Joint duoEnv (duoDemo.run duoIts (fun _ => 0) duoEnd).1.tr ws ∧
    (duoDemo.run duoIts (fun _ => 0) duoEnd).2 = .returned 0 ∧ (duoDemo.loop duoIts).2.clean = true ∧
    hasExc (duoDemo.run duoIts (fun _ => 0) duoEnd).1.tr = false ∧ duoDemo.sp.finalGenSend = false ∧ duoDemo.workers = [1, 2] ∧
    ∀ w ∈ duoDemo.workers, Careful (ws w).tr ∧ Disciplined duoEnv (ws w).tr ∧ (outs (ws w).tr).length = 3 - w ∧ (ws w).ph = .ended := by
  have key : (duoLast.map fun s => decide (s.i = duoTr.length) && duoDemo.workers.all fun w => carefulB (s.ws w).tr &&
      onEvB (discB duoEnv) (s.ws w).tr && decide ((outs (s.ws w).tr).length = 3 - w) && decide ((s.ws w).ph = .ended)) = some true := by
    decide +kernel
  cases hs : duoLast with
  | none => rw [hs] at key; cases key
  | some s =>
    rw [hs] at key
    simp only [Option.map_some, Option.some.injEq, Bool.and_eq_true, decide_eq_true_eq, List.all_eq_true] at key
    refine ⟨s.ws, woven_joint hs key.1, ?_, ?_, ?_, rfl, ?_, fun w hw => ?_⟩
    · decide +kernel
    · decide +kernel
    · decide +kernel
    · decide +kernel
    · obtain ⟨⟨⟨a, b⟩, d⟩, e⟩ := key.2 w hw
      exact ⟨careful_of a, disciplined_of b, d, e⟩

/-- The conclusion for this run. -/
example : ∃ ws, Joint duoEnv duoTr ws ∧ onTheWay 1 duoTr (ws 1) = [] ∧ onTheWay 2 duoTr (ws 2) = [] := by
  obtain ⟨ws, hj, ho, hc, hx, hg, hw, h⟩ := duo_example
  refine ⟨ws, hj, ?_, ?_⟩
  · exact (C17_all_received_partial duoDemo duoIts _ duoEnd hg (by rw [ho]; rfl) hc hx (by decide +kernel) hj 1 (by rw [hw]; simp)
      (h 1 (by rw [hw]; simp)).1 (h 1 (by rw [hw]; simp)).2.1).1
  · exact (C17_all_received_partial duoDemo duoIts _ duoEnd hg (by rw [ho]; rfl) hc hx (by decide +kernel) hj 2 (by rw [hw]; simp)
      (h 2 (by rw [hw]; simp)).1 (h 2 (by rw [hw]; simp)).2.1).1

/-- The same run before the results of the evaluations arrive: worker 1 is persistent and waits, worker 2 is
being sent its rows. -/
def midTr : List Manager.Ev := (duoDemo.run (duoIts.take 2) (fun _ => 0) []).1.tr
def midMoves : List Move := mans 3 ++ [.carry 1, .tick 1, .tick 1] ++ mans 8 ++ [.carry 2, .tick 2]
def midEnv : Env := envOf duoF (fun _ => .queue) midTr.reverse

theorem mid_example : ∃ ws, Joint midEnv (duoDemo.run (duoIts.take 2) (fun _ => 0) []).1.tr ws ∧
    (duoDemo.run (duoIts.take 2) (fun _ => 0) []).2 = .running ∧ (duoDemo.loop (duoIts.take 2)).2.clean = true ∧
    hasExc midTr = false ∧
    (∀ w ∈ [1, 2], Careful (ws w).tr ∧ Disciplined midEnv (ws w).tr ∧ (ws w).ph ≠ .failed ∧ (midTr.all fun | .stop v => decide (v ≠ w) | _ => true) = true) ∧
    (view 1 midTr).busy = false ∧ (view 1 midTr).persis = 2 ∧ (view 2 midTr).busy = true ∧ (view 2 midTr).persis = 0 := by
  have key : ((woven duoF (fun _ => .queue) midTr midMoves).map fun s => decide (s.i = midTr.length) && [1, 2].all fun w => carefulB (s.ws w).tr &&
      onEvB (discB midEnv) (s.ws w).tr && decide ((s.ws w).ph ≠ .failed)) = some true := by decide +kernel
  cases hs : woven duoF (fun _ => .queue) midTr midMoves with
  | none => rw [hs] at key; cases key
  | some s =>
    rw [hs] at key
    simp only [Option.map_some, Option.some.injEq, Bool.and_eq_true, decide_eq_true_eq, List.all_eq_true] at key
    refine ⟨s.ws, woven_joint hs key.1, ?_, ?_, ?_, fun w hw => ?_, ?_⟩
    · decide +kernel
    · decide +kernel
    · decide +kernel
    · obtain ⟨⟨a, b⟩, d⟩ := key.2 w hw
      refine ⟨careful_of a, disciplined_of b, d, ?_⟩
      have : ∀ w ∈ [1, 2], (midTr.all fun | .stop v => decide (v ≠ w) | _ => true) = true := by decide +kernel
      exact this w hw
    · decide +kernel

/-! ### The race -/

/-- A generator that returns on its own after its first message, without having been asked to. -/
def hastyF : Nat → UserF := fun w n _ _ h =>
  if w = 1 then
    match n, h with
    | 0, [] => .send 5
    | 0, _ => .ret (.triple 12)
    | _, _ => .recv true
  else .ret .pairInfo
def hastyIts : List Iter :=
  duoIts.take 2 ++ [Manager.pass [Manager.value 2 [0, 1] [7, 8]] [(1, Manager.pgenOrder [0, 1]), (2, Manager.simOrder [2])],
    Manager.pass [Manager.pfinish 1] []]
def hastyTr : List Manager.Ev := (duoDemo.run hastyIts (fun _ => 0) []).1.tr
def hastyEnv : Env := envOf hastyF (fun _ => .queue) hastyTr.reverse
def hastyMoves : List Move :=
  mans 3 ++ [.carry 1, .tick 1, .tick 1, .tick 1] ++ mans 7 ++ [.carry 2, .carry 2, .tick 2, .tick 2, .tick 2] ++ mans 14 ++
  [.carry 1, .carry 1, .tick 1, .tick 1]

/-- Where the condition on persistent functions is needed.  The generator ends without being asked to; the manager,
not having received that, sends it results; the worker takes this as an order to start the generator again; then the manager
receives the end of the first call.  From then on the manager considers the worker idle and not persistent, while it
runs a persistent function with an unanswered order. -/
theorem C19_race_witness : ∃ (c : Start) (its : List Iter) (env : Env) (ws : Nat → W) (x : Alloc.Wrk),
    (c.run its (fun _ => 0) []).2 = .running ∧ Joint env (c.run its (fun _ => 0) []).1.tr ws ∧ Careful (ws 1).tr ∧
    hasExc (c.run its (fun _ => 0) []).1.tr = false ∧ (c.run its (fun _ => 0) []).1.W[0]? = some x ∧ x.id = 1 ∧
    x.active = 0 ∧ x.persis = 0 ∧
    Unanswered env 1 (c.run its (fun _ => 0) []).1.tr (ws 1) ∧ Persistent 1 (c.run its (fun _ => 0) []).1.tr (ws 1) := by
  have key : ((woven hastyF (fun _ => .queue) hastyTr hastyMoves).map fun s => decide (s.i = hastyTr.length) && carefulB (s.ws 1).tr &&
      inCall hastyEnv (s.ws 1) && (match (s.ws 1).ph with | .user o _ _ => o.persistent | _ => false)) = some true := by decide +kernel
  cases hs : woven hastyF (fun _ => .queue) hastyTr hastyMoves with
  | none => rw [hs] at key; cases key
  | some s =>
    rw [hs] at key
    simp only [Option.map_some, Option.some.injEq, Bool.and_eq_true, decide_eq_true_eq] at key
    obtain ⟨⟨⟨h1, h2⟩, h3⟩, h4⟩ := key
    have hW : ((duoDemo.run hastyIts (fun _ => 0) []).1.W[0]?.map fun x => (x.id, x.active, x.persis)) = some (1, 0, 0) := by decide +kernel
    cases hx : (duoDemo.run hastyIts (fun _ => 0) []).1.W[0]? with
    | none => rw [hx] at hW; cases hW
    | some x =>
      rw [hx] at hW
      simp only [Option.map_some, Option.some.injEq, Prod.mk.injEq] at hW
      refine ⟨duoDemo, hastyIts, hastyEnv, s.ws, x, ?_, woven_joint hs h1, careful_of h2, ?_, hx, hW.1, hW.2.1, hW.2.2, .inr (.inl h3), ?_⟩
      · decide +kernel
      · decide +kernel
      · unfold Persistent
        split at h4
        · rename_i o _ _ hp; rw [hp]; exact h4
        · cases h4

end Verif.System
