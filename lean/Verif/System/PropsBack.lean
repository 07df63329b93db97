import Verif.System.Back
/-!
Properties C10 and C50 for manager and workers together: what was assumed about the messages of workers (`Honest`, each
row returned once) is proved from the program of the worker.

`Joint env tr ws`: manager, workers and channels have taken their steps in some order, the record of the manager is `tr`, the
worker `w` is in the state `ws w`.
-/
namespace Verif.System
open Verif Verif.Worker
open Verif.Manager (Start Iter Round SentTo Honest Ended Bundled AllocEnv Polite simGiven simBack histAt flagged)

variable {env : Env} {ws : Nat → W}

theorem recv_workers (c : Start) (its : List Iter) (t : Nat → Int) (rounds : List Round) {w : Nat} {m : Manager.Msg}
    (h : .recv w m ∈ (c.run its t rounds).1.tr) : w ∈ c.workers := by
  obtain ⟨p, _, hr⟩ := c.reach its t rounds
  have key : ∀ w m, Manager.Ev.recv w m ∈ (c.run its t rounds).1.tr → w ∈ Manager.ids c.st := by
    refine hr.traceInv (I := fun tr => ∀ w m, Manager.Ev.recv w m ∈ tr → w ∈ Manager.ids c.st) ?_ ?_ ?_
    · rw [Manager.start_tr]; intro w m h; cases h
    · intro l tr hl ih w m hm
      rcases List.mem_append.mp hm with h | h
      · have := hl _ h; cases this
      · exact ih w m h
    · intro p s w m t hr' _ hw ih w' m' hm'
      have hi : Manager.ids s = Manager.ids c.st := hr'.micros.ids
      rcases Manager.handleMsg_trace (sp := c.sp) s w m t with ⟨_, _, _, _, h⟩ | ⟨_, _, _, l, h, hl⟩
      · rw [h] at hm'
        simp only [List.mem_append, List.mem_reverse, List.mem_map, List.mem_cons, reduceCtorEq, false_or, and_false, exists_false,
          Manager.Ev.recv.injEq] at hm'
        rcases hm' with ⟨rfl, _⟩ | hm'
        · rw [← hi]; exact hw
        · exact ih _ _ hm'
      · rw [h] at hm'
        simp only [List.mem_append, List.mem_cons, Manager.Ev.recv.injEq] at hm'
        rcases hm' with hm' | ⟨rfl, _⟩ | hm'
        · rcases hl _ hm' with ⟨_, h'⟩ | ⟨_, h'⟩ <;> cases h'
        · rw [← hi]; exact hw
        · exact ih _ _ hm'
  have := key w m h
  rwa [Manager.start_ids] at this

/-! ## C10 -/

/-- A worker returns results only for rows that were sent to it for evaluation before, for every order of steps and every
delay of messages.  Partial: for workers whose user functions send results of simulations only for orders of simulations,
and runs of the manager without errors in orders. -/
theorem C10_only_given_partial (c : Start) (its : List Iter) (t : Nat → Int) (rounds : List Round)
    (hcl : (c.loop its).2.clean = true) (hnr : ∀ e, (c.run its t rounds).2 ≠ .raisedFinal e)
    (hj : Joint env (c.run its t rounds).1.tr ws) (hw : ∀ w ∈ c.workers, Faithful env (ws w).tr)
    (post pre : List Manager.Ev) (w : Nat) (d : Manager.Data) (he : (c.run its t rounds).1.tr = post ++ .recv w (.data d) :: pre)
    (hd : d.isSim = true) (i : Nat) (hi : i ∈ d.rows) : ∃ key, SentTo pre w key i :=
  hj.honest (rowsAfter_run c its t rounds) (Manager.framed_run c its t rounds hcl hnr)
    (fun w _ hm => hw w (recv_workers c its t rounds hm)) post w d pre he hd i hi

/-- With the bundled allocation functions a row that becomes `sim_ended` is marked `sim_started`, and is evaluated by the worker
that it was given to and that it names as its `sim_worker`.  Partial: as before, and in safe mode or without protected
fields in the returned arrays. -/
theorem C10_workers_partial (c : Start) (hc : c.Std) (b : Bundled) (aenv : AllocEnv)
    (hpi : ∀ lp n, b = .aposmm lp n → c.pinfo.firstCall = false → c.pinfo.nextToGive ≠ none) (its : List Iter)
    (hits : ∀ it ∈ its, it.uses b aenv c.sp) (t : Nat → Int) (rounds : List Round)
    (hprot : c.safe = true ∨ Polite (c.run its t rounds).1.tr)
    (hcl : (c.loop its).2.clean = true) (hnr : ∀ e, (c.run its t rounds).2 ≠ .raisedFinal e)
    (hj : Joint env (c.run its t rounds).1.tr ws) (hw : ∀ w ∈ c.workers, Faithful env (ws w).tr)
    (post pre : List Manager.Ev) (e : Manager.Ev) (he : (c.run its t rounds).1.tr = post ++ e :: pre) (i : Nat)
    (h0 : ¬ Ended (histAt c.hist pre) i) (h1 : Ended (histAt c.hist (e :: pre)) i) :
    History.cell (histAt c.hist pre).rows i .simStarted = some (.s 1) ∧
    ∃ (w : Nat) (d : Manager.Data) (pre' : List Manager.Ev), History.cell (histAt c.hist pre).rows i .simWorker = some (.s w) ∧
      SentTo pre w w i ∧ pre = .recv w (.data d) :: pre' ∧ i ∈ d.rows :=
  Manager.C10_bundled_partial c hc b aenv hpi its hits t rounds hprot
    (hj.honest (rowsAfter_run c its t rounds) (Manager.framed_run c its t rounds hcl hnr)
      (fun w _ hm => hw w (recv_workers c its t rounds hm))) post pre e he i h0 h1

/-! ## C50 -/

/-- No row is returned twice: with a bundled allocation function, for functions that return the results of their order at
the end. -/
theorem C50_once_partial (c : Start) (hc : c.Std) (b : Bundled) (aenv : AllocEnv)
    (hpi : ∀ lp n, b = .aposmm lp n → c.pinfo.firstCall = false → c.pinfo.nextToGive ≠ none) (its : List Iter)
    (hits : ∀ it ∈ its, it.uses b aenv c.sp) (t : Nat → Int) (rounds : List Round)
    (hprot : c.safe = true ∨ Polite (c.run its t rounds).1.tr)
    (hj : Joint env (c.run its t rounds).1.tr ws) (hw : ∀ w ∈ c.workers, OneShot env (ws w).tr) :
    (simBack (c.run its t rounds).1.tr).Nodup := by
  have hn : (simGiven (c.run its t rounds).1.tr).Nodup := by
    cases hb : b.byPriority with
    | true => exact Manager.C11_waiting_partial c hc b hb aenv its hits t rounds hprot
    | false => exact Manager.C11_in_order c b hb aenv hpi its hits t rounds
  obtain ⟨p, _, hr⟩ := c.reach its t rounds
  refine (simBack_in (fun post o pre he hres => ?_)).nodup
    (hj.back_nodup (fun w _ hm => hw w (recv_workers c its t rounds hm)) hn)
  obtain ⟨w, m, pre', h1, h2, _⟩ := hr.recF Manager.start_tr post _ pre he hres
  exact ⟨w, m, pre', h1, h2⟩

/-- At every moment the counters of started and ended evaluations are the numbers of flagged rows, for manager and workers together.
Partial: bundled allocation functions, in safe mode or without protected fields in the returned arrays; user functions that
return the results of their order at the end; runs of the manager without errors in orders; prepended rows as in
`C50_totals_partial`. -/
theorem C50_workers_partial (c : Start) (hc : c.Std) (b : Bundled) (aenv : AllocEnv)
    (hpi : ∀ lp n, b = .aposmm lp n → c.pinfo.firstCall = false → c.pinfo.nextToGive ≠ none) (its : List Iter)
    (hits : ∀ it ∈ its, it.uses b aenv c.sp) (t : Nat → Int) (rounds : List Round)
    (hprot : c.safe = true ∨ Polite (c.run its t rounds).1.tr)
    (hcl : (c.loop its).2.clean = true) (hnr : ∀ e, (c.run its t rounds).2 ≠ .raisedFinal e)
    (hj : Joint env (c.run its t rounds).1.tr ws) (hw : ∀ w ∈ c.workers, OneShot env (ws w).tr)
    (h0 : ∀ r ∈ c.hist.rows, r.flag .simEnded = true → r.flag .simStarted = true)
    (h1 : b.byPriority = true ∨ ∀ r ∈ c.hist.rows, r.flag .simStarted = false)
    (post pre : List Manager.Ev) (he : (c.run its t rounds).1.tr = post ++ pre) :
    (histAt c.hist pre).simStartedCount = flagged (histAt c.hist pre) .simStarted ∧
    (histAt c.hist pre).simEndedCount = flagged (histAt c.hist pre) .simEnded :=
  Manager.C50_totals_partial c hc b aenv hpi its hits t rounds hprot
    (hj.honest (rowsAfter_run c its t rounds) (Manager.framed_run c its t rounds hcl hnr)
      (fun w _ hm => (hw w (recv_workers c its t rounds hm)).faithful))
    (C50_once_partial c hc b aenv hpi its hits t rounds hprot hj hw) h0 h1 post pre he

/-! ### A concrete execution -/

/-- A generator and two evaluations with `give_sim_work_first`; all functions return at once, messages are delayed. -/
def backTr : List Manager.Ev := (Manager.sdemo.run (Manager.onceIts (.simFirst {})) (fun _ => 0) []).1.tr
def backF : Nat → UserF := fun _ _ _ _ _ => .ret .pairInfo
def backMoves : List Move :=
  mans 5 ++ [.carry 1, .tick 1, .tick 1] ++ mans 10 ++
  [.carry 3, .carry 3, .tick 3, .tick 3, .carry 2, .tick 3, .tick 2, .carry 2, .tick 2, .tick 2] ++ mans 12
def backEnv : Env := envOf backF (fun _ => .queue) backTr.reverse

def oneShotB (env : Env) (e : Ev) (pre : List Ev) : Bool :=
  match e with
  | .out x => !resultOf env x || (match x, newest pre with | .answer o _ _, some o' => decide (o = o') && decide (o.tag = EVAL_SIM) | _, _ => false)
  | _ => true

theorem oneShot_of {env : Env} {tr : List Ev} (h : onEvB (oneShotB env) tr = true) : OneShot env tr := by
  refine onEvB_sound (fun e pre h x hx hr => ?_) h
  subst hx
  simp only [oneShotB, hr, Bool.not_true, Bool.false_or] at h
  split at h
  · rename_i o s r o' hn
    simp only [Bool.and_eq_true, decide_eq_true_eq] at h
    exact ⟨o, s, r, rfl, by rw [hn, h.1], h.2⟩
  · cases h

/-- The hypotheses hold for an execution in which two workers have returned results of evaluations. -/
theorem back_example : ∃ ws, Joint backEnv (Manager.sdemo.run (Manager.onceIts (.simFirst {})) (fun _ => 0) []).1.tr ws ∧
    (Manager.sdemo.run (Manager.onceIts (.simFirst {})) (fun _ => 0) []).2 = .running ∧
    (Manager.sdemo.loop (Manager.onceIts (.simFirst {}))).2.clean = true ∧
    (∀ w ∈ Manager.sdemo.workers, OneShot backEnv (ws w).tr) ∧ simBack backTr = [0, 1] := by
  have key : ((woven backF (fun _ => .queue) backTr backMoves).map fun s => decide (s.i = backTr.length) &&
      Manager.sdemo.workers.all fun w => onEvB (oneShotB backEnv) (s.ws w).tr) = some true := by decide +kernel
  cases hs : woven backF (fun _ => .queue) backTr backMoves with
  | none => rw [hs] at key; cases key
  | some s =>
    rw [hs] at key
    simp only [Option.map_some, Option.some.injEq, Bool.and_eq_true, decide_eq_true_eq, List.all_eq_true] at key
    exact ⟨s.ws, woven_joint hs key.1, by decide +kernel, by decide +kernel, fun w hw => oneShot_of (key.2 w hw), by decide +kernel⟩

/-- The conclusion for this execution. -/
example (post pre : List Manager.Ev) (he : (Manager.sdemo.run (Manager.onceIts (.simFirst {})) (fun _ => 0) []).1.tr = post ++ pre) :
    (histAt Manager.sdemo.hist pre).simEndedCount = flagged (histAt Manager.sdemo.hist pre) .simEnded := by
  obtain ⟨ws, hj, hrun, hcl, hw, _⟩ := back_example
  exact (C50_workers_partial Manager.sdemo Manager.sdemo_std (.simFirst {}) Manager.demoEnv (by intro _ _ h; cases h)
    (Manager.onceIts (.simFirst {})) (by
      intro it hit
      simp only [Manager.onceIts, List.mem_cons, List.not_mem_nil, or_false] at hit
      rcases hit with rfl | rfl | rfl | rfl <;> exact Manager.bpass_uses _ _ _ _ _) (fun _ => 0) [] (.inl rfl) hcl
    (by rw [hrun]; intro e h; cases h) hj hw (by decide +kernel) (.inl rfl) post pre he).2

end Verif.System
