import Verif.Manager.PropsHist2
import Verif.System.PropsBack
/-!
Properties C07 and C08 of the history for manager and workers together: that workers return only what they were given, and
once, is no condition any more but follows from the program of the worker.
-/
namespace Verif.System
open Verif Verif.Worker
open Verif.Manager (Start Iter Round KeepsIds NotNamed Bundled AllocEnv Polite SentTo histAt)
open Verif.History (Rec Row Field cell trimH stored zeroRow protectedFields)

variable {env : Env} {ws : Nat → W}

/-- The result of a simulation that the manager receives is a result for rows that the sender was ordered to evaluate, and
at the end of the run it is in these rows of the history.  Partial: bundled allocation functions, in safe mode or without
protected fields in returned arrays; user functions that return the results of their order at the end; runs in which
nothing was raised; for rows that no generator names by their number. -/
theorem C07_workers_partial (c : Start) (hc : c.Std) (b : Bundled) (aenv : AllocEnv)
    (hpi : ∀ lp n, b = .aposmm lp n → c.pinfo.firstCall = false → c.pinfo.nextToGive ≠ none) (its : List Iter)
    (hits : ∀ it ∈ its, it.uses b aenv c.sp) (t : Nat → Int) (rounds : List Round)
    (hprot : c.safe = true ∨ Polite (c.run its t rounds).1.tr)
    (hg : (c.run its t rounds).2.good = true) (hcl : (c.loop its).2.clean = true)
    (hj : Joint env (c.run its t rounds).1.tr ws) (hw : ∀ w ∈ c.workers, OneShot env (ws w).tr)
    (hids : KeepsIds (c.run its t rounds).1.tr) {post pre : List Manager.Ev} {w : Nat} {D : Manager.Data} {d : Rec}
    (he : (c.run its t rounds).1.tr = post ++ .recv w (.data D) :: pre) (hsim : D.isSim = true) (ho : D.out = .arr d)
    (hfin : D.calcStatus = Manager.FINISHED_PERSISTENT_SIM → c.sp.retSim = true) (hdn : d.fields.Nodup)
    {k i : Nat} (hki : D.rows[k]? = some i) (hvis : i < (histAt c.hist pre).index) (hn : NotNamed (c.run its t rounds).1.tr i)
    {f : Field} (hf : f ∈ d.fields) (hp : f ∉ protectedFields) (hcr : f ≠ .cancelRequested) :
    (∃ key, SentTo pre w key i) ∧
    ∃ src old, d.rows[k]? = some src ∧ (f ∈ (histAt c.hist pre).fields → cell (histAt c.hist pre).rows i f = some old) ∧
      (f ∉ (histAt c.hist pre).fields → old = zeroRow d.cols f) ∧
      cell (c.run its t rounds).1.hist.rows i f = some (stored old (src f)) :=
  ⟨C10_only_given_partial c its t rounds hcl (by intro e h; rw [h] at hg; cases hg) hj (fun w hm => (hw w hm).faithful) post pre w D he hsim i
      (List.mem_of_getElem? hki),
    Manager.C07_run_final c its t rounds hg hids (C50_once_partial c hc b aenv hpi its hits t rounds hprot hj hw) he hsim ho hfin hdn hki hvis hn
      hf hp hcr⟩

/-- Prepended rows that count as started are left alone by manager and workers.  Partial: with an allocation function that
chooses among the waiting rows, in safe mode or without protected fields in returned arrays; user functions that send
results of simulations only for the order they work on; runs without errors in orders; for rows that no generator names
by their number; `sim_max > 0`. -/
theorem C08_workers_partial (c : Start) (hL : 0 < c.L) (b : Bundled) (hb : b.byPriority = true) (aenv : AllocEnv) (its : List Iter)
    (hits : ∀ it ∈ its, it.uses b aenv c.sp) (t : Nat → Int) (rounds : List Round) (hc : c.Std)
    (hids : KeepsIds (c.run its t rounds).1.tr) (hprot : c.safe = true ∨ Polite (c.run its t rounds).1.tr)
    (hcl : (c.loop its).2.clean = true) (hnr : ∀ e, (c.run its t rounds).2 ≠ .raisedFinal e)
    (hj : Joint env (c.run its t rounds).1.tr ws) (hw : ∀ w ∈ c.workers, Faithful env (ws w).tr)
    (i : Nat) (r0 : Row) (hi : c.H0.rows[i]? = some r0) (hn : NotNamed (c.run its t rounds).1.tr i)
    (hst : Field.simStarted ∉ c.H0.fields ∨ r0 .simStarted ≠ .s 0)
    (f : Field) (hf : f ∈ c.H0.fields) (hse : f = .simEnded → Field.simStarted ∈ c.H0.fields)
    (h1 : f ∉ [Field.genInformed, .genInformedTime, .cancelRequested, .killSent]) :
    cell (trimH (c.run its t rounds).1.hist) i f = some (r0 f) :=
  Manager.C08_run_partial c hL b hb aenv its hits t rounds hc hids hprot
    (fun post w d pre he hd i hi => C10_only_given_partial c its t rounds hcl hnr hj hw post pre w d he hd i hi) i r0 hi hn hst f hf hse h1

/-- The conditions hold for the execution of `back_example`: worker 3 evaluates row 1, worker 2 row 0. -/
example : ∃ ws, Joint backEnv (Manager.sdemo.run (Manager.onceIts (.simFirst {})) (fun _ => 0) []).1.tr ws ∧
    (Manager.sdemo.run (Manager.onceIts (.simFirst {})) (fun _ => 0) []).2.good = true ∧
    (Manager.sdemo.loop (Manager.onceIts (.simFirst {}))).2.clean = true ∧
    (∀ w ∈ Manager.sdemo.workers, OneShot backEnv (ws w).tr) ∧
    KeepsIds (Manager.sdemo.run (Manager.onceIts (.simFirst {})) (fun _ => 0) []).1.tr ∧
    (∀ i, NotNamed (Manager.sdemo.run (Manager.onceIts (.simFirst {})) (fun _ => 0) []).1.tr i) ∧
    ((trimH (Manager.sdemo.run (Manager.onceIts (.simFirst {})) (fun _ => 0) []).1.hist).map fun r => (r (.user 0), r.flag .simEnded)) =
      [(.s 6, true), (.s 5, true), (.s 0, false)] := by
  obtain ⟨ws, hj, hrun, hcl, hw, _⟩ := back_example
  exact ⟨ws, hj, by rw [hrun]; rfl, hcl, hw, Manager.keepsIdsB_sound (by decide +kernel),
    fun i => (Manager.unnumberedB_sound (by decide +kernel)).notNamed i, by decide +kernel⟩

end Verif.System
