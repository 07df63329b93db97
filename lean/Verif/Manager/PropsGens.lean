import Verif.Manager.GensPass
import Verif.Manager.PropsOrders
/-!
Property C34 over whole runs: `only_persistent_gens` returns each result to its own generator, once, at the right time.

`view w pre` is what the messages `pre` (newest first) tell about worker `w`: `persis` is 2 while it runs a persistent
generator.  `runningGens c pre` counts those workers, `genStarts pre` the orders that started a generator.
`givenBack tr` are the rows that were sent to running generators, including the array with the remaining
results that `final_gen_send` sends at the end.  `hasFinal pre`: the main loop has ended.
-/
namespace Verif.Manager
open Verif.History Verif.Res Verif.Sched Verif.Alloc

/-- Every order of the main loop goes to the worker it is for, and is an evaluation, a return of results to a running
generator, or the start of a generator.  A return has exactly rows that the same generator produced and that are evaluated, leaves
none out that is evaluated and not yet returned, and comes outside asynchronous mode only when the generator has no
unfinished row.  A start goes to an idle worker while fewer than `num_active_gens` generators run. -/
theorem C34_run_orders (c : Start) (o : UserOpts) (env : AllocEnv) (its : List Iter)
    (hits : ∀ it ∈ its, it.uses (.persGens o) env c.sp) (t : Nat → Int) (rounds : List Round)
    (post pre : List Ev) (to key : Nat) (wk : Work) (he : (c.run its t rounds).1.tr = post ++ .order to key wk :: pre)
    (hm : hasFinal pre = false) :
    to = key ∧ to ∈ c.workers ∧
      (wk.tag = EVAL_SIM ∨ (wk.tag = EVAL_GEN ∧ wk.persistent = true ∧ (ReturnsNow c o pre to wk ∨ StartsNow c o pre to wk))) := by
  obtain ⟨p, _, hr⟩ := c.reachB its t rounds hits
  obtain ⟨h1, h2, _, h3⟩ := gens_orders hr post _ pre he hm
  exact ⟨h1, h2, h3⟩

/-- No row is returned to a running generator twice in a run, not even by the last array at the end.  Partial: in safe
mode, or if no user function returns a protected field. -/
theorem C34_run_once_partial (c : Start) (hc : c.Std) (o : UserOpts) (env : AllocEnv) (its : List Iter)
    (hits : ∀ it ∈ its, it.uses (.persGens o) env c.sp) (t : Nat → Int) (rounds : List Round)
    (hprot : c.Protected (c.run its t rounds).1.tr) : (givenBack (c.run its t rounds).1.tr).Nodup := by
  obtain ⟨p, _, hr⟩ := c.reachB its t rounds hits
  have h := (hr.back hc (fun s cs work p hr hP => opg_frugal hr hP) hprot).nodup
  exact (List.sublist_append_left _ _).nodup h

/-- Orders, also for evaluation, are sent in the main loop only while all generators started so far run. -/
theorem C34_run_all_running (c : Start) (o : UserOpts) (env : AllocEnv) (its : List Iter)
    (hits : ∀ it ∈ its, it.uses (.persGens o) env c.sp) (t : Nat → Int) (rounds : List Round)
    (post pre : List Ev) (to key : Nat) (wk : Work) (he : (c.run its t rounds).1.tr = post ++ .order to key wk :: pre)
    (hm : hasFinal pre = false) : genStarts pre ≤ runningGens c pre := by
  obtain ⟨p, _, hr⟩ := c.reachB its t rounds hits
  exact (gens_orders hr post _ pre he hm).2.2.1

/-- After a generator has finished no order is sent in the main loop.  (`GenHonest`: messages marked as coming from a
persistent generator come from workers that run one.) -/
theorem C34_run_finished (c : Start) (o : UserOpts) (env : AllocEnv) (its : List Iter)
    (hits : ∀ it ∈ its, it.uses (.persGens o) env c.sp) (t : Nat → Int) (rounds : List Round)
    (post mid pre : List Ev) (to key w : Nat) (wk : Work) (d : Data)
    (he : (c.run its t rounds).1.tr = post ++ .order to key wk :: (mid ++ .recv w (.data d) :: pre))
    (hg : GenHonest (c.run its t rounds).1.tr) (hw : w ∈ c.workers) (hd : d.isFinished = true)
    (hrun : (view w pre).persis = EVAL_GEN) : hasFinal (mid ++ .recv w (.data d) :: pre) = true := by
  cases hm : hasFinal (mid ++ .recv w (.data d) :: pre) with
  | true => rfl
  | false =>
    have h1 := C34_run_all_running c o env its hits t rounds post _ to key wk he hm
    have h2 := lag_finished (c := c) (post := mid) hw hd hrun (fun po w' d' pr h =>
      hg (post ++ .order to key wk :: po) w' d' pr (by rw [he, h]; simp))
    omega

/-- Whenever the function is called in a run while a generator that was started no longer runs, some worker is idle and
`sim_max` is not reached, it asks for shutdown, and gives no orders. -/
theorem C34_run_asks (c : Start) (o : UserOpts) (env : AllocEnv) (s : St)
    (hr : Reach c.sp ((Bundled.persGens o).P env c.sp) c.st .alloc s) (hlag : runningGens c s.tr < genStarts s.tr)
    (w : Nat) (hw : w ∈ c.workers) (hidle : (view w s.tr).busy = false) (hmax : simMaxGiven c.sp s.hist = false)
    (cs : List Nat) (work : List (Nat × Work)) (flag : Bool) (p : PInfo)
    (hP : (Bundled.persGens o).P env c.sp s (.ok cs work flag p)) : flag = true ∧ work = [] := by
  have hv : VI c.sp s := (hr.vi start_vi (by rw [start_tr]; rfl) start_pending rfl).1
  have hi : ids s = c.workers := by rw [hr.micros.ids, start_ids]
  have hst := (gensInv hr).starts rfl
  rw [runningGens_table hv hi] at hlag
  obtain ⟨now, ord, hord, rfl, hcall⟩ := hP.ok
  have hW : IdsOk (ctxOf env c.sp ord ((Bundled.persGens o).marked now s)).W := by have h9 := start_idsOk hr; exact h9
  have hcall' : onlyPersistentGens (ctxOf env c.sp ord ((Bundled.persGens o).marked now s)) o s.pinfo (schedOf env s) = .ok ⟨work, p, flag⟩ := hcall
  have hlt : (ctxOf env c.sp ord ((Bundled.persGens o).marked now s)).W.countP (fun k => decide (k.persis = EVAL_GEN)) < s.pinfo.numGensStarted :=
    Nat.lt_of_lt_of_le hlag hst
  refine ⟨(C34_answer _ hW hord o s.pinfo _ _ hcall').2.2.mpr ⟨?_, ?_, hlt⟩, ?_⟩
  · exact hmax
  · rw [← hi] at hw
    obtain ⟨k, hk, hkw⟩ := (mem_ids hv.tab).mp hw
    have := (hv.agree k _ (List.getElem?_eq_getElem hk)).busy
    rw [hkw, hidle] at this
    refine List.any_eq_true.mpr ⟨s.W[k], List.getElem_mem hk, ?_⟩
    simpa using this.symm
  · refine Decidable.byContradiction (fun hne => ?_)
    have := (opg_facts hW hord hcall').run hne
    simp only [gensIn] at this
    omega

/-! ### A run with two generators -/

/-- Four workers, generators on the first two. -/
def gdemo : Start := { bdemo with n := 4, gens := [1, 2], L := 6, safe := true, persisIn := [.user 1], sp := { finalGenSend := true, wallclockMax := some 50 } }
def gopts : UserOpts := { numActiveGens := some 2 }
def gpass (mail : List Mail) (e : Int := 0) : Iter := bpass (.persGens gopts) demoEnv gdemo.sp mail e

/-- Both generators produce points, get the results of their own points, and the first one finishes. -/
def gIts : List Iter :=
  [gpass [], gpass [ppoints 1 [10, 20], ppoints 2 [30]], gpass [value 3 [0] [5], value 4 [1] [6]], gpass [value 3 [2] [7]], gpass [ppoints 1 [40]],
   gpass [value 3 [3] [8]], gpass [pfinish 1], gpass []]

theorem gIts_uses : ∀ it ∈ gIts, it.uses (.persGens gopts) demoEnv gdemo.sp := by
  intro it hit
  simp only [gIts, List.mem_cons, List.not_mem_nil, or_false] at hit
  rcases hit with rfl | rfl | rfl | rfl | rfl | rfl | rfl | rfl <;> exact bpass_uses _ _ _ _ _

def genHonestB : List Ev → Bool
  | [] => true
  | .recv w (.data d) :: tr => (!(d.persistent && decide (d.calcType = EVAL_GEN) && !d.isFinished) || decide ((view w tr).persis = EVAL_GEN)) && genHonestB tr
  | _ :: tr => genHonestB tr

theorem genHonestB_sound : ∀ {tr : List Ev}, genHonestB tr = true → GenHonest tr
  | [], _ => by intro post w d pre he; simp at he
  | e :: tr, h => by
    have h2 : genHonestB tr = true := by
      unfold genHonestB at h
      split at h
      · rename_i heq; simp at heq
      · rename_i heq; injection heq with e1 e2; subst e2
        simp only [Bool.and_eq_true] at h; exact h.2
      · rename_i heq; injection heq with e1 e2; subst e2; exact h
    intro post w d pre he h3 h4 h5
    cases post with
    | nil =>
      simp only [List.nil_append, List.cons.injEq] at he
      obtain ⟨rfl, rfl⟩ := he
      simp only [genHonestB, h3, h4, h5, Bool.and_eq_true] at h
      simpa using h.1
    | cons a post =>
      simp only [List.cons_append, List.cons.injEq] at he
      exact genHonestB_sound h2 post w d pre he.2 h3 h4 h5

theorem gdemo_std : gdemo.Std := ⟨bdemo_std.has, bdemo_std.sc, bdemo_std.sc0⟩

example : (givenBack (gdemo.run gIts (fun _ => 0) []).1.tr).Nodup ∧ givenBack (gdemo.run gIts (fun _ => 0) []).1.tr = [3, 2, 0, 1] :=
  ⟨C34_run_once_partial gdemo gdemo_std gopts demoEnv gIts gIts_uses _ _ (.inl rfl), by decide +kernel⟩
example : GenHonest (gdemo.run gIts (fun _ => 0) []).1.tr := genHonestB_sound (by decide +kernel)
example : runningGens gdemo (gdemo.run gIts (fun _ => 0) []).1.tr = 1 ∧ genStarts (gdemo.run gIts (fun _ => 0) []).1.tr = 2 ∧
    hasFinal (gdemo.run gIts (fun _ => 0) []).1.tr = true ∧ (gdemo.run (gIts.take 6) (fun _ => 0) []).2 = .running := by decide +kernel

/-- Generator orders of the main loop, oldest first: worker, rows. -/
def genOrders (tr : List Ev) : List (Nat × List Nat) :=
  tr.reverse.filterMap fun | .order to _ wk => if wk.tag = EVAL_GEN then some (to, wk.rows) else none | _ => none

example : genOrders (gdemo.run gIts (fun _ => 0) []).1.tr = [(1, []), (2, []), (1, [0, 1]), (2, [2]), (1, [3])] := by decide +kernel

/-- The first generator has finished, the others wait for the function's answer. -/
example : ∃ s, Reach gdemo.sp ((Bundled.persGens gopts).P demoEnv gdemo.sp) gdemo.st .alloc s ∧ runningGens gdemo s.tr < genStarts s.tr ∧
    (view 3 s.tr).busy = false ∧ simMaxGiven gdemo.sp s.hist = false := by
  obtain ⟨p, hp, hr⟩ := gdemo.reachB (gIts.take 6) (fun _ => 0) [] (fun it h => gIts_uses it (List.mem_of_mem_take h))
  have h1 : (gdemo.run (gIts.take 6) (fun _ => 0) []).2 = .running := by decide +kernel
  rw [h1] at hp
  simp only [Outcome.ph] at hp
  subst hp
  generalize hs : (gdemo.run (gIts.take 6) (fun _ => 0) []).1 = s at hr
  have hr1 := Reach.test (sp := gdemo.sp) 0 hr (by subst hs; decide +kernel)
  have hr2 := Reach.kill hr1 (by subst hs; decide +kernel)
  have hr3 := Reach.mail 1 (pfinish 1).m 9 hr2 (by subst hs; decide +kernel) (by subst hs; decide +kernel)
  have hr4 := Reach.save hr3
  refine ⟨_, hr4, ?_⟩
  subst hs
  decide +kernel

/-- The run is stopped by the clock while generator 2 waits for the rest of its points. -/
def gIts2 : List Iter :=
  [gpass [], gpass [ppoints 1 [10], ppoints 2 [30, 50]], gpass [value 3 [0] [5], value 4 [1] [6]], gpass [] 100]

/-- Witness: the last array that `final_gen_send` sends does not keep to the owners.  The manager sends all rows that
are evaluated and not returned to the first persistent worker: row 1, produced by generator 2, goes to generator 1. -/
theorem C34_final_send_witness : ∃ (c : Start) (o : UserOpts) (env : AllocEnv) (its : List Iter) (post pre : List Ev) (wk : Work),
    (∀ it ∈ its, it.uses (.persGens o) env c.sp) ∧ c.Std ∧ c.safe = true ∧ (c.run its (fun _ => 0) []).1.tr = post ++ .order 1 1 wk :: pre ∧
    wk.tag = PERSIS_STOP ∧ wk.rows = [1] ∧ cell (histAt c.hist pre).rows 1 .genWorker = some (.s 2) ∧ (view 2 pre).persis = EVAL_GEN := by
  have h1 : (match (gdemo.run gIts2 (fun _ => 0) []).1.tr.drop 4 with
      | .order a b wk :: pre => decide (a = 1 ∧ b = 1 ∧ wk.tag = PERSIS_STOP ∧ wk.rows = [1] ∧
          cell (histAt gdemo.hist pre).rows 1 .genWorker = some (.s 2) ∧ (view 2 pre).persis = EVAL_GEN) | _ => false) = true := by decide +kernel
  split at h1
  · rename_i a b wk pre h
    simp only [decide_eq_true_eq] at h1
    obtain ⟨rfl, rfl, h1, h2, h3, h4⟩ := h1
    refine ⟨gdemo, gopts, demoEnv, gIts2, (gdemo.run gIts2 (fun _ => 0) []).1.tr.take 4, pre, wk, ?_, gdemo_std, rfl,
      by rw [← h, List.take_append_drop], h1, h2, h3, h4⟩
    intro it hit
    simp only [gIts2, List.mem_cons, List.not_mem_nil, or_false] at hit
    rcases hit with rfl | rfl | rfl | rfl <;> exact bpass_uses _ _ _ _ _
  · simp at h1

end Verif.Manager
