import Verif.Manager.Recorded
import Verif.Manager.Props
/-!
Properties C16, C17 and C19 (the part about the manager): worker exceptions, shutdown, the table of workers.

As in `Verif.Manager.Props`: `c.run its t rounds` is an arbitrary run (or a part of one), `tr` its record, newest
first; in `tr = post ++ e :: pre`, `pre` is what had happened before `e` and `post` what has happened since.
-/
namespace Verif.Manager
open Verif.History Verif.Res Verif.Sched Verif.Alloc

/-- The workers of a run. -/
def Start.workers (c : Start) : List Nat := if c.sp.gom then List.range (c.n + 1) else List.range' 1 c.n

theorem start_ids {c : Start} : ids c.st = c.workers := by
  simp only [ids, Start.st, initSt, initW, Start.workers, List.map_map]
  split <;> exact List.map_id' _

/-- The run is over: `Manager.run` has returned, or has raised after a complete shutdown. -/
def Outcome.over : Outcome → Bool
  | .returned _ | .raised _ => true
  | _ => false

/-! ## C16 -/

/-- A message that reports a failure is followed at once by the worker exception, unless there has been one before. -/
theorem C16_reported (c : Start) (its : List Iter) (t : Nat → Int) (rounds : List Round) (post pre : List Ev) (w : Nat) (m : Msg)
    (h : (c.run its t rounds).1.tr = post ++ .recv w m :: pre) (hm : m.failure = true) :
    hasExc pre = true ∨ ∃ post', post = post' ++ [.exc] := by
  obtain ⟨p, _, hr⟩ := c.reach its t rounds
  exact hr.excF rfl rfl _ _ _ h hm

/-- There is at most one worker exception in a run; it is caused by a failure reported by a worker, and directly
after it every worker is told to stop. -/
theorem C16_once (c : Start) (its : List Iter) (t : Nat → Int) (rounds : List Round) :
    excCount (c.run its t rounds).1.tr ≤ 1 ∧
    ∀ post pre, (c.run its t rounds).1.tr = post ++ .exc :: pre →
      (∃ w m pre', pre = .recv w m :: pre' ∧ m.failure = true) ∧
      ∃ post', post = post' ++ (c.workers.map Ev.stop).reverse := by
  obtain ⟨p, _, hr⟩ := c.reach its t rounds
  have hF := hr.excF rfl rfl
  rw [start_ids] at hF
  refine ⟨?_, fun post pre h => (hF _ _ _ h).2⟩
  rw [excCount_eq (fun post e pre h he => by subst he; exact (hF _ _ _ h).1)]
  split <;> simp

/-- After a worker exception no work is handed out: all later orders are persistent stops. -/
theorem C16_no_more_work (c : Start) (its : List Iter) (t : Nat → Int) (rounds : List Round) (post pre : List Ev)
    (to key : Nat) (wk : Work) (h : (c.run its t rounds).1.tr = post ++ .order to key wk :: pre) (hx : hasExc pre = true) :
    wk.tag = PERSIS_STOP := by
  cases hf : hasFinal pre with
  | true => exact no_work_after_loop c its t rounds post pre to key wk h hf
  | false =>
    exfalso
    obtain ⟨p, _, hr⟩ := c.reach its t rounds
    have key := hr.orders (g := fun pre to _ wk => hasFinal pre = false → hasExc pre = false)
      (by rw [start_tr]; exact Always.nil) rfl (fun pre to key wk h h' => by rw [h] at h'; simp at h')
      (fun s w wk t rest k wk' l0 hr _ hc hk hwk hl0 _ => by
        have h1 := hr.excOk rfl
        rw [hr.noExc rfl rfl (by simp)] at h1
        rw [hasExc_append, ← h1]
        rcases hl0 with h | ⟨_, h⟩ <;> rw [h] <;> rfl) _ _ _ h hf
    rw [hx] at key; simp at key

/-- A main loop that ended with a worker exception has noted it. -/
theorem raised_exc {c : Start} {s : St} (hre : Reach c.sp (fun _ _ => True) c.st (.over (.raised .worker)) s) : s.exc = true := by
  generalize hph : Ph.over (.raised .worker) = p0 at hre
  cases hre with
  | mailErr w m t' hr' hw' he =>
    simp only [Ph.over.injEq, MainEnd.raised.injEq] at hph
    subst hph
    rcases handleMsg_trace (sp := c.sp) _ w m t' with ⟨_, _, _, h1, _⟩ | ⟨_, h1, _⟩
    · exact h1
    · exact absurd he h1
  | killErr hr' he =>
    simp only [Ph.over.injEq, MainEnd.raised.injEq] at hph
    subst hph
    have := killCancelled_err he
    simp [MErr.clean] at this
  | giveErr hr' hm he =>
    exfalso
    simp only [Ph.over.injEq, MainEnd.raised.injEq] at hph
    subst hph
    simp only [handOut] at he
    split at he
    · rename_i e hc; simp only [Option.some.injEq] at he; subst he; exact checkOrder_err hc
    · simp only [andThen] at he
      split at he
      · rename_i e hs; simp only [Option.some.injEq] at he; subst he; exact sendOrder_err hs
      · simp only [updateOnAlloc] at he
        split at he
        · simp at he
        · split at he
          · obtain ⟨x, hx⟩ := doOp_err he; simp at hx
          · split at he
            · obtain ⟨x, hx⟩ := doOp_err he; simp at hx
            · simp at he
  | _ => simp at hph

/-- How a run with a worker exception ends.  If the exception came in the main loop, that exception is raised
after the shutdown (or the shutdown is still waiting, or has failed with an error that is not another worker exception).
If it came during the shutdown, it is raised from there.  In particular the run does not return normally. -/
theorem C16_outcome (c : Start) (its : List Iter) (t : Nat → Int) (rounds : List Round)
    (h : hasExc (c.run its t rounds).1.tr = true) :
    ((c.loop its).2 = .raised .worker ∧ ((c.run its t rounds).2 = .raised .worker ∨ (c.run its t rounds).2 = .waiting ∨
      ∃ x, x ≠ .worker ∧ (c.run its t rounds).2 = .raisedFinal x)) ∨
    ((c.loop its).2 ≠ .raised .worker ∧ (c.run its t rounds).2 = .raisedFinal .worker) := by
  have hr := c.reach its t rounds
  obtain ⟨p, _, hr⟩ := hr
  rw [← hr.excOk rfl] at h
  have hl := loop_reach c its
  simp only [Start.run, Manager.run, Start.loop] at *
  generalize mainLoop c.sp its c.st = y at h hl hr
  obtain ⟨s, e⟩ := y
  simp only at hl
  have hf := finalPhase_exc (sp := c.sp) (emit s .final) t rounds
  cases e with
  | running =>
    exfalso
    simp only at h
    rw [(hl.1 rfl).noExc rfl rfl (by simp)] at h; simp at h
  | stopped r =>
    right
    have hx : s.exc = false := (hl.2 (by simp)).noExc rfl rfl (by simp)
    simp only at h ⊢
    generalize finalPhase c.sp (emit s .final) t rounds = z at h hf
    obtain ⟨s2, f⟩ := z
    have := (hf.2.1 hx)
    cases f with
    | waiting => simp only at h this; rw [this] at h; simp at h
    | done f => simp only at h this; rw [this] at h; simp at h
    | raised x => simp only at h this; rw [this] at h; simp only [FinEnd.raised.injEq] at h; simp [h]
  | flagged =>
    right
    have hx : s.exc = false := (hl.2 (by simp)).noExc rfl rfl (by simp)
    simp only at h ⊢
    generalize finalPhase c.sp (emit s .final) t rounds = z at h hf
    obtain ⟨s2, f⟩ := z
    have := (hf.2.1 hx)
    cases f with
    | waiting => simp only at h this; rw [this] at h; simp at h
    | done f => simp only at h this; rw [this] at h; simp at h
    | raised x => simp only at h this; rw [this] at h; simp only [FinEnd.raised.injEq] at h; simp [h]
  | raised x0 =>
    simp only at h ⊢
    by_cases hw : x0 = .worker
    · subst hw
      left
      have hs : s.exc = true := by
        exact raised_exc (hl.2 (by simp))
      obtain ⟨_, hne⟩ := hf.1 hs
      generalize finalPhase c.sp (emit s .final) t rounds = z at hne
      obtain ⟨s2, f⟩ := z
      cases f with
      | waiting => simp
      | done f => simp
      | raised x => simp only [ne_eq, FinEnd.raised.injEq] at hne; simp [hne]
    · right
      have hx : s.exc = false := (hl.2 (by simp)).noExc rfl rfl (by simpa using hw)
      generalize finalPhase c.sp (emit s .final) t rounds = z at h hf
      obtain ⟨s2, f⟩ := z
      have := (hf.2.1 hx)
      cases f with
      | waiting => simp only at h this; rw [this] at h; simp at h
      | done f => simp only at h this; rw [this] at h; simp at h
      | raised x => simp only at h this; rw [this] at h; simp only [FinEnd.raised.injEq] at h; simp [h, hw]

/-- The shutdown after a worker exception does not wait for the other workers.  If the exception came in the main loop,
the manager receives at most once more: when that one pass has been made, the run is over or the shutdown has failed, no
matter who is still working. -/
theorem C16_one_more_pass (c : Start) (its : List Iter) (t : Nat → Int) (r : Round) (rounds : List Round)
    (h : (c.loop its).2 = .raised .worker) :
    ((c.run its t (r :: rounds)).2 = .raised .worker ∨ ∃ x, x ≠ .worker ∧ (c.run its t (r :: rounds)).2 = .raisedFinal x) ∧
    c.run its t (r :: rounds) = c.run its t [r] := by
  have hl := loop_reach c its
  simp only [Start.run, Manager.run, Start.loop] at *
  generalize mainLoop c.sp its c.st = y at h hl
  obtain ⟨s, e⟩ := y
  simp only at hl h
  subst h
  have hs : (emit s .final).exc = true := by
    have h1 : s.exc = true := raised_exc (hl.2 (by simp))
    exact h1
  have hf := (finalPhase_exc (sp := c.sp) (emit s .final) t (r :: rounds)).1 hs
  have hd := finalPhase_one (sp := c.sp) (emit s .final) t r rounds hs
  simp only
  rw [← hd.2]
  refine ⟨?_, rfl⟩
  have hd := hd.1
  generalize finalPhase c.sp (emit s .final) t (r :: rounds) = z at hd hf
  obtain ⟨s2, g⟩ := z
  cases g with
  | waiting => exact absurd rfl hd
  | done f => exact .inl rfl
  | raised x => exact .inr ⟨x, by simpa using hf.2, rfl⟩

/-- The property also asks for exit status 1.  No run ever returns it: a run that returns has status 0, or 2 and the
time limit has been reached; with a worker exception the run raises instead (`C16_outcome`), and the status computed in
the shutdown (manager.py:629-630) is dropped. -/
theorem C16_status_never_returned (c : Start) (its : List Iter) (t : Nat → Int) (rounds : List Round) (f : Nat)
    (h : (c.run its t rounds).2 = .returned f) :
    hasExc (c.run its t rounds).1.tr = false ∧ (f = 0 ∨ (f = 2 ∧ ∃ r ∈ rounds, wallTest c.sp r.e = true)) := by
  have hne : hasExc (c.run its t rounds).1.tr = false := by
    cases hx : hasExc (c.run its t rounds).1.tr with
    | false => rfl
    | true => rcases C16_outcome c its t rounds hx with ⟨_, h' | h' | ⟨x, _, h'⟩⟩ | ⟨_, h'⟩ <;> rw [h] at h' <;> simp at h'
  refine ⟨hne, ?_⟩
  have hl := loop_reach c its
  simp only [Start.run, Manager.run, Start.loop] at *
  generalize mainLoop c.sp its c.st = y at h hl
  obtain ⟨s, e⟩ := y
  simp only at hl
  have hf := finalPhase_exc (sp := c.sp) (emit s .final) t rounds
  have main : ∀ hx : s.exc = false, (finalPhase c.sp (emit s .final) t rounds).2 = .done f →
      f = 0 ∨ (f = 2 ∧ ∃ r ∈ rounds, wallTest c.sp r.e = true) := fun hx hd => hf.2.2.1 f hd hx
  cases e with
  | running => simp at h
  | raised x =>
    simp only at h
    generalize finalPhase c.sp (emit s .final) t rounds = z at h
    obtain ⟨s2, g⟩ := z
    cases g <;> simp at h
  | stopped r =>
    refine main ((hl.2 (by simp)).noExc rfl rfl (by simp)) ?_
    simp only at h
    generalize finalPhase c.sp (emit s .final) t rounds = z at h ⊢
    obtain ⟨s2, g⟩ := z
    cases g <;> simp_all
  | flagged =>
    refine main ((hl.2 (by simp)).noExc rfl rfl (by simp)) ?_
    simp only at h
    generalize finalPhase c.sp (emit s .final) t rounds = z at h ⊢
    obtain ⟨s2, g⟩ := z
    cases g <;> simp_all

/-- The demo run goes on: both workers report an exception, then worker 1 once more. -/
def crashIts : List Iter := demoIts.take 2 ++ [pass [⟨2, .err, 7⟩, ⟨1, .err, 7⟩] []]

example : (demo.run crashIts (fun _ => 0) [⟨[⟨1, .err, 8⟩], 0⟩]).2 = .raised .worker ∧
    excCount (demo.run crashIts (fun _ => 0) [⟨[⟨1, .err, 8⟩], 0⟩]).1.tr = 1 ∧
    ((demo.run crashIts (fun _ => 0) [⟨[⟨1, .err, 8⟩], 0⟩]).1.tr.filter fun | .recv _ m => m.failure | _ => false).length = 2 := by
  decide +kernel

/-- Worker 1 has reported, worker 2 is still working and never answers: one pass with no message ends the run. -/
example : (demo.loop (demoIts.take 2 ++ [pass [⟨1, .err, 7⟩] []])).2 = .raised .worker ∧
    (demo.run (demoIts.take 2 ++ [pass [⟨1, .err, 7⟩] []]) (fun _ => 0) []).2 = .waiting ∧
    (demo.run (demoIts.take 2 ++ [pass [⟨1, .err, 7⟩] []]) (fun _ => 0) [⟨[], 0⟩]).2 = .raised .worker := by
  decide +kernel

/-! ## C17 -/

/-- A run that is over has sent the finish signal to every worker; this is the last thing it did. -/
theorem C17_finish (c : Start) (its : List Iter) (t : Nat → Int) (rounds : List Round)
    (h : (c.run its t rounds).2.over = true) :
    ∃ pre, (c.run its t rounds).1.tr = (c.workers.map Ev.stop).reverse ++ pre := by
  have hl := loop_reach c its
  simp only [Start.run, Manager.run, Start.loop] at *
  generalize mainLoop c.sp its c.st = y at h hl
  obtain ⟨s, e⟩ := y
  simp only at hl
  have hf := (finalPhase_exc (sp := c.sp) (emit s .final) t rounds).2.2.2.2
  have main : e ≠ .running → ids (emit s .final) = c.workers := by
    intro he
    rw [← start_ids]
    exact (hl.2 he).micros.ids
  cases e with
  | running => simp [Outcome.over] at h
  | stopped r =>
    rw [main (by simp)] at hf
    simp only at h ⊢
    generalize finalPhase c.sp (emit s .final) t rounds = z at h hf
    obtain ⟨s2, g⟩ := z
    cases g with
    | done f => exact hf f rfl
    | _ => simp [Outcome.over] at h
  | flagged =>
    rw [main (by simp)] at hf
    simp only at h ⊢
    generalize finalPhase c.sp (emit s .final) t rounds = z at h hf
    obtain ⟨s2, g⟩ := z
    cases g with
    | done f => exact hf f rfl
    | _ => simp [Outcome.over] at h
  | raised x =>
    rw [main (by simp)] at hf
    simp only at h ⊢
    generalize finalPhase c.sp (emit s .final) t rounds = z at h hf
    obtain ⟨s2, g⟩ := z
    cases g with
    | done f => exact hf f rfl
    | _ => simp [Outcome.over] at h

/-- The place in the program of a run that is over. -/
theorem run_done (c : Start) (its : List Iter) (t : Nat → Int) (rounds : List Round)
    (h : (c.run its t rounds).2.over = true) :
    Reach c.sp (fun _ _ => True) c.st (.done (c.loop its).2) (c.run its t rounds).1 ∧
    ∃ f, (finalPhase c.sp (emit (c.loop its).1 .final) t rounds).2 = .done f ∧
      (c.run its t rounds).1 = (finalPhase c.sp (emit (c.loop its).1 .final) t rounds).1 ∧
      (∀ g, (c.run its t rounds).2 = .returned g → g = f) := by
  have hl := loop_reach c its
  simp only [Start.run, Manager.run, Start.loop] at *
  generalize mainLoop c.sp its c.st = y at h hl
  obtain ⟨s, e⟩ := y
  simp only at hl
  cases e with
  | running => simp [Outcome.over] at h
  | stopped r =>
    have hf := finalPhase_reach s t rounds (hl.2 (by simp))
    simp only at h ⊢
    generalize finalPhase c.sp (emit s .final) t rounds = z at h hf
    obtain ⟨s2, g⟩ := z
    cases g with
    | done f => exact ⟨hf, f, rfl, rfl, by simp⟩
    | _ => simp [Outcome.over] at h
  | flagged =>
    have hf := finalPhase_reach s t rounds (hl.2 (by simp))
    simp only at h ⊢
    generalize finalPhase c.sp (emit s .final) t rounds = z at h hf
    obtain ⟨s2, g⟩ := z
    cases g with
    | done f => exact ⟨hf, f, rfl, rfl, by simp⟩
    | _ => simp [Outcome.over] at h
  | raised x =>
    have hf := finalPhase_reach s t rounds (hl.2 (by simp))
    simp only at h ⊢
    generalize finalPhase c.sp (emit s .final) t rounds = z at h hf
    obtain ⟨s2, g⟩ := z
    cases g with
    | done f => exact ⟨hf, f, rfl, rfl, by simp⟩
    | _ => simp [Outcome.over] at h

/-- Every worker that ran a persistent function when the main loop ended has been sent a persistent stop before
the run is over.  Missing for the full statement: main loops that end with an error raised after an order was sent or
while a result was recorded (`MErr.clean` false); there the statement is false, see `C17_missed_witness`. -/
theorem C17_persistent_partial (c : Start) (its : List Iter) (t : Nat → Int) (rounds : List Round)
    (h : (c.run its t rounds).2.over = true) (hc : (c.loop its).2.clean = true) (post pre : List Ev)
    (htr : (c.run its t rounds).1.tr = post ++ .final :: pre) (w : Nat) (hw : w ∈ c.workers) (hp : (view w pre).persis ≠ 0) :
    ∃ e ∈ post, isPersisStop w e = true := by
  obtain ⟨hr, _⟩ := run_done c its t rounds h
  have := hr.pstops start_vi rfl rfl hc rfl post pre htr w (by rw [start_ids]; exact hw) hp
  rcases this with h | h
  · simp [Ph.left] at h
  · exact h

/-- A run that is over has an answer to every order and every persistent function has finished, unless there was a
worker exception or the time limit was reached. -/
theorem C17_received_partial (c : Start) (its : List Iter) (t : Nat → Int) (rounds : List Round)
    (h : (c.run its t rounds).2.over = true) (hc : (c.loop its).2.clean = true)
    (hx : hasExc (c.run its t rounds).1.tr = false) (ht : ∀ r ∈ rounds, wallTest c.sp r.e = false) (w : Nat) (hw : w ∈ c.workers) :
    (view w (c.run its t rounds).1.tr).busy = false ∧ (view w (c.run its t rounds).1.tr).persis = 0 := by
  obtain ⟨hr, f, hf, he, _⟩ := run_done c its t rounds h
  obtain ⟨hv, _⟩ := hr.vi start_vi rfl rfl hc
  have hfe := finalPhase_exc (sp := c.sp) (emit (c.loop its).1 .final) t rounds
  have hs : (emit (c.loop its).1 .final).exc = false := by
    cases hsx : (emit (c.loop its).1 .final).exc with
    | false => rfl
    | true =>
      have := (hfe.1 hsx).1
      rw [← he, hr.excOk rfl, hx] at this
      simp at this
  have hf0 : f = 0 := by
    rcases hfe.2.2.1 f hf hs with h | ⟨_, r, hr', hw'⟩
    · exact h
    · rw [ht r hr'] at hw'; simp at hw'
  subst hf0
  have hq := hfe.2.2.2.1 hf
  rw [← he] at hq
  have hw' : w ∈ ids (c.run its t rounds).1 := by rw [hr.micros.ids, start_ids]; exact hw
  obtain ⟨k, hk, rfl⟩ := (mem_ids hv.tab).mp hw'
  have ha := hv.agree k _ (List.getElem?_eq_some_iff.mpr ⟨hk, rfl⟩)
  rw [ha.busy, ha.persis]
  simp only [anyActive, anyPersis, List.any_eq_false, decide_eq_true_eq, ne_eq, Decidable.not_not] at hq
  exact ⟨by simp [hq.1 _ (List.getElem_mem hk)], hq.2 _ (List.getElem_mem hk)⟩

/-- Every result received, in the main loop or in the shutdown, is recorded in the history at once, and what is
recorded is a result just received. -/
theorem C17_recorded (c : Start) (its : List Iter) (t : Nat → Int) (rounds : List Round) :
    (∀ post pre w m, (c.run its t rounds).1.tr = post ++ .recv w m :: pre → m.results c.sp = true →
      ∃ o post', post = post' ++ [.op o] ∧ Records w m o) ∧
    (∀ post pre o, (c.run its t rounds).1.tr = post ++ .op o :: pre → isResult o = true →
      ∃ w m pre', pre = .recv w m :: pre' ∧ m.results c.sp = true ∧ Records w m o) := by
  obtain ⟨p, _, hr⟩ := c.reach its t rounds
  have hF := hr.recF rfl
  refine ⟨fun post pre w m h hm => hF _ _ _ h hm, fun post pre o h ho => ?_⟩
  obtain ⟨w, m, pre', h1, h2, h3⟩ := hF _ _ _ h ho
  exact ⟨w, m, pre', h1, h3, h2⟩

/-- A persistent generator on worker 1. -/
def pgenOrder (rows : List Nat) : Work := { tag := EVAL_GEN, fields := [.user 1], rows := rows, persistent := true }
def ppoints (w : Nat) (as : List Int) : Mail :=
  { w := w, t := 5, m := .data { calcType := EVAL_GEN, calcStatus := 0, rows := [], persistent := true, out := .arr (demoPoints as) } }
def pfinish (w : Nat) : Mail :=
  { w := w, t := 9, m := .data { calcType := EVAL_GEN, calcStatus := FINISHED_PERSISTENT_GEN, rows := [], persistent := true, out := .none } }

/-- One evaluation is enough; the generator is still running then, and so is an evaluation on worker 3. -/
def persDemo : Start := { sp := { simMax := some 1 }, cols := demoCols, L := 4, H0 := noH0, n := 3 }
def persIts : List Iter :=
  [pass [] [(1, pgenOrder [])], pass [ppoints 1 [10, 20, 30]] [(2, simOrder [0, 1])], pass [value 2 [0] [7]] [], pass [] []]

/-- Shutdown of a run with a persistent generator: it is sent a stop and answers. -/
example : (persDemo.loop persIts).2 = .stopped 1 ∧ (view 1 (persDemo.loop persIts).1.tr).persis = 2 ∧
    (persDemo.run persIts (fun _ => 0) [⟨[pfinish 1], 0⟩]).2 = .returned 0 ∧
    (persDemo.run persIts (fun _ => 0) []).2 = .waiting ∧
    ((persDemo.run persIts (fun _ => 0) [⟨[pfinish 1], 0⟩]).1.tr.filter (isPersisStop 1)).length = 1 := by decide +kernel

/-- A persistent generator is started with a row that does not exist: the order is sent before the error, and the
shutdown does not tell that worker to leave its persistent function. -/
theorem C17_missed_witness : ∃ (c : Start) (its : List Iter) (pre : List Ev), 1 ∈ c.workers ∧
    (c.run its (fun _ => 0) []).2 = .raised .index ∧ pre = (c.loop its).1.tr ∧ (view 1 pre).persis = EVAL_GEN ∧
    (c.run its (fun _ => 0) []).1.tr.all (fun e => !isPersisStop 1 e) = true := by
  refine ⟨persDemo, [pass [] [(1, pgenOrder [7])]], _, ?_, ?_, rfl, ?_, ?_⟩ <;> decide +kernel

/-- With `final_gen_send` the shutdown fails if the persistent generator is in active-receive mode: the last order
is refused (manager.py:369-372), no stop and no finish signal is sent, and the error leaves `Manager.run`. -/
theorem C17_final_send_witness : ∃ (c : Start) (its : List Iter), c.sp.finalGenSend = true ∧ (c.loop its).2 = .flagged ∧
    (c.run its (fun _ => 0) []).2 = .raisedFinal .recvOrder ∧
    (c.run its (fun _ => 0) []).1.tr.all (fun | .stop _ => false | e => !isPersisStop 1 e) = true := by
  refine ⟨{ persDemo with sp := { finalGenSend := true }, persisIn := [.user 1] },
    [pass [] [(1, { pgenOrder [] with activeRecv := some true })],
     { e1 := 0, mail := [], alloc := fun _ => .ok [] [] true {}, t := fun _ => 4, e2 := 0 }], rfl, ?_, ?_, ?_⟩ <;> decide +kernel

/-! ## C19 (manager side) -/

/-- The place in the program of a run whose main loop has ended cleanly or is going on. -/
theorem clean_reach (c : Start) (its : List Iter) (t : Nat → Int) (rounds : List Round)
    (hc : (c.loop its).2.clean = true) (hnr : ∀ e, (c.run its t rounds).2 ≠ .raisedFinal e) :
    ∃ p, p.clean = true ∧ Reach c.sp (fun _ _ => True) c.st p (c.run its t rounds).1 := by
  have hl := loop_reach c its
  simp only [Start.run, Manager.run, Start.loop] at *
  generalize mainLoop c.sp its c.st = y at hl hc hnr
  obtain ⟨s, e⟩ := y
  simp only at hl hc
  cases e with
  | running => exact ⟨.loop, rfl, hl.1 rfl⟩
  | stopped r =>
    have hf := finalPhase_reach s t rounds (hl.2 (by simp))
    simp only at hnr ⊢
    generalize finalPhase c.sp (emit s .final) t rounds = z at hf hnr
    obtain ⟨s2, g⟩ := z
    cases g with
    | done f => exact ⟨_, by exact hc, hf⟩
    | waiting => exact ⟨_, by exact hc, hf⟩
    | raised x => exact absurd rfl (hnr x)
  | flagged =>
    have hf := finalPhase_reach s t rounds (hl.2 (by simp))
    simp only at hnr ⊢
    generalize finalPhase c.sp (emit s .final) t rounds = z at hf hnr
    obtain ⟨s2, g⟩ := z
    cases g with
    | done f => exact ⟨_, by exact hc, hf⟩
    | waiting => exact ⟨_, by exact hc, hf⟩
    | raised x => exact absurd rfl (hnr x)
  | raised x0 =>
    have hf := finalPhase_reach s t rounds (hl.2 (by simp))
    simp only at hnr ⊢
    generalize finalPhase c.sp (emit s .final) t rounds = z at hf hnr
    obtain ⟨s2, g⟩ := z
    cases g with
    | done f => exact ⟨_, by exact hc, hf⟩
    | waiting => exact ⟨_, by exact hc, hf⟩
    | raised x => exact absurd rfl (hnr x)

/-- As long as the main loop has not ended with an error of the kind of `C17_missed_witness`, the manager's table
records a worker as busy exactly when an order sent to it has not been answered, as persistent exactly when
the messages say so, and in active-receive mode exactly when it has been put there. -/
theorem C19_table_exact (c : Start) (its : List Iter) (t : Nat → Int) (rounds : List Round)
    (hc : (c.loop its).2.clean = true) (hnr : ∀ e, (c.run its t rounds).2 ≠ .raisedFinal e) (k : Nat) (x : Wrk)
    (hx : (c.run its t rounds).1.W[k]? = some x) :
    x.id = idAt c.sp k ∧ (x.active ≠ 0 ↔ (view x.id (c.run its t rounds).1.tr).busy = true) ∧
    x.persis = (view x.id (c.run its t rounds).1.tr).persis ∧ x.activeRecv = (view x.id (c.run its t rounds).1.tr).recv := by
  obtain ⟨p, hp, hr⟩ := clean_reach c its t rounds hc hnr
  obtain ⟨hv, _⟩ := hr.vi start_vi rfl rfl hp
  have hid := id_at hv.tab hx
  have ha := hv.agree k x hx
  rw [hid]
  refine ⟨rfl, ?_, ha.persis.symm, ha.recv.symm⟩
  rw [ha.busy]; simp

/-- In the persistent demo run the view changes with the messages. -/
example : ((persDemo.loop (persIts.take 1)).1.W.map (·.active)) = [2, 0, 0] ∧
    ((persDemo.loop (persIts.take 2)).1.W.map (·.active)) = [0, 1, 0] ∧
    ((persDemo.run persIts (fun _ => 0) []).1.W.map (·.active)) = [2, 0, 0] := by decide +kernel

end Verif.Manager
