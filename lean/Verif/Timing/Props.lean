import Verif.Timing.Model

/-!
# C83 — the times of a task are those of the process that was waited for
-/

namespace Verif.Timing

/-! ### Specification -/

/-- When the end of the process was noticed, or the task had been killed. -/
def firstEnd : List Act → Option Int
  | [] => none
  | .poll now (some _) :: _ => some now
  | .poll _ none :: as => firstEnd as
  | .kill now (some _) _ :: _ => some now
  | .kill _ none after :: _ => some after

/-- The time of the last poll. -/
def lastPoll : List Act → Option Int
  | [] => none
  | .poll now _ :: as => (lastPoll as).or (some now)
  | .kill now _ _ :: as => (lastPoll as).or (some now)

/-- The task runs since `b`; `c`: what its timer has counted before. -/
structure Running (b c : Int) (t : Task) : Prop where
  submit : t.submit = some b
  total : t.total = none
  finished : t.finished = false
  timing : t.timer.timing = true
  tstart : t.timer.tstart = b
  tcum : t.timer.tcum = c

/-- The task ran from `b` to `e`. -/
structure Done (b e c : Int) (t : Task) : Prop where
  submit : t.submit = some b
  total : t.total = some (e - b)
  finished : t.finished = true
  runtime : t.runtime = e - b
  timing : t.timer.timing = false
  tstart : t.timer.tstart = b
  tend : t.timer.tend = e
  tcum : t.timer.tcum = c + (e - b)

/-! ### A task after its submission -/

theorem poll_done {b e c : Int} {t : Task} (h : Done b e c t) (now : Int) (x : Option Int) : t.poll now x = t := by
  simp [Task.poll, h.finished]

theorem act_done {b e c : Int} {t : Task} (h : Done b e c t) (a : Act) : t.act a = t := by
  cases a with
  | poll now x => exact poll_done h now x
  | kill now x after => simp [Task.act, Task.kill, poll_done h, h.finished]

theorem acts_done {b e c : Int} {t : Task} (h : Done b e c t) (as : List Act) : as.foldl Task.act t = t := by
  induction as with
  | nil => rfl
  | cons a as ih => rw [List.foldl_cons, act_done h, ih]

theorem poll_ended {b c : Int} {t : Task} (h : Running b c t) (now code : Int) : Done b now c (t.poll now (some code)) := by
  obtain ⟨h1, h2, h3, h4, h5, h6⟩ := h
  constructor <;> simp [Task.poll, Task.calcTiming, Timer.stop, Timer.elapsed, h1, h2, h3, h5, h6]

theorem poll_runs {b c : Int} {t : Task} (h : Running b c t) (now : Int) : Running b c (t.poll now none) ∧ (t.poll now none).runtime = now - b := by
  obtain ⟨h1, h2, h3, h4, h5, h6⟩ := h
  refine ⟨?_, by simp [Task.poll, Timer.elapsed, h3, h4, h5]⟩
  constructor <;> simp [Task.poll, h1, h2, h3, h4, h5, h6]

theorem kill_done {b c : Int} {t : Task} (h : Running b c t) (now after : Int) : Done b after c (t.kill now none after) := by
  obtain ⟨h1, h2, h3, h4, h5, h6⟩ := h
  constructor <;> simp [Task.kill, Task.poll, Task.calcTiming, Timer.stop, Timer.elapsed, h1, h2, h3, h5, h6]

/-- **C83**: whatever is done with a running task: once its end is noticed its runtime and total time are the time from its start to then, and stay so; until
then it has no total time, and its runtime is that of the last poll. -/
theorem C83_runtime {b c : Int} (as : List Act) : ∀ {t : Task}, Running b c t →
    (∀ e, firstEnd as = some e → Done b e c (as.foldl Task.act t)) ∧
    (firstEnd as = none → Running b c (as.foldl Task.act t) ∧
      (as.foldl Task.act t).runtime = ((lastPoll as).map (· - b)).getD t.runtime) := by
  induction as with
  | nil => intro t h; exact ⟨fun e he => (by cases he), fun _ => ⟨h, rfl⟩⟩
  | cons a as ih =>
    intro t h
    rw [List.foldl_cons]
    cases a with
    | poll now x =>
      cases x with
      | none =>
        have hp := poll_runs h now
        obtain ⟨h1, h2⟩ := ih hp.1
        refine ⟨h1, fun hn => ⟨(h2 hn).1, ?_⟩⟩
        have := (h2 hn).2
        simp only [Task.act, lastPoll] at this ⊢
        rw [this, hp.2]
        cases lastPoll as <;> rfl
      | some code =>
        have hd := poll_ended h now code
        refine ⟨fun e he => ?_, fun hn => (by cases hn)⟩
        cases he
        simp only [Task.act]
        rw [acts_done hd]
        exact hd
    | kill now x after =>
      cases x with
      | none =>
        have hd := kill_done h now after
        refine ⟨fun e he => ?_, fun hn => (by cases hn)⟩
        cases he
        simp only [Task.act]
        rw [acts_done hd]
        exact hd
      | some code =>
        have hd := poll_ended h now code
        refine ⟨fun e he => ?_, fun hn => (by cases hn)⟩
        cases he
        have hk : t.kill now (some code) after = t.poll now (some code) := by simp [Task.kill, hd.finished]
        simp only [Task.act, hk]
        rw [acts_done hd]
        exact hd

/-- What libE_stats.txt shows for a task is its total time and what its timer had counted before. -/
theorem C83_stats {b e c : Int} {t : Task} (h : Done b e c t) (now : Int) : t.timer.total now = c + t.total.getD 0 := by
  simp [Timer.total, h.timing, h.tcum, h.total]

/-- While the task runs: the time since its start. -/
theorem C83_stats_running {b c : Int} {t : Task} (h : Running b c t) (now : Int) : t.timer.total now = c + (now - b) := by
  simp [Timer.total, Timer.elapsed, h.timing, h.tcum, h.tstart]

/-! ### The submission -/

/-- A task before an attempt; `c`: what its timer has counted. -/
structure Fresh (c : Int) (t : Task) : Prop where
  submit : t.submit = none
  total : t.total = none
  finished : t.finished = false
  timing : t.timer.timing = false
  tcum : t.timer.tcum = c

/-- The time from which the process is timed with `wait_on_start`. -/
def Try.begin (r : Try) : Int := if r.e1.isSome then r.t0 else r.t2

/-- When it was noticed that it had ended. -/
def Try.stop (r : Try) : Option Int := if r.e1.isSome then some r.t1 else firstEnd (r.polls.map fun p => Act.poll p.1 p.2)

theorem foldl_polls (ps : List (Int × Option Int)) (t : Task) :
    ps.foldl (fun t p => t.poll p.1 p.2) t = (ps.map fun p => Act.poll p.1 p.2).foldl Task.act t := by
  rw [List.foldl_map]; rfl

theorem start_running {c : Int} {t : Task} (h1 : t.total = none) (h2 : t.finished = false) (h3 : t.timer.tcum = c) (now : Int) :
    Running now c (t.start now) := ⟨rfl, h1, h2, rfl, rfl, h3⟩

/-- One attempt with `wait_on_start`. -/
theorem C83_attempt {c : Int} {t : Task} (h : Fresh c t) (r : Try) :
    (∀ e, r.stop = some e → Done r.begin e c (t.attempt true (.starts r))) ∧ (r.stop = none → Running r.begin c (t.attempt true (.starts r))) := by
  have hs := start_running h.total h.finished h.tcum r.t0
  simp only [Task.attempt, Task.waitOnStart, if_true]
  unfold Try.stop Try.begin
  cases he : r.e1 with
  | some code =>
    have hd := poll_ended hs r.t1 code
    simp only [hd.finished, if_true, Option.isSome_some]
    refine ⟨fun e h => ?_, fun h => (by cases h)⟩
    cases h
    rw [foldl_polls, acts_done hd]
    exact hd
  | none =>
    have hp := (poll_runs hs r.t1).1
    simp only [hp.finished, Option.isSome_none, Bool.false_eq_true, if_false]
    have hs2 := start_running hp.total hp.finished hp.tcum r.t2
    obtain ⟨h1, h2⟩ := C83_runtime (r.polls.map fun p => Act.poll p.1 p.2) hs2
    rw [foldl_polls]
    exact ⟨h1, fun hn => (h2 hn).1⟩

/-- The times counted in attempts that were not the last. -/
def counted : List Attempt → Int
  | [] => 0
  | .fails :: as => counted as
  | .starts r :: as => (r.stop.map (· - r.begin)).getD 0 + counted as

/-- A task that has not ended has not failed. -/
def Ok (t : Task) : Prop := t.finished = false → t.failed = false

theorem ok_poll {t : Task} (h : Ok t) (now : Int) (x : Option Int) : Ok (t.poll now x) := by
  unfold Task.poll
  split
  · exact h
  · cases x with
    | none => exact h
    | some code =>
      intro hf
      simp only [Task.calcTiming] at hf
      split at hf <;> simp at hf

theorem ok_polls (ps : List (Int × Option Int)) : ∀ {t : Task}, Ok t → Ok (ps.foldl (fun t p => t.poll p.1 p.2) t) := by
  induction ps with
  | nil => intro t h; exact h
  | cons p ps ih => intro t h; exact ih (ok_poll h p.1 p.2)

theorem ok_wait {t : Task} (h : Ok t) (r : Try) : Ok (t.waitOnStart r) := by
  have h1 : Ok ((t.start r.t0).poll r.t1 r.e1) := ok_poll (t := t.start r.t0) h _ _
  unfold Task.waitOnStart
  dsimp only
  split
  · exact ok_polls _ h1
  · exact ok_polls _ (t := ((t.start r.t0).poll r.t1 r.e1).start r.t2) h1

theorem launch_spec (left : Nat) : ∀ (as : List Attempt) {c : Int} {t : Task}, Fresh c t → t.failed = false → left ≠ 0 → left ≤ as.length →
    (launch true t left as).2 ≠ 0 ∧ ∀ r : Try, as[(launch true t left as).2 - 1]? = some (.starts r) →
    (∀ e, r.stop = some e → Done r.begin e (c + counted (as.take ((launch true t left as).2 - 1))) (launch true t left as).1) ∧
    (r.stop = none → Running r.begin (c + counted (as.take ((launch true t left as).2 - 1))) (launch true t left as).1) := by
  induction left with
  | zero => intro as c t _ _ h0; exact absurd rfl h0
  | succ left ih =>
    intro as c t h hf _ hl
    cases as with
    | nil => simp at hl
    | cons a as =>
      simp only [launch]
      split
      next hc =>
        dsimp only
        have key : ∃ c', Fresh c' (t.attempt true a).reset ∧ ∀ l, c' + counted l = c + counted (a :: l) := by
          cases a with
          | fails => exact ⟨c, ⟨rfl, rfl, rfl, h.timing, h.tcum⟩, fun l => rfl⟩
          | starts r' =>
            obtain ⟨h1, h2⟩ := C83_attempt h r'
            cases hst : r'.stop with
            | none =>
              have hok := ok_wait (t := t) (fun _ => hf) r'
              have := hok (h2 hst).finished
              have hr := hc.1
              simp only [Task.retry, Task.attempt, if_true, this] at hr
              cases hr
            | some e =>
              have hd := h1 e hst
              refine ⟨c + (e - r'.begin), ⟨rfl, rfl, rfl, hd.timing, hd.tcum⟩, fun l => ?_⟩
              simp only [counted, hst, Option.map_some, Option.getD_some]
              omega
        obtain ⟨c', hfr, hcc⟩ := key
        obtain ⟨hn, hih⟩ := ih as hfr rfl hc.2 (by simpa using hl)
        refine ⟨by omega, fun r hr => ?_⟩
        obtain ⟨n, hn'⟩ : ∃ n, (launch true (t.attempt true a).reset left as).2 = n + 1 := ⟨_, (Nat.succ_pred_eq_of_pos (Nat.pos_of_ne_zero hn)).symm⟩
        rw [hn'] at hih hr ⊢
        simp only [Nat.add_sub_cancel, List.getElem?_cons_succ, List.take_succ_cons] at hih hr ⊢
        rw [← hcc]
        exact hih r hr
      next hc =>
        refine ⟨by simp, fun r hr => ?_⟩
        simp at hr
        subst hr
        simpa [counted] using C83_attempt h r

theorem launch_pos (left : Nat) (as : List Attempt) {t : Task} (h0 : left ≠ 0) (hl : left ≤ as.length) : (launch true t left as).2 ≠ 0 := by
  cases left with
  | zero => exact absurd rfl h0
  | succ left =>
    cases as with
    | nil => simp at hl
    | cons a as => simp only [launch]; split <;> simp

/-- The code with which the process was seen to end. -/
def firstCode : List (Int × Option Int) → Option Int
  | [] => none
  | (_, some c) :: _ => some c
  | (_, none) :: ps => firstCode ps

def Try.code (r : Try) : Option Int := r.e1.or (firstCode r.polls)

/-- The attempt was in vain: nothing was started, or the process was seen to end with a code other than 0. -/
def Attempt.Bad : Attempt → Prop
  | .fails => True
  | .starts r => ∃ c, r.code = some c ∧ c ≠ 0

theorem polls_finished (ps : List (Int × Option Int)) {t : Task} (h : t.finished = true) : ps.foldl (fun t p => t.poll p.1 p.2) t = t := by
  induction ps with
  | nil => rfl
  | cons p ps ih =>
    rw [List.foldl_cons]
    have : t.poll p.1 p.2 = t := by simp [Task.poll, h]
    rw [this, ih]

theorem poll_code {t : Task} (h : t.finished = false) (now c : Int) : (t.poll now (some c)).finished = true ∧ ((t.poll now (some c)).failed = true ↔ c ≠ 0) := by
  unfold Task.poll Task.calcTiming
  rw [h]
  simp only [Bool.false_eq_true, if_false]
  refine ⟨?_, by simp⟩
  split <;> rfl

theorem polls_failed (ps : List (Int × Option Int)) : ∀ {t : Task}, t.finished = false → t.failed = false →
    ((ps.foldl (fun t p => t.poll p.1 p.2) t).failed = true ↔ ∃ c, firstCode ps = some c ∧ c ≠ 0) := by
  induction ps with
  | nil => intro t _ h; simp [firstCode, h]
  | cons p ps ih =>
    intro t h1 h2
    obtain ⟨now, x⟩ := p
    rw [List.foldl_cons]
    cases x with
    | none => exact ih (by simp [Task.poll, h1]) (by simp [Task.poll, h1, h2])
    | some c =>
      obtain ⟨h3, h4⟩ := poll_code h1 now c
      dsimp only
      rw [polls_finished ps h3, h4]
      simp [firstCode]

theorem attempt_bad {t : Task} (h1 : t.finished = false) (h2 : t.failed = false) (a : Attempt) : (t.attempt true a).retry a = true ↔ a.Bad := by
  cases a with
  | fails => simp [Task.retry, Attempt.Bad]
  | starts r =>
    simp only [Task.retry, Task.attempt, if_true, Attempt.Bad, Task.waitOnStart, Try.code]
    cases he : r.e1 with
    | some c =>
      obtain ⟨h3, h4⟩ := poll_code (t := t.start r.t0) h1 r.t1 c
      rw [if_pos h3, polls_finished _ h3, h4]
      simp
    | none =>
      have h3 : ((t.start r.t0).poll r.t1 none).finished = false := by simp [Task.poll, Task.start, h1]
      have h4 : ((t.start r.t0).poll r.t1 none).failed = false := by simp [Task.poll, Task.start, h1, h2]
      rw [if_neg (by simp [h3])]
      rw [polls_failed r.polls (t := ((t.start r.t0).poll r.t1 none).start r.t2) h3 h4]
      simp

theorem launch_last (left : Nat) : ∀ (as : List Attempt) {t : Task}, t.finished = false → t.failed = false → left ≠ 0 → left ≤ as.length →
    (∀ (m : Nat) a, m < (launch true t left as).2 - 1 → as[m]? = some a → a.Bad) ∧
    ((launch true t left as).2 < left → ∀ a, as[(launch true t left as).2 - 1]? = some a → ¬ a.Bad) := by
  induction left with
  | zero => intro as t _ _ h0; exact absurd rfl h0
  | succ left ih =>
    intro as t h1 h2 _ hl
    cases as with
    | nil => simp at hl
    | cons a as =>
      simp only [launch]
      split
      next hc =>
        dsimp only
        have hb := (attempt_bad h1 h2 a).1 hc.1
        obtain ⟨h3, h4⟩ := ih as (t := (t.attempt true a).reset) rfl rfl hc.2 (by simpa using hl)
        have hn := (launch_pos left as (t := (t.attempt true a).reset) hc.2 (by simpa using hl))
        obtain ⟨n, hn'⟩ : ∃ n, (launch true (t.attempt true a).reset left as).2 = n + 1 := ⟨_, (Nat.succ_pred_eq_of_pos (Nat.pos_of_ne_zero hn)).symm⟩
        rw [hn'] at h3 h4 ⊢
        refine ⟨fun m x hm hx => ?_, fun hlt x hx => ?_⟩
        · cases m with
          | zero => simp at hx; subst hx; exact hb
          | succ m => exact h3 m x (by omega) (by simpa using hx)
        · exact h4 (by omega) x (by simpa using hx)
      next hc =>
        refine ⟨fun m x hm _ => absurd hm (by simp), fun hlt x hx hb => hc ⟨?_, by simp at hlt; omega⟩⟩
        simp at hx
        subst hx
        exact (attempt_bad h1 h2 a).2 hb

theorem lateStart_done {b e c : Int} {t : Task} (h : Done b e c t) (now : Int) : t.lateStart now = t := by simp [Task.lateStart, h.finished]

theorem lateStart_running {b c : Int} {t : Task} (h : Running b c t) (now : Int) : t.lateStart now = t := by simp [Task.lateStart, h.timing]

/-- **C83**, `submit` with `wait_on_start`: attempts are made until one is not in vain, or there were `max` of them; the task is timed from the start of the last; its total time is set if and only if that process was
seen to end, and is then the time of that attempt alone; the timer of the task has counted the earlier attempts as well. -/
theorem C83_submit (max : Nat) (hmax : max ≠ 0) (as : List Attempt) (hl : max ≤ as.length) (now : Int) :
    ∃ n r, n < max ∧ as[n]? = some r ∧ (∀ (m : Nat) a, m < n → as[m]? = some a → a.Bad) ∧ (n + 1 < max → ¬ r.Bad) ∧ ∀ tr, r = .starts tr →
      (∀ e, tr.stop = some e → Done tr.begin e (counted (as.take n)) (submit true max as now)) ∧
      (tr.stop = none → Running tr.begin (counted (as.take n)) (submit true max as now)) := by
  obtain ⟨h0, h1⟩ := launch_spec max as (c := 0) (t := {}) ⟨rfl, rfl, rfl, rfl, rfl⟩ rfl hmax hl
  have hle : ∀ (left : Nat) (t : Task) (as : List Attempt), (launch true t left as).2 ≤ left := by
    intro left
    induction left with
    | zero => intro t as; simp [launch]
    | succ left ih =>
      intro t as
      cases as with
      | nil => simp [launch]
      | cons a as =>
        simp only [launch]
        split
        · have := ih (t.attempt true a).reset as; dsimp only; omega
        · simp
  have hle' := hle max {} as
  have hlt : (launch true {} max as).2 - 1 < as.length := by omega
  obtain ⟨h4, h5⟩ := launch_last max as (t := {}) rfl rfl hmax hl
  refine ⟨_, _, by omega, List.getElem?_eq_getElem hlt, h4, fun hm => h5 (by omega) _ (List.getElem?_eq_getElem hlt), fun tr htr => ?_⟩
  obtain ⟨h2, h3⟩ := h1 tr (by rw [List.getElem?_eq_getElem hlt, htr])
  rw [Int.zero_add] at h2 h3
  unfold submit
  refine ⟨fun e he => ?_, fun he => ?_⟩
  · rw [lateStart_done (h2 e he)]; exact h2 e he
  · rw [lateStart_running (h3 he)]; exact h3 he

/-- In one attempt, what libE_stats.txt shows is the total time. -/
theorem C83_stats_partial (as : List Attempt) (r : Try) (now now' e : Int) (he : r.stop = some e) :
    (submit true 1 (.starts r :: as) now).total = some (e - r.begin) ∧ (submit true 1 (.starts r :: as) now).timer.total now' = e - r.begin := by
  obtain ⟨n, x, hn, hx, _, _, h⟩ := C83_submit 1 (by decide) (.starts r :: as) (by simp) now
  have : n = 0 := by omega
  subst this
  simp at hx
  subst hx
  have hd := (h r rfl).1 e he
  refine ⟨hd.total, ?_⟩
  rw [C83_stats hd, hd.total]
  simp [counted]

/-- With a retry it is not: a process that failed after 7, and one that ended after 5. -/
theorem C83_stats_witness :
    let t := submit true 2 [.starts { t0 := 0, t1 := 7, e1 := some 1 }, .starts { t0 := 20, t1 := 25, e1 := some 0 }] 30
    t.total = some 5 ∧ t.runtime = 5 ∧ t.timer.total 40 = 12 := by decide

/-- **C83**, `submit` without `wait_on_start`: a task not yet seen to end is timed from the end of `submit`. -/
theorem C83_no_wait (ps : List (Int × Option Int)) (as : List Attempt) (now : Int) (h : ∀ p ∈ ps, p.2 = none) :
    Running now 0 (submit false 1 (.starts { polls := ps } :: as) now) := by
  have h1 : ∀ (ps : List (Int × Option Int)) (t : Task), (∀ p ∈ ps, p.2 = none) → Fresh 0 t → Fresh 0 (ps.foldl (fun t p => t.poll p.1 p.2) t) := by
    intro ps
    induction ps with
    | nil => intro t _ ht; exact ht
    | cons p ps ih =>
      intro t hp ht
      refine ih _ (fun q hq => hp q (by simp [hq])) ?_
      dsimp only
      rw [hp p (by simp)]
      obtain ⟨a1, a2, a3, a4, a5⟩ := ht
      constructor <;> simp [Task.poll, a1, a2, a3, a4, a5]
  have hf := h1 ps {} h ⟨rfl, rfl, rfl, rfl, rfl⟩
  unfold submit
  have hl : (launch false {} 1 (.starts { polls := ps } :: as)).1 = ps.foldl (fun t p => t.poll p.1 p.2) {} := by
    simp [launch, Task.attempt]
  rw [hl]
  unfold Task.lateStart
  rw [hf.timing, hf.finished]
  exact start_running hf.total hf.finished hf.tcum now

/-- A process that has ended by the poll in `submit` is never timed: runtime 0, no total time, 0 in libE_stats.txt, whatever is done later. -/
theorem C83_untimed_witness (t1 code : Int) (ps : List (Int × Option Int)) (as : List Attempt) (now now' : Int) (acts : List Act) :
    let t := acts.foldl Task.act (submit false 1 (.starts { polls := (t1, some code) :: ps } :: as) now)
    t.finished = true ∧ t.runtime = 0 ∧ t.total = none ∧ t.submit = none ∧ t.timer.total now' = 0 := by
  have h1 : ∀ (t : Task), t.finished = true → ∀ acts : List Act, acts.foldl Task.act t = t := by
    intro t ht acts
    induction acts with
    | nil => rfl
    | cons a acts ih =>
      rw [List.foldl_cons]
      have : t.act a = t := by
        cases a with
        | poll now x => simp [Task.act, Task.poll, ht]
        | kill now x after => simp [Task.act, Task.kill, Task.poll, ht]
      rw [this, ih]
  have h2 : submit false 1 (.starts { polls := (t1, some code) :: ps } :: as) now = ({ finished := true, failed := code != 0 } : Task) := by
    simp only [submit, launch, Task.attempt, List.foldl_cons, foldl_polls, Bool.false_eq_true, if_false]
    have h3 : (({} : Task).poll t1 (some code)) = ({ finished := true, failed := code != 0 } : Task) := rfl
    rw [h3, h1 _ rfl]
    simp [Task.lateStart]
  intro t
  have : t = ({ finished := true, failed := code != 0 } : Task) := by
    show acts.foldl Task.act _ = _
    rw [h2, h1 _ rfl]
  rw [this]
  exact ⟨rfl, rfl, rfl, rfl, rfl⟩

/-! ### Timers -/

/-- Started and stopped in turn, a timer counts the sum of the intervals. -/
theorem C83_timer_with (ts : List (Int × Int)) : ∀ t : Timer, (ts.foldl (fun t p => (t.start p.1).stop p.2) t).tcum = t.tcum + (ts.map fun p => p.2 - p.1).sum := by
  induction ts with
  | nil => intro t; simp
  | cons p ts ih => intro t; rw [List.foldl_cons, ih]; simp [Timer.start, Timer.stop]; omega

/-- A timer that was stopped shows the same times whenever it is read: the last interval and the sum. -/
theorem C83_timer_stopped (t : Timer) (e now : Int) : (t.stop e).elapsed now = e - t.tstart ∧ (t.stop e).total now = t.tcum + (e - t.tstart) := ⟨rfl, rfl⟩

/-- `calc_task_timing` a second time changes nothing. -/
theorem C83_once (t : Task) (a b : Int) : (t.calcTiming a).calcTiming b = t.calcTiming a := by
  cases h1 : t.submit <;> cases h2 : t.total <;> simp [Task.calcTiming, h1, h2]

/-! ### The lines of libE_stats.txt -/

/-- The tasks submitted before a line is written. -/
def submitted {T : Type} : List (Step T) → List T
  | [] => []
  | .submit t :: ss => t :: submitted ss
  | .line :: ss => submitted ss

theorem run_once {T : Type} (ss : List (Step T)) : ∀ e : Executor T, e.lastTask ≤ e.tasks.length →
    ((Executor.run ss e).1.flatten.map (·.2)) ++ (Executor.run ss e).2.tasks.drop (Executor.run ss e).2.lastTask = e.tasks.drop e.lastTask ++ submitted ss ∧
    ∀ l ∈ (Executor.run ss e).1, l.map (·.1) = List.range l.length := by
  induction ss with
  | nil => intro e _; simp [Executor.run, submitted]
  | cons s ss ih =>
    intro e he
    cases s with
    | submit t =>
      obtain ⟨h1, h2⟩ := ih { e with tasks := e.tasks ++ [t] } (by simp; omega)
      refine ⟨?_, h2⟩
      simp only [Executor.run, submitted]
      rw [h1]
      simp [List.drop_append_of_le_length he]
    | line =>
      obtain ⟨h1, h2⟩ := ih e.timing.2 (by simp [Executor.timing]; omega)
      simp only [Executor.run, submitted]
      refine ⟨?_, fun l hl => ?_⟩
      · rw [List.flatten_cons, List.map_append, List.append_assoc, h1]
        have h3 : e.timing.2.tasks.drop e.timing.2.lastTask = [] := by
          simp only [Executor.timing]
          apply List.drop_eq_nil_of_le
          simp; omega
        rw [h3, List.nil_append]
        congr 1
        simp only [Executor.timing, List.map_map]
        have : ((fun p : Nat × T => p.2) ∘ fun p : T × Nat => (p.2, p.1)) = Prod.fst := rfl
        rw [this, List.zipIdx_map_fst]
      · rcases List.mem_cons.1 hl with rfl | hl
        · simp only [Executor.timing, List.map_map]
          have : ((fun p : Nat × T => p.1) ∘ fun p : T × Nat => (p.2, p.1)) = Prod.snd := rfl
          rw [this, List.zipIdx_map_snd]
          simp [List.range_eq_range']
        · exact h2 l hl

/-- **C83**, lines: every task submitted is in exactly one line — the next one written —, in order, the tasks of each line numbered from 0. -/
theorem C83_lines {T : Type} (ss : List (Step T)) :
    ((Executor.run (ss ++ [.line]) {}).1.flatten.map (·.2)) = submitted ss ∧
    ∀ l ∈ (Executor.run (ss ++ [.line]) {}).1, l.map (·.1) = List.range l.length := by
  obtain ⟨h1, h2⟩ := run_once (ss ++ [.line]) ({} : Executor T) (by simp)
  refine ⟨?_, h2⟩
  have hsub : ∀ ss : List (Step T), submitted (ss ++ [.line]) = submitted ss := by
    intro ss
    induction ss with
    | nil => rfl
    | cons s ss ih => cases s <;> simp [submitted, ih]
  have hlast : ∀ (ss : List (Step T)) (e : Executor T), e.lastTask ≤ e.tasks.length →
      (Executor.run (ss ++ [.line]) e).2.tasks.drop (Executor.run (ss ++ [.line]) e).2.lastTask = [] := by
    intro ss
    induction ss with
    | nil =>
      intro e he
      simp only [List.nil_append, Executor.run, Executor.timing]
      apply List.drop_eq_nil_of_le
      simp; omega
    | cons s ss ih =>
      intro e he
      cases s with
      | submit t => exact ih _ (by simp; omega)
      | line => exact ih _ (by simp [Executor.timing]; omega)
  rw [hlast ss {} (by simp), hsub] at h1
  simpa using h1

/-- A task that is polled twice and killed. -/
example : ([Act.poll 12 none, .poll 15 none, .kill 18 none 20, .poll 30 (some 0)].foldl Task.act (submit false 1 [.starts { polls := [(9, none)] }] 10)).total = some 10 := by
  decide
example : Running 10 0 (submit false 1 [.starts { polls := [(9, none)] }] 10) := C83_no_wait _ _ _ (by simp)
example : (Executor.run [.submit 'a', .submit 'b', .line, .line, .submit 'c', .line] {}).1 = [[(0, 'a'), (1, 'b')], [], [(0, 'c')]] := by decide

end Verif.Timing
