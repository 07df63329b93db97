import Verif.Exec.Model
/-
C39: tasks; C41: the polling loop; C51: launching with retries.
-/
namespace Verif.Exec

/-! ### Specification -/

/-- Tasks as `submit` returns them: a serial process (executor.py:705-810), a dry run of either executor, an MPI task after
launching (mpi_executor.py:370-388). -/
inductive Submitted : Task → Prop
  | serial (p : Proc) : Submitted { proc := some p }
  | dry : Submitted { dryRun := true }
  | mpiDry (el : Nat) : Submitted (({ dryRun := true } : Task).setComplete 0 el)
  | mpi (max : Nat) (as : List Attempt) : Submitted (launch {} max as).1

/-- A task after any calls and any behaviour of its process. -/
def Reachable (t : Task) : Prop := ∃ t0 as, Submitted t0 ∧ t = t0.acts as

/-- executor.py:51-56. -/
def State.isEnd : State → Bool
  | .finished | .userKilled | .failed | .failedToStart => true
  | _ => false

/-! ### Invariant -/

def Inv (t : Task) : Prop :=
  (t.finished = t.state.isEnd) ∧
  (t.dryRun = true → (t.state = .created ∨ t.state = .finished) ∧ t.errcode = none ∧ t.success = t.finished) ∧
  (t.dryRun = false →
    (t.success = true ↔ t.state = .finished) ∧ (t.state = .finished ↔ t.errcode = some 0) ∧
    (t.state = .failed ↔ ∃ c, t.errcode = some c ∧ c ≠ 0) ∧
    (∀ c, t.errcode = some c → ∃ p, t.proc = some p ∧ p.ended = some c))

theorem inv_complete {t : Task} {p : Proc} {c : Int} (el : Nat) (hd : t.dryRun = false) (hp : t.proc = some p) (hc : p.ended = some c) :
    Inv (t.setComplete c el) := by
  unfold Task.setComplete
  rw [hd]
  refine ⟨?_, fun h => (by simp at h), fun _ => ⟨?_, ?_, ?_, ?_⟩⟩
  · by_cases h : c = 0 <;> simp [h, State.isEnd]
  · by_cases h : c = 0 <;> simp [h]
  · by_cases h : c = 0 <;> simp [h]
  · by_cases h : c = 0 <;> simp [h]
  · intro c' h; cases h; exact ⟨p, hp, hc⟩

theorem inv_dry {t : Task} (h : Inv t) (hd : t.dryRun = true) (el : Nat) : Inv (t.setComplete 0 el) := by
  unfold Task.setComplete
  rw [hd]
  refine ⟨rfl, fun _ => ⟨.inr rfl, (h.2.1 hd).2.1, rfl⟩, fun h' => ?_⟩
  simp at h'

theorem inv_running {t : Task} (h : Inv t) (hd : t.dryRun = false) (hf : t.finished = false) (el : Nat) :
    Inv { t with state := .running, runtime := el } := by
  obtain ⟨h1, _, h3⟩ := h
  obtain ⟨a, b, c, d⟩ := h3 hd
  have hne : t.state ≠ .finished := by intro e; rw [hf, e] at h1; cases h1
  have hnf : t.state ≠ .failed := by intro e; rw [hf, e] at h1; cases h1
  have hen : t.errcode = none := by
    cases he : t.errcode with
    | none => rfl
    | some x =>
      by_cases hx : x = 0
      · subst hx; exact absurd (b.mpr he) hne
      · exact absurd (c.mpr ⟨x, he, hx⟩) hnf
  refine ⟨hf, fun h => (by rw [hd] at h; cases h), fun _ => ⟨?_, ?_, ?_, d⟩⟩
  · simp only [reduceCtorEq, iff_false]; intro h; exact hne (a.mp h)
  · simp [hen]
  · simp [hen]

theorem inv_poll {t : Task} (h : Inv t) (el : Nat) : Inv (t.poll el).1 := by
  unfold Task.poll
  split
  · rename_i hd; exact inv_dry h hd el
  · rename_i hd
    have hd : t.dryRun = false := by simpa using hd
    split
    · exact h
    · rename_i p hp
      split
      · exact h
      · rename_i hf
        split
        · exact inv_running h hd (by simpa using hf) el
        · rename_i c hc; exact inv_complete el hd hp hc

theorem exit_ended {p : Proc} (h : p.ended = none) (c : Int) : (p.exit c).ended = some c := by
  unfold Proc.exit; rw [h]

theorem exit_some {p : Proc} {c0 : Int} (h : p.ended = some c0) (c : Int) : p.exit c = p := by
  unfold Proc.exit; rw [h]

theorem inv_wait {t : Task} (h : Inv t) (lim : Bool) (d : Option Int) (el : Nat) : Inv (t.wait lim d el).1 := by
  unfold Task.wait
  split
  · rename_i hd; exact inv_dry h hd el
  · rename_i hd
    have hd : t.dryRun = false := by simpa using hd
    split
    · exact h
    · rename_i p hp
      split
      · exact h
      · split
        · rename_i c _ hc; exact inv_complete el hd hp hc
        · rename_i c hc
          exact inv_complete (p := p.exit c) el hd rfl (exit_ended hc c)
        · exact h

theorem inv_killed {t : Task} (h : Inv t) (hd : t.dryRun = false) (hf : t.finished = false) (p : Proc) (el : Nat) :
    Inv { t with proc := some p, state := .userKilled, finished := true, runtime := el } := by
  obtain ⟨h1, _, h3⟩ := h
  obtain ⟨a, b, c, d⟩ := h3 hd
  have hne : t.state ≠ .finished := by intro e; rw [hf, e] at h1; cases h1
  have hnf : t.state ≠ .failed := by intro e; rw [hf, e] at h1; cases h1
  have hen : t.errcode = none := by
    cases he : t.errcode with
    | none => rfl
    | some x =>
      by_cases hx : x = 0
      · subst hx; exact absurd (b.mpr he) hne
      · exact absurd (c.mpr ⟨x, he, hx⟩) hnf
  refine ⟨rfl, fun h => (by rw [hd] at h; cases h), fun _ => ⟨?_, ?_, ?_, ?_⟩⟩
  · simp only [reduceCtorEq, iff_false]; intro h; exact hne (a.mp h)
  · simp [hen]
  · simp [hen]
  · intro c h; simp [hen] at h

theorem inv_kill {t : Task} (h : Inv t) (w : Option Nat) (d1 : Option Int) (d2 : Int) (el : Nat) : Inv (t.kill w d1 d2 el).1 := by
  unfold Task.kill
  have hp := inv_poll h el
  rcases hq : t.poll el with ⟨t', r⟩
  rw [hq] at hp
  cases r with
  | ok =>
    simp only
    split
    · exact hp
    · rename_i hd
      split
      · exact hp
      · rename_i hf
        split
        · exact hp
        · split
          · exact hp
          · exact inv_killed hp (by simpa using hd) (by simpa using hf) _ el
  | _ => exact hp

theorem inv_act {t : Task} (h : Inv t) (a : Act) : Inv (t.act a) := by
  cases a with
  | ends c =>
    obtain ⟨h1, h2, h3⟩ := h
    refine ⟨h1, h2, fun hd => ?_⟩
    obtain ⟨a, b, e, d⟩ := h3 hd
    refine ⟨a, b, e, fun c' hc' => ?_⟩
    obtain ⟨p, hp, hpe⟩ := d c' hc'
    refine ⟨p, ?_, hpe⟩
    show t.proc.map (·.exit c) = _
    rw [hp]; simp [exit_some hpe]
  | poll el => exact inv_poll h el
  | wait lim d el => exact inv_wait h lim d el
  | kill w d1 d2 el => exact inv_kill h w d1 d2 el

theorem inv_fresh : Inv {} := by
  refine ⟨rfl, fun h => (by cases h), fun _ => ⟨by simp, by simp, by simp, by simp⟩⟩

theorem attempt_dry (t : Task) (a : Attempt) : (t.attempt a).dryRun = t.dryRun := by
  cases a with
  | fails => rfl
  | starts e el =>
    simp only [Task.attempt, Task.poll]
    split
    · simp only [Task.setComplete]; split <;> rfl
    · split
      · rfl
      · cases e with
        | none => rfl
        | some c => simp only [Task.setComplete]; split <;> rfl

theorem inv_attempt (a : Attempt) : Inv (({} : Task).attempt a) := by
  cases a with
  | fails => exact ⟨rfl, fun h => (by cases h), fun _ => ⟨by simp [Task.attempt], by simp [Task.attempt], by simp [Task.attempt], by simp [Task.attempt]⟩⟩
  | starts e el =>
    apply inv_poll
    exact ⟨rfl, fun h => (by cases h), fun _ => ⟨by simp, by simp, by simp, by simp⟩⟩

theorem inv_launch (max : Nat) : ∀ (as : List Attempt), Inv (launch {} max as).1 := by
  induction max with
  | zero => intro as; exact inv_fresh
  | succ left ih =>
    intro as
    cases as with
    | nil => exact inv_fresh
    | cons a as =>
      simp only [launch]
      split
      · have : (({} : Task).attempt a).reset = {} := by simp [Task.reset, attempt_dry]
        rw [this]; exact ih as
      · exact inv_attempt a

theorem inv_submitted {t : Task} (h : Submitted t) : Inv t := by
  cases h with
  | serial p => exact ⟨rfl, fun h => (by cases h), fun _ => ⟨by simp, by simp, by simp, by simp⟩⟩
  | dry => exact ⟨rfl, fun _ => ⟨.inl rfl, rfl, rfl⟩, fun h => by cases h⟩
  | mpiDry el => exact ⟨rfl, fun _ => ⟨.inr rfl, rfl, rfl⟩, fun h => by cases h⟩
  | mpi max as => exact inv_launch max as

theorem inv_acts {t : Task} (h : Inv t) (as : List Act) : Inv (t.acts as) := by
  induction as generalizing t with
  | nil => exact h
  | cons a as ih => exact ih (inv_act h a)

theorem Reachable.inv {t : Task} (h : Reachable t) : Inv t := by
  obtain ⟨t0, as, h0, rfl⟩ := h
  exact inv_acts (inv_submitted h0) as

theorem act_finished {t : Task} (h : Inv t) (hf : t.finished = true) (a : Act) :
    (t.act a).state = t.state ∧ (t.act a).errcode = t.errcode ∧ (t.act a).success = t.success ∧ (t.act a).finished = true := by
  obtain ⟨h1, h2, _⟩ := h
  have dry : t.dryRun = true → ∀ c el, (t.setComplete c el).state = t.state ∧ (t.setComplete c el).errcode = t.errcode ∧
      (t.setComplete c el).success = t.success ∧ (t.setComplete c el).finished = true := by
    intro hd c el
    obtain ⟨hs, he, hsu⟩ := h2 hd
    rw [hf] at h1 hsu
    have hst : t.state = .finished := by
      rcases hs with hs | hs
      · rw [hs] at h1; cases h1
      · exact hs
    simp [Task.setComplete, hd, hst, hsu]
  have poll : ∀ el, ((t.poll el).1.state = t.state ∧ (t.poll el).1.errcode = t.errcode ∧ (t.poll el).1.success = t.success ∧
      (t.poll el).1.finished = true) := by
    intro el
    unfold Task.poll
    split
    · rename_i hd; exact dry hd 0 el
    · split
      · exact ⟨rfl, rfl, rfl, hf⟩
      · simp only [hf, if_true]; exact ⟨trivial, trivial, trivial, trivial⟩
  cases a with
  | ends c => exact ⟨rfl, rfl, rfl, hf⟩
  | poll el => exact poll el
  | wait lim d el =>
    simp only [Task.act, Task.wait]
    split
    · rename_i hd; exact dry hd 0 el
    · split
      · exact ⟨rfl, rfl, rfl, hf⟩
      · simp only [hf, if_true]; exact ⟨trivial, trivial, trivial, trivial⟩
  | kill w d1 d2 el =>
    have hp := poll el
    simp only [Task.act, Task.kill]
    rcases hq : t.poll el with ⟨t', r⟩
    rw [hq] at hp
    cases r with
    | ok =>
      have hp4 : t'.finished = true := hp.2.2.2
      simp only [hp4, if_true]
      split <;> exact hp
    | _ => exact hp

/-! ### C39 -/

/-- Once a task is finished its state, error code and success flag never change. -/
theorem C39_stays {t : Task} (h : Reachable t) (hf : t.finished = true) (as : List Act) :
    (t.acts as).state = t.state ∧ (t.acts as).errcode = t.errcode ∧ (t.acts as).success = t.success ∧ (t.acts as).finished = true := by
  have hi := h.inv
  clear h
  induction as generalizing t with
  | nil => exact ⟨rfl, rfl, rfl, hf⟩
  | cons a as ih =>
    obtain ⟨h1, h2, h3, h4⟩ := act_finished hi hf a
    obtain ⟨k1, k2, k3, k4⟩ := ih (t := t.act a) h4 (inv_act hi a)
    exact ⟨k1.trans h1, k2.trans h2, k3.trans h3, k4⟩

/-- A task counts as finished exactly if it is reported as FINISHED, FAILED, USER_KILLED or FAILED_TO_START. -/
theorem C39_reported {t : Task} (h : Reachable t) :
    t.finished = true ↔ (t.state = .finished ∨ t.state = .failed ∨ t.state = .userKilled ∨ t.state = .failedToStart) := by
  obtain ⟨h1, _⟩ := h.inv
  rw [h1]
  cases t.state <;> simp [State.isEnd]

/-- Success holds exactly for FINISHED with error code zero, FINISHED means error code zero, FAILED an error code other than
zero, and the error code is the code with which the process ended (not for dry runs). -/
theorem C39_success_partial {t : Task} (h : Reachable t) (hd : t.dryRun = false) :
    (t.success = true ↔ t.state = .finished ∧ t.errcode = some 0) ∧
    (t.state = .finished ↔ t.errcode = some 0) ∧
    (t.state = .failed ↔ ∃ c, t.errcode = some c ∧ c ≠ 0) ∧
    (∀ c, t.errcode = some c → ∃ p, t.proc = some p ∧ p.ended = some c) := by
  obtain ⟨_, _, h3⟩ := h.inv
  obtain ⟨a, b, c, d⟩ := h3 hd
  refine ⟨?_, b, c, d⟩
  rw [a, ← b]; exact ⟨fun h => ⟨h, h⟩, fun h => h.1⟩

/-- Polling or waiting for a task whose process has ended makes it finished with that code, unless it is finished already. -/
theorem C39_noticed {t : Task} {p : Proc} {c : Int} (hd : t.dryRun = false) (hp : t.proc = some p)
    (hc : p.ended = some c) (hf : t.finished = false) (el : Nat) (lim : Bool) (d : Option Int) :
    (t.act (.poll el)).finished = true ∧ (t.act (.poll el)).errcode = some c ∧
    (t.act (.wait lim d el)).finished = true ∧ (t.act (.wait lim d el)).errcode = some c := by
  simp [Task.act, Task.poll, Task.wait, hd, hp, hc, hf, Task.setComplete]

/-- Killing a task that is running leaves it finished, with its process ended, if the call returns. -/
theorem C39_killed {t : Task} {p : Proc} (hd : t.dryRun = false) (hp : t.proc = some p) (hf : t.finished = false)
    (w : Option Nat) (d1 : Option Int) (d2 : Int) (el : Nat) (hr : (t.kill w d1 d2 el).2 = .ok) :
    (t.kill w d1 d2 el).1.finished = true ∧ ∃ p', (t.kill w d1 d2 el).1.proc = some p' ∧ p'.ended ≠ none := by
  cases hc : p.ended with
  | some c => simp [Task.kill, Task.poll, hd, hp, hf, hc, Task.setComplete]
  | none =>
    cases hx : p.cancel w d1 d2 with
    | none => simp [Task.kill, Task.poll, hd, hp, hf, hc, hx] at hr
    | some p' =>
      have : t.kill w d1 d2 el = ({ t with proc := some p', state := .userKilled, finished := true, runtime := el }, .ok) := by
        simp [Task.kill, Task.poll, hd, hp, hf, hc, hx]
      rw [this]
      refine ⟨rfl, p', rfl, ?_⟩
      unfold Proc.cancel at hx
      rcases w with _ | _ | n <;> rcases d1 with _ | c <;> simp [hc, Proc.exit, Proc.terminate] at hx <;> subst hx <;> simp

/-- The signals that killing a running task sends, when the call returns: SIGTERM only if there is a grace period, and then
SIGKILL only if the process has not ended in the time given; without a time to wait there is no signal. -/
def signals (w : Option Nat) (d1 : Option Int) : List Sig :=
  (if ∃ n, w = some n ∧ 0 < n then [.term] else []) ++ (if d1 = none ∧ w ≠ none then [.kill] else [])

theorem C39_signals {t : Task} {p : Proc} (hd : t.dryRun = false) (hp : t.proc = some p) (hf : t.finished = false)
    (hc : p.ended = none) (w : Option Nat) (d1 : Option Int) (d2 : Int) (el : Nat) (hr : (t.kill w d1 d2 el).2 = .ok) :
    ∃ p', (t.kill w d1 d2 el).1.proc = some p' ∧ p'.sigs = p.sigs ++ signals w d1 ∧ p'.ended = some (d1.getD d2) := by
  rcases w with _ | _ | n <;> rcases d1 with _ | c <;>
    simp [Task.kill, Task.poll, hd, hp, hf, hc, Proc.cancel, Proc.exit, Proc.terminate, signals] at hr ⊢

/-- Killing at once, with a grace period that is used up, and with one that is enough. -/
example : signals (some 0) none = [.kill] ∧ signals (some 60) none = [.term, .kill] ∧
    signals (some 60) (some 0) = [.term] ∧
    (({ proc := some {} } : Task).kill (some 0) none (-9) 3).2 = .ok := by
  refine ⟨?_, ?_, ?_, by decide⟩ <;> simp [signals]

/-- A serial process that runs, fails and is killed afterwards. -/
example : (({ proc := some {} } : Task).acts [.poll 1, .ends 3, .poll 2]).state = .failed ∧
    (({ proc := some {} } : Task).acts [.poll 1, .ends 3, .poll 2, .kill (some 60) none (-9) 3]).state = .failed ∧
    (({ proc := some {} } : Task).acts [.poll 1, .kill (some 60) none (-9) 3, .wait false none 4]).state = .userKilled ∧
    Reachable (({ proc := some {} } : Task).acts [.poll 1, .ends 3, .poll 2]) :=
  ⟨by decide, by decide, by decide, _, _, .serial {}, rfl⟩

/-- Dry runs: success without an error code. -/
theorem C39_dry_run_witness : ∃ t, Reachable t ∧ t.success = true ∧ t.errcode = none :=
  ⟨({ dryRun := true } : Task).acts [.poll 0], ⟨_, _, .dry, rfl⟩, by decide⟩

/-- A process that ends by itself with code 0 after the poll in `kill`: the task is reported as killed, without error code. -/
theorem C39_race_witness :
    (({ proc := some {} } : Task).kill (some 60) (some 0) (-9) 1).1.state = .userKilled ∧
    (({ proc := some {} } : Task).kill (some 60) (some 0) (-9) 1).1.proc = some { ended := some 0, sigs := [.term] } ∧
    (({ proc := some {} } : Task).kill (some 60) (some 0) (-9) 1).1.errcode = none := by decide

/-- `cancel` sends no signal at all: it waits until the process ends by itself (forever if it does not), and then reports
the task as killed. -/
theorem C39_cancel_witness (t : Task) (p : Proc) (hd : t.dryRun = false) (hp : t.proc = some p) (hf : t.finished = false)
    (hc : p.ended = none) (d1 : Option Int) (d2 : Int) (el : Nat) :
    (d1 = none → (t.kill none d1 d2 el).2 = .hangs) ∧
    (∀ c, d1 = some c → (t.kill none d1 d2 el).1.state = .userKilled ∧ (t.kill none d1 d2 el).1.proc = some { ended := some c, sigs := p.sigs }) := by
  constructor
  · rintro rfl
    simp [Task.kill, Task.poll, hd, hp, hf, hc, Proc.cancel]
  · rintro c rfl
    simp [Task.kill, Task.poll, hd, hp, hf, hc, Proc.cancel, Proc.exit, Proc.terminate]

/-! ### C51: launching with retries -/

/-- The attempt ends with a task that is neither FAILED nor FAILED_TO_START. -/
def Attempt.good : Attempt → Bool
  | .fails => false
  | .starts e _ => e.all (· == 0)

theorem retry_good (a : Attempt) : (({} : Task).attempt a).retry a = !a.good := by
  cases a with
  | fails => rfl
  | starts e el =>
    cases e with
    | none => rfl
    | some c =>
      by_cases hc : c = 0 <;> simp [Task.attempt, Task.poll, Task.retry, Attempt.good, Task.setComplete, hc]

theorem reset_attempt (a : Attempt) : (({} : Task).attempt a).reset = {} := by simp [Task.reset, attempt_dry]

/-- At most `max` attempts are made, the task is launched again exactly as long as attempts fail and some are left, and the
task that `submit` returns is the one of the last attempt made. -/
theorem C51_launch (max : Nat) (as : List Attempt) (hm : max ≠ 0) (ha : max ≤ as.length) :
    ∃ n a, (launch {} max as).2 = n + 1 ∧ n + 1 ≤ max ∧ as[n]? = some a ∧ (launch {} max as).1 = ({} : Task).attempt a ∧
      (∀ i < n, ∀ b, as[i]? = some b → b.good = false) ∧ (a.good = true ∨ n + 1 = max) := by
  induction max generalizing as with
  | zero => exact absurd rfl hm
  | succ left ih =>
    cases as with
    | nil => simp at ha
    | cons a as =>
      simp only [launch]
      rw [reset_attempt, retry_good]
      by_cases hg : a.good = true
      · rw [if_neg (by simp [hg])]
        exact ⟨0, a, rfl, by omega, rfl, rfl, by simp, .inl hg⟩
      · have hg : a.good = false := by simpa using hg
        by_cases hl : left = 0
        · rw [if_neg (by simp [hl])]
          exact ⟨0, a, rfl, by omega, rfl, rfl, by simp, .inr (by omega)⟩
        · rw [if_pos ⟨by simp [hg], hl⟩]
          obtain ⟨n, b, h1, h2, h3, h4, h5, h6⟩ := ih as hl (by simp at ha; omega)
          refine ⟨n + 1, b, by simp [h1], by omega, by simpa using h3, h4, ?_, ?_⟩
          · intro i hi b' hb'
            cases i with
            | zero => simp only [List.getElem?_cons_zero, Option.some.injEq] at hb'; subst hb'; exact hg
            | succ i => exact h5 i (by omega) b' (by simpa using hb')
          · rcases h6 with h6 | h6
            · exact .inl h6
            · exact .inr (by omega)

/-- What the launched task looks like: a launch that raised and a process that has ended leave a finished task, the latter
with the code of the process; otherwise it runs. -/
theorem C51_result (a : Attempt) :
    (a = .fails → (({} : Task).attempt a).state = .failedToStart ∧ (({} : Task).attempt a).finished = true ∧
      (({} : Task).attempt a).success = false ∧ (({} : Task).attempt a).proc = none) ∧
    (∀ el, a = .starts none el → (({} : Task).attempt a).state = .running ∧ (({} : Task).attempt a).finished = false ∧
      (({} : Task).attempt a).success = false) ∧
    (∀ c el, a = .starts (some c) el → (({} : Task).attempt a).state = (if c = 0 then .finished else .failed) ∧
      (({} : Task).attempt a).finished = true ∧ (({} : Task).attempt a).errcode = some c ∧
      ((({} : Task).attempt a).success = true ↔ c = 0)) := by
  refine ⟨?_, ?_, ?_⟩
  · rintro rfl; exact ⟨rfl, rfl, rfl, rfl⟩
  · rintro el rfl; exact ⟨rfl, rfl, rfl⟩
  · rintro c el rfl
    by_cases hc : c = 0 <;> simp [Task.attempt, Task.poll, Task.setComplete, hc]

/-- Two failing attempts, the third one runs. -/
example : launch {} 5 [.fails, .starts (some 1) 0, .starts none 2] =
    ({ state := .running, proc := some {}, runtime := 2 }, 3) := by decide

/-! ### C41: the polling loop -/

/-- What the status should be, from what happens in the passes: the first pass in which a kill or finish signal is found, or
the time is over, or the process has ended, decides (in this order). -/
def expected (timeout : Option Nat) (pm : Bool) : List Pass → Option Int
  | [] => none
  | p :: ps =>
    if pm = true ∧ (p.signal = some FINISH ∨ p.signal = some KILL) then p.signal
    else if over timeout p.el then some KILL_ON_TIMEOUT
    else match p.ends with
      | some c => some (if c = 0 then WORKER_DONE else TASK_FAILED)
      | none => expected timeout pm ps

/-- A task whose process has been launched and runs, as far as anybody knows. -/
def Live (t : Task) : Prop := t.dryRun = false ∧ t.finished = false ∧ t.errcode = none ∧ t.proc.isSome ∧ ∀ p, t.proc = some p → p.ended = none

/-- How a live task leaves the loop when killed. -/
theorem killIn_live {t : Task} (h : Live t) (p : Pass) :
    (t.killIn p).finished = true ∧ (t.killIn p).runtime = p.el ∧
    ((∃ c, p.d0 = some c ∧ (t.killIn p).errcode = some c ∧ (t.killIn p).state = if c = 0 then .finished else .failed) ∨
     (p.d0 = none ∧ (t.killIn p).state = .userKilled ∧ (t.killIn p).errcode = none)) := by
  obtain ⟨hd, hf, he, hp, hn⟩ := h
  obtain ⟨q, hq⟩ := Option.isSome_iff_exists.mp hp
  have hqn := hn q hq
  unfold Task.killIn
  cases h0 : p.d0 with
  | some c =>
    simp [Task.act, Task.kill, Task.poll, hd, hq, hf, exit_ended hqn, Task.setComplete]
  | none =>
    cases hd1 : p.d1 <;> simp [Task.kill, Task.poll, hd, hq, hf, hqn, Proc.cancel, he]

theorem killIn_done {t : Task} (hd : t.dryRun = false) (hf : t.finished = true) (hp : t.proc.isSome) (p : Pass) :
    (t.killIn p).state = t.state ∧ (t.killIn p).errcode = t.errcode ∧ (t.killIn p).finished = true ∧ (t.killIn p).runtime = t.runtime := by
  obtain ⟨q, hq⟩ := Option.isSome_iff_exists.mp hp
  unfold Task.killIn
  cases h0 : p.d0 <;> simp [Task.act, Task.kill, Task.poll, hd, hf, hq]

/-- One pass with a live task. -/
theorem loop_cons {t : Task} (h : Live t) (timeout : Option Nat) (pm : Bool) (p : Pass) (ps : List Pass) :
    ∃ t' : Task, t'.dryRun = false ∧ t'.proc.isSome ∧ t'.runtime = p.el ∧
      ((p.ends = none ∧ Live t') ∨ ∃ c, p.ends = some c ∧ t'.finished = true ∧ t'.errcode = some c ∧
        t'.state = if c = 0 then .finished else .failed) ∧
      pollingLoop t timeout pm (p :: ps) =
        if pm = true ∧ (p.signal = some FINISH ∨ p.signal = some KILL) then ⟨t'.killIn p, p.signal⟩
        else if over timeout p.el then ⟨t'.killIn p, some KILL_ON_TIMEOUT⟩
        else pollingLoop t' timeout pm ps := by
  obtain ⟨hd, hf, he, hp, hn⟩ := h
  obtain ⟨q, hq⟩ := Option.isSome_iff_exists.mp hp
  have hqn := hn q hq
  cases hpe : p.ends with
  | none =>
    refine ⟨{ t with state := .running, runtime := p.el }, hd, hp, rfl, .inl ⟨rfl, hd, hf, he, hp, hn⟩, ?_⟩
    simp [pollingLoop, hf, hpe, Task.poll, hd, hq, hqn]
  | some c =>
    refine ⟨((t.act (.ends c)).setComplete c p.el), by simp [Task.act, Task.setComplete, hd], by simp [Task.act, Task.setComplete, hd, hq],
      by simp [Task.act, Task.setComplete, hd], .inr ⟨c, rfl, by simp [Task.act, Task.setComplete, hd], by simp [Task.act, Task.setComplete, hd], by simp [Task.act, Task.setComplete, hd]⟩, ?_⟩
    simp [pollingLoop, hf, hpe, Task.poll, Task.act, hd, hq, exit_ended hqn, Task.setComplete]

theorem loop_finished {t : Task} (hf : t.finished = true) (timeout : Option Nat) (pm : Bool) (ps : List Pass) :
    pollingLoop t timeout pm ps = ⟨t, some (verdict t)⟩ := by
  cases ps <;> simp [pollingLoop, hf]

/-- A task that could not be started gets the status for this, whatever the time limit and the signals. -/
theorem C41_not_started {t : Task} (hf : t.finished = true) (hs : t.state = .failedToStart) (timeout : Option Nat)
    (pm : Bool) (ps : List Pass) :
    (pollingLoop t timeout pm ps).status = some TASK_FAILED_TO_START ∧
    (pollingLoop t timeout pm ps).status ≠ some TASK_FAILED ∧ (pollingLoop t timeout pm ps).task = t := by
  rw [loop_finished hf]
  simp [verdict, hs, TASK_FAILED_TO_START, TASK_FAILED]

/-- The task that a launch leaves when the process cannot be started. -/
example (ps : List Pass) : (pollingLoop (({} : Task).attempt .fails) (some 3) true ps).status = some TASK_FAILED_TO_START :=
  (C41_not_started rfl rfl _ _ _).1

/-- The loop returns the status that the passes call for. -/
theorem C41_status {t : Task} (h : Live t) (timeout : Option Nat) (pm : Bool) (ps : List Pass) :
    (pollingLoop t timeout pm ps).status = expected timeout pm ps := by
  induction ps generalizing t with
  | nil => simp [pollingLoop, h.2.1, expected]
  | cons p ps ih =>
    obtain ⟨t', _, _, _, hc, he⟩ := loop_cons h timeout pm p ps
    rw [he]
    simp only [expected]
    split
    · rfl
    · split
      · rfl
      · rcases hc with ⟨hn, hl⟩ | ⟨c, hc, hf, _, hs⟩
        · rw [hn]; exact ih hl
        · rw [hc, loop_finished hf]
          simp only [verdict, hs]
          by_cases h0 : c = 0 <;> simp [h0]

/-- The loop returns once the process has ended, the time is over, or (if the manager is polled) a signal was found. -/
theorem C41_returns {t : Task} (h : Live t) (timeout : Option Nat) (pm : Bool) (ps : List Pass)
    (he : ∃ p ∈ ps, p.ends ≠ none ∨ over timeout p.el = true ∨ (pm = true ∧ (p.signal = some FINISH ∨ p.signal = some KILL))) :
    ∃ s, (pollingLoop t timeout pm ps).status = some s := by
  rw [C41_status h]
  clear h
  induction ps with
  | nil => obtain ⟨p, hp, _⟩ := he; cases hp
  | cons q qs ih =>
    simp only [expected]
    by_cases h1 : pm = true ∧ (q.signal = some FINISH ∨ q.signal = some KILL)
    · rw [if_pos h1]
      rcases h1.2 with h | h <;> exact ⟨_, h⟩
    · rw [if_neg h1]
      by_cases h2 : over timeout q.el = true
      · rw [if_pos h2]; exact ⟨_, rfl⟩
      · rw [if_neg h2]
        cases hq : q.ends with
        | some c => exact ⟨_, rfl⟩
        | none =>
          obtain ⟨p, hp, hc⟩ := he
          rcases List.mem_cons.mp hp with rfl | hp
          · rcases hc with hc | hc | hc
            · exact absurd hq hc
            · exact absurd hc h2
            · exact absurd hc h1
          · exact ih ⟨p, hp, hc⟩

/-- The task is finished when the loop returns; also for dry runs and for tasks that were finished before. -/
theorem C41_finished {t : Task} (h : Live t ∨ t.finished = true ∨ t.dryRun = true) (timeout : Option Nat) (pm : Bool) (ps : List Pass) {s : Int}
    (hs : (pollingLoop t timeout pm ps).status = some s) : (pollingLoop t timeout pm ps).task.finished = true := by
  rcases h with h | h | h
  · induction ps generalizing t with
    | nil => simp [pollingLoop, h.2.1] at hs
    | cons p ps ih =>
      obtain ⟨t', hd, hp, _, hc, he⟩ := loop_cons h timeout pm p ps
      rw [he] at hs ⊢
      have hk : (t'.killIn p).finished = true := by
        rcases hc with ⟨_, hl⟩ | ⟨c, _, hf, _⟩
        · exact (killIn_live hl p).1
        · exact (killIn_done hd hf hp p).2.2.1
      split at hs
      · rename_i h1; rw [if_pos h1]; exact hk
      · rename_i h1
        rw [if_neg h1]
        split at hs
        · rename_i h2; rw [if_pos h2]; exact hk
        · rename_i h2
          rw [if_neg h2]
          rcases hc with ⟨_, hl⟩ | ⟨c, _, hf, _⟩
          · exact ih hs hl
          · rw [loop_finished hf]; exact hf
  · rw [loop_finished h]; exact h
  · by_cases hf : t.finished = true
    · rw [loop_finished hf]; exact hf
    · cases ps with
      | nil => simp [pollingLoop, hf] at hs
      | cons p ps =>
        have hp : ∀ (t : Task) el, t.dryRun = true → (t.poll el) = ({ t with finished := true, success := true, state := .finished }, .ok) := by
          intro t el hd; simp [Task.poll, hd, Task.setComplete]
        have hk : ∀ (t : Task) (p : Pass), t.dryRun = true → (t.killIn p).finished = true := by
          intro t p hd
          unfold Task.killIn
          cases p.d0 <;> simp [Task.act, Task.kill, hd, hp]
        have hf : t.finished = false := by simpa using hf
        have key : ∀ t₀ : Task, t₀.dryRun = true → (match t₀.poll p.el with
            | (t, .ok) =>
              if pm = true ∧ (p.signal = some FINISH ∨ p.signal = some KILL) then ({ task := t.killIn p, status := p.signal } : Loop)
              else if over timeout t.runtime then { task := t.killIn p, status := some KILL_ON_TIMEOUT }
              else pollingLoop t timeout pm ps
            | (t, _) => { task := t, status := some (verdict t) }).task.finished = true := by
          intro t₀ h₀
          rw [hp _ _ h₀]
          dsimp only
          split
          · exact hk _ _ h₀
          · split
            · exact hk _ _ h₀
            · rw [loop_finished rfl]
        unfold pollingLoop
        rw [if_neg (by simp [hf])]
        cases p.ends with
        | none => exact key t h
        | some c => exact key (t.act (.ends c)) h

/-- The status tells the truth: WORKER_DONE only for error code zero, TASK_FAILED only for another error code, a signal only
if the manager was polled and this signal was found, WORKER_KILL_ON_TIMEOUT only if the time was over. -/
theorem C41_truth {t : Task} (h : Live t) (timeout : Option Nat) (pm : Bool) (ps : List Pass) {s : Int}
    (hs : (pollingLoop t timeout pm ps).status = some s) :
    (s = WORKER_DONE ∧ (pollingLoop t timeout pm ps).task.errcode = some 0 ∧ (pollingLoop t timeout pm ps).task.state = .finished) ∨
    (s = TASK_FAILED ∧ (∃ c, (pollingLoop t timeout pm ps).task.errcode = some c ∧ c ≠ 0) ∧ (pollingLoop t timeout pm ps).task.state = .failed) ∨
    ((s = FINISH ∨ s = KILL) ∧ pm = true ∧ ∃ p ∈ ps, p.signal = some s) ∨
    (s = KILL_ON_TIMEOUT ∧ ∃ x, timeout = some x ∧ (pollingLoop t timeout pm ps).task.runtime > x) := by
  induction ps generalizing t with
  | nil => simp [pollingLoop, h.2.1] at hs
  | cons p ps ih =>
    obtain ⟨t', hd, hp, hrt, hc, he⟩ := loop_cons h timeout pm p ps
    rw [he] at hs ⊢
    by_cases h1 : pm = true ∧ (p.signal = some FINISH ∨ p.signal = some KILL)
    · rw [if_pos h1] at hs
      refine .inr (.inr (.inl ⟨?_, h1.1, p, by simp, hs⟩))
      have hs : p.signal = some s := hs
      rcases h1.2 with h2 | h2
      · rw [h2] at hs; cases hs; exact .inl rfl
      · rw [h2] at hs; cases hs; exact .inr rfl
    · rw [if_neg h1] at hs ⊢
      by_cases h2 : over timeout p.el = true
      · rw [if_pos h2] at hs ⊢
        refine .inr (.inr (.inr ⟨by cases hs; rfl, ?_⟩))
        have hrun : (t'.killIn p).runtime = p.el := by
          rcases hc with ⟨_, hl⟩ | ⟨c, _, hf, _⟩
          · exact (killIn_live hl p).2.1
          · rw [(killIn_done hd hf hp p).2.2.2, hrt]
        cases timeout with
        | none => simp [over] at h2
        | some x => exact ⟨x, rfl, by simp only [hrun]; simpa [over] using h2⟩
      · rw [if_neg h2] at hs ⊢
        rcases hc with ⟨_, hl⟩ | ⟨c, _, hf, hec, hst⟩
        · rcases ih hl hs with k | k | ⟨k1, k2, q, hq, k3⟩ | k
          · exact .inl k
          · exact .inr (.inl k)
          · exact .inr (.inr (.inl ⟨k1, k2, q, by simp [hq], k3⟩))
          · exact .inr (.inr (.inr k))
        · rw [loop_finished hf] at hs ⊢
          simp only [verdict, hst, Option.some.injEq] at hs
          by_cases h0 : c = 0
          · subst h0; simp at hs; exact .inl ⟨hs.symm, hec, by simpa using hst⟩
          · simp [h0] at hs
            exact .inr (.inl ⟨hs.symm, ⟨c, hec, h0⟩, by simpa [h0] using hst⟩)

/-- The converse: a task that finished with code zero gives WORKER_DONE, one that failed TASK_FAILED, unless in the same pass
in which the process ended a signal was found or the time was over, or the process ended while it was about to be killed. -/
theorem C41_exact_partial {t : Task} (h : Live t) (timeout : Option Nat) (pm : Bool) (ps : List Pass) {s : Int}
    (hs : (pollingLoop t timeout pm ps).status = some s)
    (hclean : ∀ p ∈ ps, p.d0 = none ∧ (p.ends ≠ none → ¬ (pm = true ∧ (p.signal = some FINISH ∨ p.signal = some KILL)) ∧ over timeout p.el = false)) :
    (s = WORKER_DONE ↔ (pollingLoop t timeout pm ps).task.errcode = some 0) ∧
    (s = TASK_FAILED ↔ ∃ c, (pollingLoop t timeout pm ps).task.errcode = some c ∧ c ≠ 0) ∧
    (s = FINISH ∨ s = KILL ∨ s = KILL_ON_TIMEOUT ↔ (pollingLoop t timeout pm ps).task.state = .userKilled) := by
  induction ps generalizing t with
  | nil => simp [pollingLoop, h.2.1] at hs
  | cons p ps ih =>
    obtain ⟨t', hd, hp, hrt, hc, he⟩ := loop_cons h timeout pm p ps
    obtain ⟨hd0, hcl⟩ := hclean p (by simp)
    rw [he] at hs ⊢
    by_cases h1 : pm = true ∧ (p.signal = some FINISH ∨ p.signal = some KILL)
    · rw [if_pos h1] at hs ⊢
      rcases hc with ⟨_, hl⟩ | ⟨c, hc, _⟩
      · rcases (killIn_live hl p).2.2 with ⟨c, hc, _⟩ | ⟨_, k1, k2⟩
        · rw [hd0] at hc; cases hc
        · have hs : p.signal = some s := hs
          have hfk : s = FINISH ∨ s = KILL := by
            rcases h1.2 with h2 | h2 <;> rw [h2] at hs <;> cases hs
            · exact .inl rfl
            · exact .inr rfl
          simp only [k1, k2]
          rcases hfk with rfl | rfl <;> decide
      · exact absurd h1 (hcl (by simp [hc])).1
    · rw [if_neg h1] at hs ⊢
      by_cases h2 : over timeout p.el = true
      · rw [if_pos h2] at hs ⊢
        rcases hc with ⟨_, hl⟩ | ⟨c, hc, _⟩
        · rcases (killIn_live hl p).2.2 with ⟨c, hc, _⟩ | ⟨_, k1, k2⟩
          · rw [hd0] at hc; cases hc
          · simp only [k1, k2]
            cases hs
            decide
        · rw [(hcl (by simp [hc])).2] at h2; cases h2
      · rw [if_neg h2] at hs ⊢
        rcases hc with ⟨_, hl⟩ | ⟨c, _, hf, hec, hst⟩
        · exact ih hl hs (fun q hq => hclean q (by simp [hq]))
        · rw [loop_finished hf] at hs ⊢
          simp only [verdict, hst, Option.some.injEq] at hs
          simp only [hec, hst]
          by_cases h0 : c = 0
          · subst h0; simp at hs; subst hs; simp; decide
          · simp [h0] at hs; subst hs; simp [h0]; decide

def liveTask : Task := { proc := some {} }

example : Live liveTask := ⟨rfl, rfl, rfl, rfl, by rintro p hp; cases hp; rfl⟩

/-- A process that fails in the third pass; one that is killed by the manager; one that runs too long. -/
example : (pollingLoop liveTask (some 9) true [{ el := 1 }, { el := 2 }, { el := 3, ends := some 2 }]).status = some TASK_FAILED ∧
    (pollingLoop liveTask (some 9) true [{ el := 1 }, { el := 2, signal := some KILL }]).status = some KILL ∧
    (pollingLoop liveTask (some 9) true [{ el := 1 }, { el := 10 }]).status = some KILL_ON_TIMEOUT ∧
    (pollingLoop liveTask (some 9) true [{ el := 1 }, { el := 10 }]).task.state = .userKilled := by decide

/-- A process that ended with code zero in the pass in which the time is over, or a signal is found: the task is FINISHED
but the status says otherwise. -/
theorem C41_same_pass_witness :
    (pollingLoop liveTask (some 9) false [{ el := 10, ends := some 0 }]).status = some KILL_ON_TIMEOUT ∧
    (pollingLoop liveTask (some 9) false [{ el := 10, ends := some 0 }]).task.state = .finished ∧
    (pollingLoop liveTask none true [{ el := 10, ends := some 0, signal := some KILL }]).status = some KILL ∧
    (pollingLoop liveTask none true [{ el := 10, ends := some 0, signal := some KILL }]).task.state = .finished := by decide

/-- A task without a process (not launched): the loop returns at once without status, the task is not finished. -/
theorem C41_not_launched_witness :
    (pollingLoop {} none false [{ el := 1 }]).status = some UNSET ∧ (pollingLoop {} none false [{ el := 1 }]).task.finished = false := by decide

/-- A task that had been killed before: no status. -/
theorem C41_killed_before_witness :
    (pollingLoop (liveTask.acts [.kill (some 60) none (-9) 1]) none false []).status = some UNSET := by decide

end Verif.Exec
