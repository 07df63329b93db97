import Verif.Runner.Props
import Verif.System.Props
/-!
C59 together with the manager: a worker whose generators are run by the suggest/ingest runners behaves as the theorems about manager
and workers ask (`System.Disciplined`), so that these hold for such workers without this hypothesis.
-/
namespace Verif.Runner
open Verif.Worker Verif.Comms Verif.System

variable {σ : Type} {ops : Ops σ} {F : UserF} {cs : Order → Sizes} {g : Nat → σ} {env : Env}

/-! ### Helper lemmas -/

/-- Before an answer, the function has returned. -/
def Returned (e : Ev) (pre : List Ev) : Prop :=
  ∀ o s r, e = .out (.answer o s r) → ∃ bs u pre', pre = bs ++ .ret u :: pre' ∧ (∀ e ∈ bs, ∃ m, e = .buffered m) ∧
    (u = .pairStatus s ∨ u = .triple s ∨ s = 0 ∧ ∀ s, u ≠ .pairStatus s ∧ u ≠ .triple s)

theorem returned_other {tr : List Ev} {e : Ev} (h : OnEv Returned tr) (he : ∀ o s r, e ≠ .out (.answer o s r)) : OnEv Returned (e :: tr) :=
  onEv_cons h (fun o s r h => absurd h (he o s r))

theorem returned_run (F : UserF) (k : Kind) (as : List Act) : OnEv Returned (run F k as).tr := by
  refine run_ind (I := fun _ w => OnEv Returned w.tr) onEv_nil (fun _ _ _ h => h) (fun _ _ h => h) ?_ as
  intro as w w' h hs
  have hbs : ∀ {c : Chan Msg} {bs : List Ev}, ((w.chan.buf = none ∧ c = w.chan ∧ bs = []) ∨
      ∃ m, w.chan.buf = some m ∧ w.chan.recv = (c, some m) ∧ bs = [.buffered m]) → ∀ {tr : List Ev}, OnEv Returned tr →
      (∀ e ∈ bs, ∃ m, e = Ev.buffered m) ∧ OnEv Returned (bs ++ tr) := by
    rintro c bs (⟨_, _, rfl⟩ | ⟨m, _, _, rfl⟩) tr ht
    · exact ⟨by simp, ht⟩
    · exact ⟨fun e he => ⟨m, List.mem_singleton.mp he⟩, returned_other ht (by simp)⟩
  cases hs
  case retAnswer o rows hh c bs u s r hp hl hc hs' hu =>
    obtain ⟨h1, h2⟩ := hbs hc (returned_other h (e := .ret u) (by simp))
    refine onEv_cons h2 ?_
    intro o' s' r' he
    cases he
    exact ⟨bs, u, w.tr, rfl, h1, hu.imp id (fun h => h.imp id (fun h => ⟨h.1, h.2.1⟩))⟩
  case retFail hp hc =>
    obtain ⟨h1, h2⟩ := hbs hc (returned_other h (e := .ret .long) (by simp))
    exact returned_other (returned_other h2 (by simp)) (by simp)
  case retStop u hp hl hc hu =>
    obtain ⟨h1, h2⟩ := hbs hc (returned_other h (e := .ret u) (by simp))
    exact returned_other h2 (by simp)
  all_goals
    first
      | exact h
      | exact returned_other h (by simp)
      | exact returned_other (returned_other h (by simp)) (by simp)
      | exact returned_other (returned_other (returned_other h (by simp)) (by simp)) (by simp)

/-- Whenever the runner is about to send, an answer is owed. -/
def ROwes (env : Env) (ops : Ops σ) (c : Order → Sizes) (g : Nat → σ) (n : Nat) (o : Order) (rows : Option Body) (h : List Obs) (tr : List Ev) : Prop :=
  o.tag = EVAL_GEN → o.persistent = true → ∀ x f, (after ops (c o) (g n) rows h).pt = .send x f → owes env tr = true

theorem again_stop {s : St σ} {c : Sizes} {t : Nat} {b : Option Body} (ht : isStop t = true) (x : Nat) (f : Bool) :
    (s.again ops c t b).pt ≠ .send x f := by
  unfold St.again
  rw [if_pos ht]
  cases ops.finalize s.gen <;> simp [St.fail]

theorem answer_stop {s : St σ} {c : Sizes} {i : Bool} {t : Nat} {b : Option Body} (ht : isStop t = true) (x : Nat) (f : Bool) :
    (s.answer ops c i t b).pt ≠ .send x f := by
  unfold St.answer
  split
  · unfold St.firstAnswer
    cases ops.initIngest s.gen b with
    | none => simp [St.fail]
    | some g => exact again_stop ht x f
  · unfold St.laterAnswer
    cases b with
    | none => exact again_stop ht x f
    | some r =>
      simp only
      cases ops.ingest s.gen r with
      | none => simp [St.fail]
      | some g => exact again_stop ht x f

theorem runner_owes (hF : Runs F ops cs g) : UserInv F (ROwes env ops cs g) where
  start := fun n o rows tr _ _ _ _ _ => rfl
  send := by
    intro n o rows h tr x hI hf ht hp y f hy
    rw [hF.pt ht hp] at hf
    obtain ⟨f', hpt⟩ := act_send hf
    simp only [after, St.see, hpt] at hy
    cases hy
  pollNone := by
    intro n o rows h tr hI hf ht hp
    rw [hF.pt ht hp] at hf; exact absurd hf act_poll
  pollDrop := by
    intro n o rows h tr m hI hf ht hp
    rw [hF.pt ht hp] at hf; exact absurd hf act_poll
  pollBack := by
    intro n o rows h tr m hI hf hm ht hp
    rw [hF.pt ht hp] at hf; exact absurd hf act_poll
  nothing := by
    intro n o rows h tr hI hf ht hp
    rw [hF.pt ht hp] at hf; have := (act_recv hf).1; cases this
  signal := by
    intro n o rows h tr b m hI hf hm _ ht hp x f hx
    rw [hF.pt ht hp] at hf
    obtain ⟨_, f', hpt⟩ := act_recv hf
    simp only [after, St.see, hpt] at hx
    exact absurd hx (answer_stop hm x f)
  error := by
    intro n o rows h tr b m hI hf hm _ ht hp x f hx
    rw [hF.pt ht hp] at hf
    obtain ⟨_, f', hpt⟩ := act_recv hf
    simp only [after, St.see, hpt] at hx
    cases hx
  rowsBack := by
    intro n o rows h tr b m t o' hI hf hm ht hp x f hx
    rw [hF.pt ht hp] at hf
    obtain ⟨_, f', hpt⟩ := act_recv hf
    simp only [after, St.see, hpt] at hx
    exact absurd hx (answer_stop hm x f)
  rowsGot := fun n o rows h tr b m t o' hI hf hm _ _ _ _ _ => rfl

theorem running_buffered {bs pre : List Ev} (h : ∀ e ∈ bs, ∃ m, e = Ev.buffered m) : running (bs ++ pre) = running pre ∧ heard (bs ++ pre) = heard pre := by
  induction bs with
  | nil => exact ⟨rfl, rfl⟩
  | cons e bs ih =>
    obtain ⟨m, rfl⟩ := h e List.mem_cons_self
    exact ih (fun e he => h e (List.mem_cons_of_mem _ he))

/-! ### Theorems -/

/-- A worker for suggest/ingest generators and simulation functions that do not send and do not return the finish signal as their
status; generators' messages carry neither `keep_state` nor the status of an end. -/
structure Serves (env : Env) (F : UserF) (ops : Ops σ) (cs : Order → Sizes) (g : Nat → σ) : Prop where
  runs : Runs F ops cs g
  quiet : ∀ n o rows h, o.tag ≠ EVAL_GEN → ∀ x, F n o rows h ≠ .send x
  status : ∀ n o rows h u, o.tag ≠ EVAL_GEN → F n o rows h = .ret u → u ≠ .pairStatus FINISH ∧ u ≠ .triple FINISH
  msgs : ∀ n o rows h x, F n o rows h = .send x → (env.msg x).keepState = false ∧ (env.msg x).isFinished = false

/-- In the record of a worker: simulations are not persistent, and of stop messages, generators receive the persistent stop only
(no finish signal, no kill signal and no stop with data). -/
structure Usual (tr : List Ev) : Prop where
  sims : ∀ o rows, .start o rows ∈ tr → o.persistent = true → o.tag = EVAL_GEN
  stops : ∀ post pre o rows, tr = post ++ pre → running pre = some (o, rows) → o.tag = EVAL_GEN → ∀ m ∈ heard pre, isStop m.1 = true → m = pst

theorem running_start : ∀ {pre : List Ev} {o : Order} {rows : Option Body}, running pre = some (o, rows) → .start o rows ∈ pre
  | [], _, _, h => by cases h
  | e :: pre, o, rows, h => by
    cases e with
    | start o' b => simp only [running, Option.some.injEq, Prod.mk.injEq] at h; obtain ⟨rfl, rfl⟩ := h; exact List.mem_cons_self
    | out x => cases x with
      | data y => exact List.mem_cons_of_mem _ (running_start (pre := pre) h)
      | answer o s r => cases h
      | err => cases h
    | stop => cases h
    | _ => exact List.mem_cons_of_mem _ (running_start (pre := pre) h)

/-- Such a worker does what is expected of user functions: only persistent functions send; every message answers an order; a
persistent function returns after the persistent stop, with a status that says so. -/
theorem C59_disciplined (hS : Serves env F ops cs g) (k : Kind) (as : List Act) (hu : Usual (run F k as).tr) :
    Disciplined env (run F k as).tr := by
  obtain ⟨hA, _⟩ := user_run (runner_owes (env := env) hS.runs) k as
  intro post e pre he
  have hE := hA post e pre he
  cases e with
  | ret u =>
    obtain ⟨n, o, rows, h, hr, hI, hf⟩ := hE
    by_cases ht : o.tag = EVAL_GEN
    · obtain ⟨_, rfl, _⟩ := C59_returns hS.runs k as he hr ht
      simp [FINISH]
    · exact hS.status _ _ _ _ _ ht hf
  | out x =>
    cases x with
    | data x =>
      obtain ⟨n, o, rows, h, hr, hI, hf⟩ := hE
      by_cases ht : o.tag = EVAL_GEN
      · have hp : o.persistent = true := by
          cases hp : o.persistent with
          | true => rfl
          | false =>
            rw [hS.runs n o rows h ht] at hf
            unfold genF at hf
            rw [if_neg (by simp [hp])] at hf
            cases hf
        have hm := (hS.msgs _ _ _ _ _ hf).2
        rw [hS.runs.pt ht hp] at hf
        obtain ⟨f, hpt⟩ := act_send hf
        exact ⟨by unfold inPersis; rw [hr]; exact hp, hm, fun _ => .inl (hI ht hp x f hpt)⟩
      · exact absurd hf (hS.quiet _ _ _ _ ht x)
    | answer o s r =>
      intro hp
      obtain ⟨b, hr⟩ := (C37_answers F k as).1 o s r he
      obtain ⟨bs, u, pre', rfl, hb, hst⟩ := returned_run F k as _ _ _ he o s r rfl
      obtain ⟨r1, r2⟩ := running_buffered (pre := .ret u :: pre') hb
      have hr' : running pre' = some (o, b) := by rw [r1] at hr; exact hr
      have ht : o.tag = EVAL_GEN := hu.sims o b (by
        rw [he]
        exact List.mem_append_right _ (List.mem_cons_of_mem _ (running_start hr))) hp
      obtain ⟨_, rfl, ⟨l₁, l₂, h1, _, ⟨m, hm, hs⟩, _⟩, _⟩ :=
        C59_returns hS.runs k as (post := post ++ .out (.answer o s r) :: bs) (pre := pre') (u := u) (by rw [he]; simp) hr' ht
      have hm' : m ∈ heard pre' := by rw [h1]; exact List.mem_append_left _ hm
      have := hu.stops (post ++ .out (.answer o s r) :: bs ++ [.ret (.pairStatus 12)]) pre' o b (by rw [he]; simp) hr' ht m hm' hs
      subst this
      refine ⟨.inr ?_, .inl ?_⟩
      · rcases hst with h | h | ⟨_, h⟩
        · cases h; rfl
        · cases h
        · exact absurd rfl (h 12).1
      · unfold told
        rw [r2]
        exact decide_eq_true hm'
    | err => trivial
  | _ => trivial

/-- Full statement: the manager's view of a worker with suggest/ingest generators is right: the worker is busy exactly if an order is
unanswered, and counts as persistent exactly if it runs a persistent function (or will, or the end is on the way).  Proved without
final sends, while all is well (as `System.C19_both_sides_partial`, without its hypothesis on user functions) -/
theorem C59_both_sides_partial {ws : Nat → W} (c : Manager.Start) (its : List Manager.Iter) (t : Nat → Int) (rounds : List Manager.Round)
    (hg : c.sp.finalGenSend = false) (hc : (c.loop its).2.clean = true) (hnr : ∀ e, (c.run its t rounds).2 ≠ .raisedFinal e)
    (post tr : List Manager.Ev) (htr : (c.run its t rounds).1.tr = post ++ tr) (hx : Manager.hasExc tr = false) (hj : Joint env tr ws) (w : Nat)
    (hs : .stop w ∉ tr) (hS : Serves env (env.F w) ops cs g) (hu : Usual (ws w).tr) (hca : Careful (ws w).tr) (hok : (ws w).ph ≠ .failed) :
    ((Manager.view w tr).busy = true ↔ Unanswered env w tr (ws w)) ∧ ((Manager.view w tr).persis ≠ 0 ↔ Persistent w tr (ws w)) := by
  refine C19_both_sides_partial c its t rounds hg hc hnr post tr htr hx hj w hs hca ?_ hok
  obtain ⟨as, h1, _⟩ := hj.worker w
  rw [h1] at hu ⊢
  exact C59_disciplined hS _ as hu

/-- Full statement: when the manager has ended, nothing that a worker with suggest/ingest generators has sent is lost, and the worker
is not in a call.  Proved as `System.C17_all_received_partial`, without its hypothesis on user functions. -/
theorem C59_all_received_partial {ws : Nat → W} (c : Manager.Start) (its : List Manager.Iter) (t : Nat → Int) (rounds : List Manager.Round)
    (hg : c.sp.finalGenSend = false) (h : (c.run its t rounds).2.over = true) (hc : (c.loop its).2.clean = true)
    (hx : Manager.hasExc (c.run its t rounds).1.tr = false) (ht : ∀ r ∈ rounds, Manager.wallTest c.sp r.e = false)
    (hj : Joint env (c.run its t rounds).1.tr ws) (w : Nat) (hw : w ∈ c.workers) (hS : Serves env (env.F w) ops cs g)
    (hu : Usual (ws w).tr) (hca : Careful (ws w).tr) :
    onTheWay w (c.run its t rounds).1.tr (ws w) = [] ∧ ords (left (ws w).chan) = [] ∧ ((ws w).ph = .idle ∨ (ws w).ph = .ended) := by
  refine C17_all_received_partial c its t rounds hg h hc hx ht hj w hw hca ?_
  obtain ⟨as, h1, _⟩ := hj.worker w
  rw [h1] at hu ⊢
  exact C59_disciplined hS _ as hu

end Verif.Runner
