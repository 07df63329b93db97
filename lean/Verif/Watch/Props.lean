import Verif.Watch.Model
import Verif.Exec.Props
import Verif.Worker.Told
import Verif.Worker.Buf
/-!
# C92: a simulator that watches a task reports how it ended, and its worker goes on
-/
namespace Verif.Watch
open Verif.Exec
open Verif.Worker (UserF UOut Obs W Body Msg Order STOP sends run fin finishMsg left)

/-! ### The loop -/

/-- What the status should be; `rt`: time at the last poll.  The first pass with a signal, the end of the process, or an error in the output decides, in this order; or the time is over before it. -/
def ask (timeout : Nat) : Nat → List Look → Option Int
  | rt, [] => if rt < timeout then none else some KILL_ON_TIMEOUT
  | rt, p :: ps =>
    if rt < timeout then
      if p.pass.signal = some FINISH ∨ p.pass.signal = some KILL then some FINISH
      else match p.pass.ends with
        | some c => some (if c = 0 then WORKER_DONE else TASK_FAILED)
        | none => if p.err = true then some KILL_ON_ERR else ask timeout p.pass.el ps
    else some KILL_ON_TIMEOUT

/-- The status is asked for and true, and the task has ended. -/
structure Right (l : Loop) (s : Option Int) : Prop where
  status : l.status = s
  finished : ∀ x, s = some x → l.task.finished = true
  done : s = some WORKER_DONE → l.task.errcode = some 0 ∧ l.task.state = .finished
  failed : s = some TASK_FAILED → ∃ c, l.task.errcode = some c ∧ c ≠ 0

theorem close_live {t : Task} (h : Live t) (s : Int) (last : Pass) : Right (close t s last) (some KILL_ON_TIMEOUT) := by
  unfold close
  rw [if_neg (by rw [h.2.1]; decide)]
  exact ⟨rfl, fun _ _ => (killIn_live h last).1, fun e => (by cases e), fun e => (by cases e)⟩

theorem close_fin {t : Task} (h : t.finished = true) {s : Int} (h0 : s ≠ UNSET) (h1 : s ≠ WORKER_DONE) (h2 : s ≠ TASK_FAILED) (last : Pass) : Right (close t s last) (some s) := by
  unfold close
  rw [if_pos h, if_neg h0]
  exact ⟨rfl, fun _ _ => h, fun e => absurd (Option.some.inj e) h1, fun e => absurd (Option.some.inj e) h2⟩

theorem close_ended {t : Task} {c : Int} (h : t.finished = true) (he : t.errcode = some c) (hs : t.state = if c = 0 then .finished else .failed) (last : Pass) :
    Right (close t UNSET last) (some (if c = 0 then WORKER_DONE else TASK_FAILED)) := by
  unfold close
  rw [if_pos h, if_pos rfl, hs]
  by_cases h0 : c = 0
  · subst h0
    exact ⟨rfl, fun _ _ => h, fun _ => ⟨he, by simpa using hs⟩, fun e => (by cases e)⟩
  · simp only [if_neg h0]
    exact ⟨rfl, fun _ _ => h, fun e => (by cases e), fun _ => ⟨c, he, h0⟩⟩

theorem ends_kill {t : Task} (h : Live t) (c : Int) (p : Pass) : ((t.act (.ends c)).killIn p).finished = true := by
  obtain ⟨hd, hf, he, hp, hn⟩ := h
  obtain ⟨q, hq⟩ := Option.isSome_iff_exists.mp hp
  have hqn := hn q hq
  unfold Task.killIn
  cases h0 : p.d0 with
  | some c' => simp [Task.act, Task.kill, Task.poll, hd, hq, hf, exit_ended hqn, exit_some (exit_ended hqn c), Task.setComplete]
  | none => simp [Task.act, Task.kill, Task.poll, hd, hq, hf, exit_ended hqn, Task.setComplete]

/-- **C92**, `custom_polling_loop`: for every task that runs and all passes the status is the one asked for, the task has ended when the loop returns, WORKER_DONE is returned only for code zero and
TASK_FAILED only for another code. -/
theorem C92_custom (timeout : Nat) (last : Pass) : ∀ (ps : List Look) {t : Task}, Live t → Right (customLoop timeout last t ps) (ask timeout t.runtime ps)
  | [], t, h => by
    unfold customLoop ask
    split
    · exact ⟨rfl, fun _ e => (by cases e), fun e => (by cases e), fun e => (by cases e)⟩
    · exact close_live h _ _
  | p :: ps, t, h => by
    have h' := h
    obtain ⟨hd, hf, he, hp, hn⟩ := h'
    obtain ⟨q, hq⟩ := Option.isSome_iff_exists.mp hp
    have hqn := hn q hq
    unfold customLoop ask
    by_cases hr : t.runtime < timeout
    · rw [if_pos hr, if_pos hr]
      by_cases hs : p.pass.signal = some FINISH ∨ p.pass.signal = some KILL
      · simp only [if_pos hs]
        refine close_fin ?_ (by decide) (by decide) (by decide) last
        cases hpe : p.pass.ends with
        | none => exact (killIn_live h p.pass).1
        | some c => exact ends_kill h c p.pass
      · simp only [if_neg hs]
        cases hpe : p.pass.ends with
        | some c =>
          simp only
          have e : (t.act (.ends c)).poll p.pass.el = ((t.act (.ends c)).setComplete c p.pass.el, .ok) := by
            simp [Task.act, Task.poll, hd, hq, hf, exit_ended hqn]
          simp only [e]
          have hfin : ((t.act (.ends c)).setComplete c p.pass.el).finished = true := by simp [Task.act, Task.setComplete, hd]
          rw [if_pos hfin]
          exact close_ended hfin (by simp [Task.act, Task.setComplete, hd]) (by simp [Task.act, Task.setComplete, hd]) last
        | none =>
          simp only
          have e : t.poll p.pass.el = ({ t with state := .running, runtime := p.pass.el }, .ok) := by simp [Task.poll, hd, hq, hf, hqn]
          have hl : Live ({ t with state := .running, runtime := p.pass.el } : Task) := ⟨hd, hf, he, hp, hn⟩
          simp only [e]
          rw [if_neg (show ¬ t.finished = true by rw [hf]; decide)]
          by_cases herr : p.err = true
          · rw [if_pos herr, if_pos herr]
            exact close_fin (killIn_live hl p.pass).1 (by decide) (by decide) (by decide) last
          · rw [if_neg herr, if_neg herr]
            exact C92_custom timeout last ps hl
    · rw [if_neg hr, if_neg hr]
      exact close_live h _ _

/-! ### The worker -/

theorem seen_cons (script : Nat → Look) (x : Obs) (h : List Obs) :
    seen script (x :: h) = seen script h ++ [{ script h.length with pass := { (script h.length).pass with signal := signalOf x } }] := by
  unfold seen
  rw [List.reverse_cons, List.zipIdx_append, List.map_append]
  simp

theorem seen_signal {script : Nat → Look} {h : List Obs} {p : Look} (hp : p ∈ seen script h) {s : Int} (hs : p.pass.signal = some s) : Obs.poll (some (.sig s)) ∈ h := by
  unfold seen at hp
  obtain ⟨⟨x, i⟩, hx, rfl⟩ := List.mem_map.1 hp
  have hx' : x ∈ h.reverse := by
    have := List.mem_zipIdx hx
    simp only [Nat.zero_le, Nat.sub_zero, true_and, Nat.zero_add] at this
    rw [this.2]; exact List.getElem_mem _
  rw [List.mem_reverse] at hx'
  have : signalOf x = some s := hs
  unfold signalOf at this
  split at this
  · cases this; exact hx'
  · cases this

/-- FINISH is returned as a status only if a poll has found it. -/
def Honest (F : UserF) : Prop := ∀ n o b h u, F n o b h = .ret u → u.own = some Worker.FINISH → Obs.poll (some (.sig Worker.FINISH)) ∈ h

/-- What is known of a worker, `S` being the messages sent. -/
def Told (S : List Msg) (w : W) : Prop :=
  (∀ m ∈ left w.chan, m ∈ S) ∧
  match w.ph with
  | .user _ _ h => ∀ b, Obs.poll (some b) ∈ h → ∃ m ∈ S, m.1 = STOP ∧ m.2 = b
  | .userRows _ _ h _ _ => ∀ b, Obs.poll (some b) ∈ h → ∃ m ∈ S, m.1 = STOP ∧ m.2 = b
  | .ended => ∃ m ∈ S, finishMsg m
  | _ => True

theorem told_mono {S S' : List Msg} (hS : ∀ m ∈ S, m ∈ S') {w : W} (h : Told S w) : Told S' w := by
  refine ⟨fun m hm => hS m (h.1 m hm), ?_⟩
  have h2 := h.2
  cases hp : w.ph <;> rw [hp] at h2 <;> simp only at h2 ⊢
  · exact fun b hb => let ⟨m, hm, e⟩ := h2 b hb; ⟨m, hS m hm, e⟩
  · exact fun b hb => let ⟨m, hm, e⟩ := h2 b hb; ⟨m, hS m hm, e⟩
  · exact let ⟨m, hm, e⟩ := h2; ⟨m, hS m hm, e⟩

theorem told_call {S : List Msg} {w : W} (h : ∀ m ∈ left w.chan, m ∈ S) (o : Order) (rows : Option Body) : Told S (w.call o rows) := by
  unfold W.call
  split
  · exact ⟨h, fun b hb => (by cases hb)⟩
  · exact ⟨h, trivial⟩

theorem told_finish {S : List Msg} {w : W} (h : ∀ m ∈ left w.chan, m ∈ S) (o : Order) (u : UOut) (hu : u.own = some Worker.FINISH → ∃ m ∈ S, finishMsg m) : Told S (w.finish o u) := by
  have key : ∀ (w' : W) (s : Int), (∀ m ∈ left w'.chan, m ∈ S) → (s = Worker.FINISH → ∃ m ∈ S, finishMsg m) → s = Worker.FINISH ∨ s = 0 →
      Told S (match u.status s with
        | Option.none => w'.fail
        | some (s, row) => if s = Worker.FINISH then { w' with ph := .ended, tr := .stop :: w'.tr }
          else { w' with ph := .idle, n := w'.n + 1, tr := .out (.answer o s row) :: w'.tr }) := by
    intro w' s hw hs _
    cases hst : u.status s with
    | none => exact ⟨hw, trivial⟩
    | some x =>
      obtain ⟨x, row⟩ := x
      simp only
      split
      · rename_i hx
        refine ⟨hw, ?_⟩
        subst hx
        show ∃ m ∈ S, finishMsg m
        cases u <;> simp only [UOut.status, Option.some.injEq, Prod.mk.injEq, reduceCtorEq] at hst
        case pairStatus => exact hu (by rw [UOut.own, hst.1])
        case triple => exact hu (by rw [UOut.own, hst.1])
        all_goals exact hs hst.1
      · exact ⟨hw, trivial⟩
  unfold W.finish
  simp only [W.log]
  cases hb : w.chan.buf with
  | none => exact key _ 0 h (fun e => absurd e (by decide)) (Or.inr rfl)
  | some m =>
    have hm : m ∈ S := h m (by simp [left, hb])
    have hrec : w.chan.recv = ({ w.chan with buf := none }, some m) := by simp [Comms.Chan.recv, hb]
    have hl : ∀ x ∈ left w.chan.recv.1, x ∈ S := by
      intro x hx
      rw [hrec] at hx
      exact h x (by simp [left, hb] at hx ⊢; exact Or.inr hx)
    simp only
    by_cases hf : Worker.isStop m.1 = true ∧ m.2 = Body.sig Worker.FINISH
    · rw [if_pos hf]
      exact key { w with chan := w.chan.recv.1, tr := .buffered m :: .ret u :: w.tr } _ hl (fun _ => ⟨m, hm, hf⟩) (Or.inl rfl)
    · rw [if_neg hf]
      exact key { w with chan := w.chan.recv.1, tr := .buffered m :: .ret u :: w.tr } 0 hl (fun e => absurd e (by decide)) (Or.inr rfl)

theorem told_back {S : List Msg} {w : W} (h : ∀ m ∈ left w.chan, m ∈ S) (hb : w.chan.buf = none) {m : Msg} (hm : m ∈ S) (o : Order) (rows : Option Body) (hs : List Obs) (x : Obs)
    (hx : ∀ b, Obs.poll (some b) ∈ x :: hs → ∃ m ∈ S, m.1 = STOP ∧ m.2 = b) : Told S (w.pushBack m o rows hs x) := by
  unfold W.pushBack
  rw [Worker.push_ok hb]
  refine ⟨fun y hy => ?_, hx⟩
  change y ∈ left { w.chan with buf := some m } at hy
  rw [Worker.left_push hb] at hy
  rcases List.mem_cons.1 hy with rfl | hy
  · exact hm
  · exact h y hy

theorem told_tick {F : UserF} (hF : Honest F) {S : List Msg} {w : W} (ht : Told S w) : Told S (Worker.tick F w) := by
  have ht0 := ht
  obtain ⟨hl, hph⟩ := ht
  have rc : ∀ {c : Comms.Chan Msg} {m : Msg}, w.chan.recv = (c, some m) → m ∈ S ∧ ∀ x ∈ left c, x ∈ S := by
    intro c m hc
    rw [Worker.left_recv hc] at hl
    exact ⟨hl m (by simp), fun x hx => hl x (by simp [hx])⟩
  unfold Worker.tick
  cases hp : w.ph with
  | ended => exact ht0
  | failed => exact ht0
  | idle =>
    simp only
    rcases hc : w.chan.recv with ⟨c, _ | m⟩
    · exact ht0
    · obtain ⟨hm, hl'⟩ := rc hc
      simp only
      unfold W.handle
      simp only [W.log]
      split
      · rename_i hf; exact ⟨hl', m, hm, hf⟩
      · split
        · exact ⟨hl', by simp only [hp]⟩
        · split
          · split
            · split
              · exact ⟨hl', by simp only [hp]⟩
              · exact ⟨hl', trivial⟩
            · split
              · exact told_call (w := { w with chan := c, tr := .took m :: w.tr }) hl' _ _
              · exact ⟨hl', trivial⟩
          · exact ⟨hl', trivial⟩
  | skipRows o =>
    simp only
    rcases hc : w.chan.recv with ⟨c, _ | m⟩
    · exact ht0
    · obtain ⟨hm, hl'⟩ := rc hc
      simp only [W.log]
      split <;> exact ⟨hl', trivial⟩
  | needRows o =>
    simp only
    rcases hc : w.chan.recv with ⟨c, _ | m⟩
    · exact ht0
    · exact told_call (w := { w with chan := c, tr := .tookRows m :: w.tr }) (rc hc).2 _ _
  | user o rows h =>
    have hk : ∀ b, Obs.poll (some b) ∈ h → ∃ m ∈ S, m.1 = STOP ∧ m.2 = b := by rw [hp] at hph; exact hph
    have hk' : ∀ x : Obs, (∀ b, x ≠ .poll (some b)) → ∀ b, Obs.poll (some b) ∈ x :: h → ∃ m ∈ S, m.1 = STOP ∧ m.2 = b := by
      intro x hx b hb
      rcases List.mem_cons.1 hb with e | hb
      · exact absurd e.symm (hx b)
      · exact hk b hb
    simp only
    cases hf : F w.n o rows h with
    | send x => exact ⟨hl, hk' _ (by simp)⟩
    | raise => exact ⟨hl, trivial⟩
    | ret u =>
      refine told_finish hl o u fun hu => ?_
      obtain ⟨m, hm, h1, h2⟩ := hk _ (hF _ _ _ _ _ hf hu)
      exact ⟨m, hm, by rw [h1]; decide, h2⟩
    | poll =>
      simp only
      split
      · exact ⟨hl, hk' _ (by simp)⟩
      · rcases hc : w.chan.recv with ⟨c, _ | m⟩
        · exact ht0
        · obtain ⟨hm, hl'⟩ := rc hc
          simp only [W.log]
          split
          · exact ⟨hl', hk' _ (by simp)⟩
          · rename_i hst
            refine told_back (w := { w with chan := c, tr := .ptook m :: w.tr }) hl' (Worker.recv_buf_none hc) hm o rows h _ fun b hb => ?_
            rcases List.mem_cons.1 hb with e | hb
            · cases e; exact ⟨m, hm, Decidable.not_not.1 hst, rfl⟩
            · exact hk b hb
    | recv bl =>
      simp only
      split
      · exact ⟨hl, hk' _ (by simp)⟩
      · rcases hc : w.chan.recv with ⟨c, _ | m⟩
        · exact ht0
        · obtain ⟨hm, hl'⟩ := rc hc
          simp only [W.log]
          split
          · exact ⟨hl', hk⟩
          · split
            · exact told_back (w := { w with chan := c, tr := .utook m :: w.tr }) hl' (Worker.recv_buf_none hc) hm o rows h _ (hk' _ (by simp))
            · exact ⟨hl', hk' _ (by simp)⟩
  | userRows o rows h t o' =>
    have hk : ∀ b, Obs.poll (some b) ∈ h → ∃ m ∈ S, m.1 = STOP ∧ m.2 = b := by rw [hp] at hph; exact hph
    have hk' : ∀ x : Obs, (∀ b, x ≠ .poll (some b)) → ∀ b, Obs.poll (some b) ∈ x :: h → ∃ m ∈ S, m.1 = STOP ∧ m.2 = b := by
      intro x hx b hb
      rcases List.mem_cons.1 hb with e | hb
      · exact absurd e.symm (hx b)
      · exact hk b hb
    simp only
    rcases hc : w.chan.recv with ⟨c, _ | m⟩
    · exact ht0
    · obtain ⟨hm, hl'⟩ := rc hc
      simp only [W.log]
      split
      · exact told_back (w := { w with chan := c, tr := .utookRows m :: w.tr }) hl' (Worker.recv_buf_none hc) hm o rows h _ (hk' _ (by simp))
      · exact ⟨hl', hk' _ (by simp)⟩

theorem told_run {F : UserF} (hF : Honest F) (k : Comms.Kind) (as : List Worker.Act) : Told (sends as) (run F k as) := by
  suffices hg : ∀ (bs pre : List Worker.Act) (w : W), Told (sends pre) w → Told (sends (pre ++ bs)) (bs.foldl (Worker.act F) w) by
    have := hg as [] { chan := { kind := k } } ⟨fun m hm => (by simp [left] at hm), trivial⟩
    simpa [run] using this
  intro bs
  induction bs with
  | nil => intro pre w h; simpa using h
  | cons a bs ih =>
    intro pre w h
    have h1 : Told (sends (pre ++ [a])) (Worker.act F w a) := by
      cases a with
      | send m =>
        have hm := told_mono (S' := sends (pre ++ [.send m])) (fun x hx => by rw [Worker.sends_append]; simp [hx]) h
        refine ⟨fun x hx => ?_, hm.2⟩
        change x ∈ left (w.chan.send m) at hx
        rw [Worker.left_send] at hx
        rcases List.mem_append.1 hx with hx | hx
        · exact hm.1 x hx
        · rw [Worker.sends_append]; simp at hx; subst hx; simp [sends]
      | carry =>
        have e : sends (pre ++ [.carry]) = sends pre := by rw [Worker.sends_append]; simp [sends]
        rw [e]
        refine ⟨fun x hx => h.1 x ?_, h.2⟩
        change x ∈ left w.chan.carry at hx
        rwa [Worker.left_carry] at hx
      | tick =>
        have e : sends (pre ++ [.tick]) = sends pre := by rw [Worker.sends_append]; simp [sends]
        rw [e]
        exact told_tick hF h
    have := ih (pre ++ [a]) _ h1
    simpa using this

/-- A worker ends only if the manager has told it to, provided that the user function is honest about it. -/
theorem ends_told {F : UserF} (hF : Honest F) (k : Comms.Kind) (as : List Worker.Act) (he : (run F k as).ph = .ended) : ∃ m ∈ sends as, finishMsg m := by
  have := (told_run hF k as).2
  rw [he] at this
  exact this

theorem poll_honest {t : Task} (h : Live t) (timeout : Option Nat) (script : Nat → Nat → Look) : Honest (pollSim t timeout script) := by
  intro n o b hs u hu hown
  unfold pollSim at hu
  split at hu
  · rename_i s hst
    cases hu
    cases hown
    rcases C41_truth h timeout true _ hst with k | k | ⟨_, _, p, hp, hsig⟩ | k
    · exact absurd k.1 (by decide)
    · exact absurd k.1 (by decide)
    · obtain ⟨p', hp', rfl⟩ := List.mem_map.1 hp
      exact seen_signal hp' hsig
    · exact absurd k.1 (by decide)
  · cases hu

/-- **C92**, the polling loop of the executor: in every run, with every script of the processes, the worker ends only if it was told to finish. -/
theorem C92_goes_on {t : Task} (h : Live t) (timeout : Option Nat) (script : Nat → Nat → Look) (k : Comms.Kind) (as : List Worker.Act)
    (he : (run (pollSim t timeout script) k as).ph = .ended) : ∃ m ∈ sends as, finishMsg m := ends_told (poll_honest h timeout script) k as he

theorem bore_honest (x : Point) {t : Task} (h : Live t) (script : Nat → Nat → Look) : Honest (boreSim x t script) := by
  intro n o b hs u hu hown
  unfold boreSim at hu
  split at hu
  · rename_i s hst
    cases hu
    have hown : (bore x s).1 = Worker.FINISH := by simpa [UOut.own] using hown
    have hs : s = FINISH := by
      unfold bore at hown
      simp only at hown
      split at hown
      · exact hown
      · split at hown
        · exact absurd hown (by decide)
        · exact hown
    subst hs
    rcases C41_truth h none true _ hst with k | k | ⟨_, _, p, hp, hsig⟩ | k
    · exact absurd k.1 (by decide)
    · exact absurd k.1 (by decide)
    · obtain ⟨p', hp', rfl⟩ := List.mem_map.1 hp
      exact seen_signal hp' hsig
    · exact absurd k.1 (by decide)
  · cases hu

/-- The same for `borehole`. -/
theorem C92_bore_goes_on (x : Point) {t : Task} (h : Live t) (script : Nat → Nat → Look) (k : Comms.Kind) (as : List Worker.Act)
    (he : (run (boreSim x t script) k as).ph = .ended) : ∃ m ∈ sends as, finishMsg m := ends_told (bore_honest x h script) k as he

theorem ask_finish {timeout : Nat} : ∀ {ps : List Look} {rt : Nat}, ask timeout rt ps = some FINISH → ∃ p ∈ ps, p.pass.signal = some FINISH ∨ p.pass.signal = some KILL
  | [], rt, h => by
    unfold ask at h
    split at h
    · cases h
    · cases h
  | p :: ps, rt, h => by
    unfold ask at h
    split at h
    · split at h
      · rename_i hs; exact ⟨p, by simp, hs⟩
      · split at h
        · split at h <;> cases h
        · split at h
          · cases h
          · obtain ⟨q, hq, hs⟩ := ask_finish h
            exact ⟨q, by simp [hq], hs⟩
    · cases h

/-- `custom_polling_loop`: the worker ends only if it was told to finish, or to kill the task. -/
theorem C92_custom_goes_on_partial {t : Task} (h : Live t) (timeout : Nat) (last : Pass) (script : Nat → Nat → Look) (k : Comms.Kind) (as : List Worker.Act)
    (hk : ∀ m ∈ sends as, m ≠ (STOP, .sig Worker.KILL)) (he : (run (customSim t timeout last script) k as).ph = .ended) : ∃ m ∈ sends as, finishMsg m := by
  -- the same worker with a function that takes a kill signal for nothing
  let G : UserF := fun n o b hs => if Obs.poll (some (.sig Worker.KILL)) ∈ hs then .poll else customSim t timeout last script n o b hs
  have hG : Honest G := by
    intro n o b hs u hu hown
    by_cases hkk : Obs.poll (some (.sig Worker.KILL)) ∈ hs
    · simp [G, hkk] at hu
    · simp only [G, if_neg hkk] at hu
      unfold customSim at hu
      split at hu
      · rename_i s hst
        cases hu
        cases hown
        have hr := (C92_custom timeout last (seen (script n) hs) h).status
        rw [hst] at hr
        obtain ⟨p, hp, hsig⟩ := ask_finish hr.symm
        rcases hsig with hsig | hsig
        · exact seen_signal hp hsig
        · exact absurd (seen_signal hp hsig) hkk
      · cases hu
  have same : ∀ (n : Nat) (as : List Worker.Act), as.length = n → (∀ m ∈ sends as, m ≠ (STOP, .sig Worker.KILL)) → run (customSim t timeout last script) k as = run G k as := by
    intro n
    induction n with
    | zero => intro as hn _; rw [List.length_eq_zero_iff.1 hn]; rfl
    | succ n ih =>
      intro bs hn hk
      rcases List.eq_nil_or_concat bs with rfl | ⟨as, a, hb⟩
      · cases hn
      simp only [List.concat_eq_append] at hb
      subst hb
      have ih' := ih as (by simpa using hn) fun m hm => hk m (by rw [Worker.sends_append]; simp [hm])
      unfold run at ih' ⊢
      rw [List.foldl_append, List.foldl_append, ih']
      cases a with
      | send m => rfl
      | carry => rfl
      | tick =>
        show Worker.tick _ (run G k as) = Worker.tick G (run G k as)
        have ht := (told_run hG k as).2
        unfold Worker.tick
        cases hp : (run G k as).ph with
        | user o rows hs =>
          rw [hp] at ht
          have hno : Obs.poll (some (.sig Worker.KILL)) ∉ hs := by
            intro hm
            obtain ⟨m, hm, h1, h2⟩ := ht _ hm
            exact hk m (by rw [Worker.sends_append]; simp [hm]) (Prod.ext h1 h2)
          have e : G (run G k as).n o rows hs = customSim t timeout last script (run G k as).n o rows hs := by simp only [G, if_neg hno]
          simp only [e]
        | _ => rfl
  rw [same _ as rfl hk] at he
  exact ends_told hG k as he

/-! ### A signal -/

theorem ask_snoc {timeout : Nat} (p : Look) (hp : p.pass.signal = some FINISH ∨ p.pass.signal = some KILL) : ∀ {ps : List Look} {rt : Nat}, ask timeout rt ps = none → ask timeout rt (ps ++ [p]) = some FINISH
  | [], rt, h => by
    unfold ask at h
    split at h
    · rename_i hr
      rw [List.nil_append, ask, if_pos hr, if_pos hp]
    · cases h
  | q :: ps, rt, h => by
    rw [List.cons_append]
    unfold ask at h ⊢
    split at h
    · rename_i hr
      rw [if_pos hr]
      split at h
      · cases h
      · rename_i hs
        rw [if_neg hs]
        cases hq : q.pass.ends with
        | some c => rw [hq] at h; cases h
        | none =>
          rw [hq] at h
          simp only at h ⊢
          split at h
          · cases h
          · rename_i he
            rw [if_neg he]
            exact ask_snoc p hp h
    · cases h

theorem expected_snoc {timeout : Option Nat} (p : Pass) (hp : p.signal = some FINISH ∨ p.signal = some KILL) : ∀ {ps : List Pass}, expected timeout true ps = none →
    expected timeout true (ps ++ [p]) = p.signal
  | [], _ => by rw [List.nil_append, expected, if_pos ⟨rfl, hp⟩]
  | q :: ps, h => by
    rw [List.cons_append]
    unfold expected at h ⊢
    split at h
    · rename_i hs; rcases hs.2 with e | e <;> rw [e] at h <;> cases h
    · rename_i hs
      rw [if_neg hs]
      split at h
      · cases h
      · rename_i ho
        rw [if_neg ho]
        cases hq : q.ends with
        | some c => rw [hq] at h; cases h
        | none => rw [hq] at h; simp only at h ⊢; exact expected_snoc p hp h

/-- The poll finds the message `m`, which has the stop tag, and the function returns `u`. -/
theorem two_ticks {F : UserF} {w : W} {o : Order} {rows : Option Body} {h : List Obs} {m : Msg} {c : Comms.Chan Msg} {u : UOut} (hp : w.ph = .user o rows h) (hF : F w.n o rows h = .poll)
    (hmail : w.chan.mailFlag = true) (hc : w.chan.recv = (c, some m)) (hm : m.1 = STOP) (hu : F w.n o rows (.poll (some m.2) :: h) = .ret u) :
    Worker.tick F (Worker.tick F w) =
      ({ w with chan := { c with buf := some m }, ph := .user o rows (.poll (some m.2) :: h), tr := .uback m :: .ptook m :: w.tr } : W).finish o u := by
  have h1 : Worker.tick F w = { w with chan := { c with buf := some m }, ph := .user o rows (.poll (some m.2) :: h), tr := .uback m :: .ptook m :: w.tr } := by
    unfold Worker.tick
    rw [hp]
    simp only [hF, hmail, hc, W.log, Bool.true_eq_false, if_false]
    rw [if_neg (show ¬ m.1 ≠ STOP by rw [hm]; simp)]
    unfold W.pushBack
    rw [Worker.push_ok (Worker.recv_buf_none hc)]
  rw [h1]
  conv => lhs; unfold Worker.tick
  simp only [hu]

/-- A signal that is waiting while a function with `custom_polling_loop` is about to poll: the worker ends without an answer, also if it is the signal to kill the task and not to finish. -/
theorem C92_kill_ends {t : Task} (ht : Live t) (timeout : Nat) (last : Pass) (script : Nat → Nat → Look) {w : W} {o : Order} {rows : Option Body} {h : List Obs} {s : Int} {c : Comms.Chan Msg}
    (hp : w.ph = .user o rows h) (hF : customSim t timeout last script w.n o rows h = .poll) (hmail : w.chan.mailFlag = true) (hc : w.chan.recv = (c, some (STOP, .sig s)))
    (hs : s = FINISH ∨ s = KILL) :
    let w' := Worker.tick (customSim t timeout last script) (Worker.tick (customSim t timeout last script) w)
    w'.ph = .ended ∧ w'.tr = .stop :: .buffered (STOP, .sig s) :: .ret (.pairStatus FINISH) :: .uback (STOP, .sig s) :: .ptook (STOP, .sig s) :: w.tr := by
  have hu : customSim t timeout last script w.n o rows (.poll (some (.sig s)) :: h) = .ret (.pairStatus FINISH) := by
    unfold customSim at hF ⊢
    rw [(C92_custom timeout last _ ht).status] at hF ⊢
    have hn : ask timeout t.runtime (seen (script w.n) h) = none := by
      split at hF
      · cases hF
      · assumption
    rw [seen_cons, ask_snoc _ (by rcases hs with rfl | rfl <;> simp [signalOf]) hn]
  have := two_ticks hp hF hmail hc rfl hu
  simp only [this]
  exact ⟨rfl, rfl⟩

/-- With the polling loop of the executor: a kill signal is answered with status KILL and the worker goes on; a finish signal ends it. -/
theorem C92_answered {t : Task} (ht : Live t) (timeout : Option Nat) (script : Nat → Nat → Look) {w : W} {o : Order} {rows : Option Body} {h : List Obs} {s : Int} {c : Comms.Chan Msg}
    (hp : w.ph = .user o rows h) (hF : pollSim t timeout script w.n o rows h = .poll) (hmail : w.chan.mailFlag = true) (hc : w.chan.recv = (c, some (STOP, .sig s))) :
    let w' := Worker.tick (pollSim t timeout script) (Worker.tick (pollSim t timeout script) w)
    (s = KILL → w'.ph = .idle ∧ w'.chan = c ∧
      w'.tr = .out (.answer o KILL false) :: .buffered (STOP, .sig s) :: .ret (.pairStatus KILL) :: .uback (STOP, .sig s) :: .ptook (STOP, .sig s) :: w.tr) ∧
    (s = FINISH → w'.ph = .ended) := by
  have hu : s = FINISH ∨ s = KILL → pollSim t timeout script w.n o rows (.poll (some (.sig s)) :: h) = .ret (.pairStatus s) := by
    intro hs
    unfold pollSim at hF ⊢
    rw [C41_status ht] at hF ⊢
    have hn : expected timeout true ((seen (script w.n) h).map (·.pass)) = none := by
      split at hF
      · cases hF
      · assumption
    rw [seen_cons, List.map_append, List.map_singleton, expected_snoc _ (by rcases hs with rfl | rfl <;> simp [signalOf]) hn]
    rfl
  have hcb : ({ c with buf := none } : Comms.Chan Msg) = c := by
    have := Worker.recv_buf_none hc
    cases c; simp only at this; subst this; rfl
  refine ⟨fun hs => ?_, fun hs => ?_⟩
  · subst hs
    have := two_ticks hp hF hmail hc rfl (hu (Or.inr rfl))
    simp only [this]
    exact ⟨rfl, hcb, rfl⟩
  · subst hs
    have := two_ticks hp hF hmail hc rfl (hu (Or.inl rfl))
    simp only [this]
    rfl

/-! ### `borehole` -/

/-- With a field `sim_killed`: the field is set if and only if the task was killed, the status of the loop is returned but for failures of the model, and the value is infinite if and only if
the task was killed or the status is TASK_FAILED. -/
theorem C92_bore_partial (x : Point) (hx : x.hasField = true) (s : Int) :
    ((bore x s).2.2 = true ↔ s = FINISH ∨ s = KILL) ∧
    ((bore x s).1 = s ∨ (bore x s).1 = TASK_FAILED ∧ x.late = true ∧ (x.big = true ∨ s = TASK_FAILED) ∧ ¬ (s = FINISH ∨ s = KILL)) ∧
    ((bore x s).2.1 = true ↔ (s = FINISH ∨ s = KILL) ∨ (bore x s).1 = TASK_FAILED) := by
  unfold bore
  by_cases h1 : s = FINISH ∨ s = KILL
  · simp only [h1, hx, and_self, if_true]
    simp
  · simp only [h1, false_and, if_false]
    have h2 : s ≠ FINISH := fun e => h1 (Or.inl e)
    have h3 : s ≠ KILL := fun e => h1 (Or.inr e)
    by_cases h4 : x.late = true ∧ ((s = FINISH ∨ s = KILL ∨ s = TASK_FAILED) ∨ x.big = true)
    · rw [if_pos h4]
      refine ⟨by simp, Or.inr ⟨rfl, h4.1, ?_, by simp⟩, by simp⟩
      rcases h4.2 with (h | h | h) | h
      · exact absurd h h2
      · exact absurd h h3
      · exact Or.inr h
      · exact Or.inl h
    · rw [if_neg h4]
      refine ⟨by simp, Or.inl rfl, ?_⟩
      simp [h2, h3]

/-- Without the field, for a point above `num_obs`: the finish signal is answered with TASK_FAILED, is gone, and the worker waits for another message. -/
theorem C92_bore_finish_lost {t : Task} (ht : Live t) (script : Nat → Nat → Look) (x : Point) (hx : x.hasField = false) (hl : x.late = true) {w : W} {o : Order} {rows : Option Body}
    {h : List Obs} {s : Int} {c : Comms.Chan Msg} (hp : w.ph = .user o rows h) (hF : boreSim x t script w.n o rows h = .poll) (hmail : w.chan.mailFlag = true)
    (hc : w.chan.recv = (c, some (STOP, .sig s))) (hs : s = FINISH ∨ s = KILL) :
    let w' := Worker.tick (boreSim x t script) (Worker.tick (boreSim x t script) w)
    w'.ph = .idle ∧ w'.chan = c ∧ Worker.Ev.out (.answer o TASK_FAILED false) ∈ w'.tr := by
  have hu : boreSim x t script w.n o rows (.poll (some (.sig s)) :: h) = .ret (.triple TASK_FAILED) := by
    unfold boreSim at hF ⊢
    rw [C41_status ht] at hF ⊢
    have hn : expected none true ((seen (script w.n) h).map (·.pass)) = none := by
      split at hF
      · cases hF
      · assumption
    rw [seen_cons, List.map_append, List.map_singleton, expected_snoc _ (by rcases hs with rfl | rfl <;> simp [signalOf]) hn]
    have : (bore x s).1 = TASK_FAILED := by
      unfold bore
      simp only [hx, hl, Bool.false_eq_true, and_false, if_false, true_and]
      rw [if_pos (by rcases hs with h | h <;> simp [h])]
    simp [signalOf, this]
  have hcb : ({ c with buf := none } : Comms.Chan Msg) = c := by
    have := Worker.recv_buf_none hc
    cases c; simp only at this; subst this; rfl
  have := two_ticks hp hF hmail hc rfl hu
  simp only [this]
  exact ⟨rfl, hcb, List.Mem.head _⟩

/-! ### Cases -/

/-- A process that runs on, one unit of time in each pass. -/
def on : Nat → Nat → Look := fun _ i => { pass := { el := i + 1 } }

def simOrder : Order := { tag := Worker.EVAL_SIM, rows := [4] }

def arrives (ms : List Msg) (n : Nat) : List Worker.Act := ms.flatMap (fun m => [.send m, .carry]) ++ List.replicate n .tick

/-- The manager cancels a point: the worker with `custom_polling_loop` ends, no answer was sent; the one with the polling loop of the executor answers and takes the next order. -/
theorem C92_kill_witness :
    (run (customSim liveTask 9 { el := 9 } on) .queue (arrives [(Worker.EVAL_SIM, .work simOrder), (0, .data 9), (STOP, .sig Worker.KILL), (Worker.EVAL_SIM, .work simOrder)] 9)).ph = .ended ∧
    (∀ st r, .out (.answer simOrder st r) ∉
      (run (customSim liveTask 9 { el := 9 } on) .queue (arrives [(Worker.EVAL_SIM, .work simOrder), (0, .data 9), (STOP, .sig Worker.KILL), (Worker.EVAL_SIM, .work simOrder)] 9)).tr) ∧
    (run (pollSim liveTask (some 9) on) .queue (arrives [(Worker.EVAL_SIM, .work simOrder), (0, .data 9), (STOP, .sig Worker.KILL), (Worker.EVAL_SIM, .work simOrder)] 9)).ph =
      .needRows simOrder := by
  refine ⟨by decide, fun st r hm => ?_, by decide⟩
  have e : (run (customSim liveTask 9 { el := 9 } on) .queue (arrives [(Worker.EVAL_SIM, .work simOrder), (0, .data 9), (STOP, .sig Worker.KILL), (Worker.EVAL_SIM, .work simOrder)] 9)).tr =
    [.stop, .buffered (STOP, .sig Worker.KILL), .ret (.pairStatus FINISH), .uback (STOP, .sig Worker.KILL), .ptook (STOP, .sig Worker.KILL), .start simOrder (some (.data 9)),
      .tookRows (0, .data 9), .took (Worker.EVAL_SIM, .work simOrder)] := by decide
  rw [e] at hm
  simp at hm

/-- A process that ends well between the last poll and the end of the time: reported as killed on timeout. -/
theorem C92_timeout_witness :
    (customLoop 2 { el := 3, d0 := some 0 } liveTask [{ pass := { el := 1 } }, { pass := { el := 2 } }]).status = some KILL_ON_TIMEOUT ∧
    (customLoop 2 { el := 3, d0 := some 0 } liveTask [{ pass := { el := 1 } }, { pass := { el := 2 } }]).task.state = .finished := by decide

example : (customLoop 9 { el := 9 } liveTask [{ pass := { el := 1 } }, { pass := { el := 2 }, err := true }]).status = some KILL_ON_ERR ∧
    (customLoop 9 { el := 9 } liveTask [{ pass := { el := 1 } }, { pass := { el := 2, ends := some 1 }, err := true }]).status = some TASK_FAILED ∧
    (customLoop 9 { el := 9 } liveTask [{ pass := { el := 1 } }, { pass := { el := 2, ends := some 0 } }]).status = some WORKER_DONE := by decide

/-- The hypotheses of `C92_kill_ends` and `C92_bore_finish_lost`. -/
example : let w := run (customSim liveTask 9 { el := 9 } on) .queue (arrives [(Worker.EVAL_SIM, .work simOrder), (0, .data 9), (STOP, .sig Worker.KILL)] 2)
    w.ph = .user simOrder (some (.data 9)) [] ∧ customSim liveTask 9 { el := 9 } on w.n simOrder (some (.data 9)) [] = .poll ∧ w.chan.mailFlag = true ∧
      w.chan.recv.2 = some (STOP, .sig Worker.KILL) := by decide

example : let w := run (boreSim ⟨false, true, false⟩ liveTask on) .queue (arrives [(Worker.EVAL_SIM, .work simOrder), (0, .data 9), fin] 9)
    w.ph = .idle ∧ left w.chan = [] := by decide

end Verif.Watch
