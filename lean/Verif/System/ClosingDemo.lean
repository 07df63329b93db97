import Verif.System.PropsClosing
import Verif.System.ShutdownDemo
import Verif.System.GensDemo
/-!
Concrete courses of events for C75 with persistent generators.
-/
namespace Verif.System
open Verif Verif.Worker
open Verif.Manager (Start Iter Bundled Mail Round gopts bdemo_std)

/-- As `askF`; when told to stop the generator ends. -/
def leaveF : UserF := fun n o rows h =>
  match h with
  | .signal _ _ :: .sent :: _ => if o.persistent then .ret (.triple 12) else askF n o rows h
  | _ => askF n o rows h

def leaveEnv : Env := { askEnv with F := fun _ => leaveF }

theorem leaveF_plain {n : Nat} {o : Order} {rows : Option Body} {h : List Obs} (ho : o.persistent = false) : leaveF n o rows h = askF n o rows h := by
  unfold leaveF
  split
  · rw [ho]; rfl
  · rfl

theorem leaveF_simple : Simple leaveF where
  acts n o rows h hp := by rw [leaveF_plain hp]; exact askF_simple.acts n o rows h hp
  ends n o rows hp := by
    obtain ⟨B, hB⟩ := askF_simple.ends n o rows hp
    exact ⟨B, fun h hl => by rw [leaveF_plain hp]; exact hB h hl⟩

theorem leaveF_leaving : Leaving leaveEnv leaveF where
  acts n o rows h hp ha := by
    have : leaveF n o rows h = askF n o rows h := by
      unfold leaveF
      split
      · cases ha
      · rfl
    rw [this]
    exact askF_asking.acts n o rows h hp ha
  waits n o rows h hp := askF_asking.waits n o rows h hp
  leaves n o rows h t b hp _ := ⟨.triple 12, by simp only [leaveF, hp, if_true], rfl⟩

/-- The last message of a generator. -/
def gensLast (w : Nat) (rows : List Nat) : Mail := { w := w, t := 6, m := .data { gensMsg with calcStatus := 12, rows := rows, persistent := true } }

/-- One evaluation is asked for: the second generator has not sent anything when the main loop ends. -/
def closeDemo : Start := { gensDemo with sp := { simMax := some 1 } }
def cpassOf (mail : List Mail) : Iter := Manager.bpass (.persGens gopts) Manager.demoEnv closeDemo.sp mail
def closeIts : List Iter := [cpassOf [], cpassOf [gensSaid 1 []], cpassOf [Manager.value 3 [0] [5]]]
def closePass (k : Nat) : Iter := closeIts.getD k (cpassOf [])

/-- It sends a point, sees the signal and ends; the first one ends later. -/
def closeRound : Nat → Round
  | 0 => { mail := [gensSaid 2 []], e := 0 }
  | 1 => { mail := [gensLast 2 []], e := 0 }
  | 2 => { mail := [gensLast 1 []], e := 0 }
  | _ => { mail := [], e := 0 }

theorem close_uses (k : Nat) : (closePass k).uses (.persGens gopts) Manager.demoEnv closeDemo.sp := by
  unfold closePass
  match k with
  | 0 | 1 | 2 => exact Manager.bpass_uses _ _ _ _ _
  | k + 3 => simp only [closeIts, List.getD_cons_succ, List.getD_nil]; exact Manager.bpass_uses _ _ _ _ _

theorem close_clock (k : Nat) : (closePass k).e2 ≤ (closePass (k + 1)).e1 := by
  unfold closePass
  match k with
  | 0 | 1 | 2 => exact Int.le_refl _
  | k + 3 => simp only [closeIts, List.getD_cons_succ, List.getD_nil]; exact Int.le_refl _

theorem close_stopped : (closeDemo.loop (Manager.passes closePass 4)).2 = .stopped 1 := by decide +kernel

theorem close_clean (k : Nat) : (closeDemo.loop (Manager.passes closePass k)).2.clean = true := by
  by_cases hk : k < 5
  · have : ∀ k < 5, (closeDemo.loop (Manager.passes closePass k)).2.clean = true := by decide +kernel
    exact this k hk
  · rw [Manager.passes_ended (n := 4) (by rw [close_stopped]; nofun) k (by omega), close_stopped]; rfl

theorem close_returned : (whole closeDemo closePass (fun _ => 0) closeRound 4).2 = .returned 0 := by decide +kernel

theorem close_out (w : Nat) (d : Manager.Data) (hm : .recv w (.data d) ∈ (whole closeDemo closePass (fun _ => 0) closeRound 4).1.tr)
    (hc : d.calcType = Alloc.EVAL_GEN) : d.out = gensMsg.out := by
  rcases Manager.run_mail _ _ _ _ hm with h | ⟨it, hit, x, hx, h1, h2⟩ | ⟨x, hx, h1, h2⟩
  · rw [Manager.start_tr] at h; cases h
  · simp only [Manager.passes, List.mem_map, List.mem_range] at hit
    obtain ⟨k, hk, rfl⟩ := hit
    match k with
    | 0 => cases hx
    | 1 =>
      simp only [closePass, closeIts, List.getD_cons_succ, List.getD_cons_zero, cpassOf, Manager.bpass, List.mem_cons, List.not_mem_nil, or_false] at hx
      subst hx; injection h2 with h2; subst h2; rfl
    | 2 =>
      simp only [closePass, closeIts, List.getD_cons_succ, List.getD_cons_zero, cpassOf, Manager.bpass, List.mem_cons, List.not_mem_nil, or_false] at hx
      subst hx; injection h2 with h2; subst h2; cases hc
    | 3 => cases hx
    | k + 4 => omega
  · simp only [Manager.rounds, List.mem_flatMap, List.mem_map, List.mem_range] at hx
    obtain ⟨r, ⟨k, hk, rfl⟩, hx⟩ := hx
    match k with
    | 0 | 1 | 2 =>
      simp only [closeRound, List.mem_cons, List.not_mem_nil, or_false] at hx
      subst hx; injection h2 with h2; subst h2; rfl
    | 3 => cases hx
    | k + 4 => omega

def closeCourse : FullCourse leaveEnv closeDemo closePass (fun _ => 0) closeRound :=
  fullOf leaveEnv true closeDemo closePass (fun _ => 0) closeRound 4 (scriptOf (whole closeDemo closePass (fun _ => 0) closeRound 4).1.tr)
    (by rw [close_returned]; exact ⟨nofun, nofun⟩) (scriptOf_evs _) (by decide +kernel) (fun _ w d hm hc _ => close_out w d hm hc)

/-- When the main loop ends, both generators are there, and one of them is at work; the manager tells both to stop and waits for them. -/
example : (closeDemo.run (Manager.passes closePass 4) (fun _ => 0) (Manager.rounds closeRound 2)).2 = .waiting ∧
    Manager.persisIds (closeDemo.loop (Manager.passes closePass 4)).1 = [1, 2] ∧
    Manager.owes 2 (closeDemo.loop (Manager.passes closePass 4)).1.tr = some Alloc.EVAL_GEN ∧
    (whole closeDemo closePass (fun _ => 0) closeRound 4).1.tr.countP (fun e => match e with | .persisStop _ => true | _ => false) = 2 := by
  decide +kernel

/-- All conditions are met by this run. -/
example : ∃ k, Ended (whole closeDemo closePass (fun _ => 0) closeRound k).2 :=
  C75_gens_ends_partial closeCourse gopts ⟨rfl, rfl, rfl, rfl⟩ Manager.demoEnv close_uses (fun _ => leaveF_simple) (fun _ => leaveF_leaving) close_clean 1 rfl
    ⟨bdemo_std.has, bdemo_std.sc, bdemo_std.sc0⟩ (fun _ _ => .inl rfl) close_clock

/-- A generator that does not end when it is told to stop, but waits for more. -/
def stayF : UserF := fun _ _ _ h => match h with
  | [] => .send 0
  | _ => .recv true

def stayActs : List Act :=
  [.send (EVAL_GEN, .work { tag := EVAL_GEN, rows := [], persistent := true }), .carry, .tick, .tick, .send pst, .carry, .tick]

/-- It gets the signal again and again, sends nothing and does not return. -/
theorem C75_stays_witness (n : Nat) : (Worker.run stayF .queue (stayActs ++ List.replicate n .tick)).ph ≠ .idle ∧
    (outs (Worker.run stayF .queue (stayActs ++ List.replicate n .tick)).tr).length = 1 := by
  have key : ∀ n, ∃ x h, (Worker.run stayF .queue (stayActs ++ List.replicate n .tick)).ph = .user { tag := EVAL_GEN, rows := [], persistent := true } none (x :: h) ∧
      (Worker.run stayF .queue (stayActs ++ List.replicate n .tick)).chan.buf = some pst ∧
      (Worker.run stayF .queue (stayActs ++ List.replicate n .tick)).chan.kind = .queue ∧
      (outs (Worker.run stayF .queue (stayActs ++ List.replicate n .tick)).tr).length = 1 := by
    intro n
    induction n with
    | zero => exact ⟨_, _, rfl, rfl, rfl, rfl⟩
    | succ n ih =>
      have hs : Worker.run stayF .queue (stayActs ++ List.replicate (n + 1) .tick) = tick stayF (Worker.run stayF .queue (stayActs ++ List.replicate n .tick)) := by
        rw [List.replicate_succ', ← List.append_assoc, Worker.run, List.foldl_append]
        rfl
      rw [hs]
      generalize Worker.run stayF .queue (stayActs ++ List.replicate n .tick) = w at ih
      obtain ⟨x, h, h1, h2, h4, h3⟩ := ih
      obtain ⟨ph, ⟨kind, pend, inbox, buf⟩, k, tr⟩ := w
      dsimp only at h1 h2 h3 h4
      subst h1 h2 h4
      exact ⟨_, _, rfl, rfl, rfl, h3⟩
  obtain ⟨x, h, h1, _, _, h3⟩ := key n
  exact ⟨by rw [h1]; nofun, h3⟩

end Verif.System
