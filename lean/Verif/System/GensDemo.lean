import Verif.System.LiveDemo
import Verif.Manager.EndsPersDemo
import Verif.Manager.FromMail
/-!
Concrete courses of events for C70 with persistent generators.
-/
namespace Verif.System
open Verif Verif.Worker
open Verif.History (demoPoints)
open Verif.Manager (Start Iter Bundled Mail gdemo gopts bpass bpass_uses bdemo_std value passes_ended)

/-- Four workers, generators on the first two, four evaluations are asked for. -/
def gensDemo : Start := { gdemo with sp := { simMax := some 4 } }

/-- What the generators send: one point. -/
def gensMsg : Manager.Data := { calcType := EVAL_GEN, calcStatus := 0, rows := [], out := .arr (demoPoints [10]) }

def gensSaid (w : Nat) (rows : List Nat) : Mail := { w := w, t := 5, m := .data { gensMsg with rows := rows, persistent := true } }

def gpassOf (mail : List Mail) : Iter := bpass (.persGens gopts) Manager.demoEnv gensDemo.sp mail

/-- Both generators send a point, get its value, and send another one. -/
def gensIts : List Iter :=
  [gpassOf [], gpassOf [gensSaid 1 [], gensSaid 2 []], gpassOf [value 3 [0] [5], value 4 [1] [6]], gpassOf [gensSaid 1 [0], gensSaid 2 [1]],
   gpassOf [value 3 [2] [7], value 4 [3] [8]], gpassOf []]
def gensPass (k : Nat) : Iter := gensIts.getD k (gpassOf [])

theorem gensPass_uses (k : Nat) : (gensPass k).uses (.persGens gopts) Manager.demoEnv gensDemo.sp := by
  unfold gensPass
  match k with
  | 0 | 1 | 2 | 3 | 4 | 5 => exact bpass_uses _ _ _ _ _
  | k + 6 => simp only [gensIts, List.getD_cons_succ, List.getD_nil]; exact bpass_uses _ _ _ _ _

theorem gensPass_clock (k : Nat) : (gensPass k).e2 ≤ (gensPass (k + 1)).e1 := by
  unfold gensPass
  match k with
  | 0 | 1 | 2 | 3 | 4 | 5 => exact Int.le_refl _
  | k + 6 => simp only [gensIts, List.getD_cons_succ, List.getD_nil]; exact Int.le_refl _

theorem gensDemo_ended : (gensDemo.loop (Manager.passes gensPass 6)).2 ≠ .running := by decide +kernel

/-- Persistent functions send a point when they are called and when they get results, at most five, and wait; others look for a signal
once and return. -/
def askF : UserF := fun n o rows h =>
  if o.persistent then
    match h with
    | .sent :: _ => .recv true
    | _ => if h.length < 10 then .send 0 else .ret (.triple 12)
  else lookF n o rows h

theorem askF_simple : Simple askF where
  acts n o rows h hp := by
    have : askF n o rows h = lookF n o rows h := by simp [askF, hp]
    rw [this]; exact lookF_simple.acts n o rows h hp
  ends n o rows hp := by
    obtain ⟨B, hB⟩ := lookF_simple.ends n o rows hp
    refine ⟨B, fun h hl => ?_⟩
    have : askF n o rows h = lookF n o rows h := by simp [askF, hp]
    rw [this]; exact hB h hl

def askEnv : Env := { F := fun _ => askF, kind := fun w => if w = 2 then .mpi else .queue, msg := fun _ => gensMsg }

theorem askF_asking : Asking askEnv askF where
  acts n o rows h hp ha := by
    unfold askF
    simp only [hp, if_true]
    split
    · cases ha
    · split
      · exact .inl ⟨0, rfl, rfl, rfl, rfl⟩
      · exact .inr ⟨_, rfl, rfl⟩
  waits n o rows h hp := by simp only [askF, hp, if_true]

theorem gensDemo_out (w : Nat) (d : Manager.Data) (hm : .recv w (.data d) ∈ (gensDemo.loop (Manager.passes gensPass 6)).1.tr)
    (hc : d.calcType = Alloc.EVAL_GEN) : d.out = gensMsg.out := by
  rcases Manager.mainLoop_mail _ _ hm with h | ⟨it, hit, x, hx, h1, h2⟩
  · rw [Manager.start_tr] at h; cases h
  · simp only [Manager.passes, List.mem_map, List.mem_range] at hit
    obtain ⟨k, hk, rfl⟩ := hit
    match k with
    | 0 => cases hx
    | 1 | 3 =>
      simp only [gensPass, gensIts, List.getD_cons_succ, List.getD_cons_zero, gpassOf, bpass, List.mem_cons, List.not_mem_nil, or_false] at hx
      rcases hx with rfl | rfl <;> (injection h2 with h2; subst h2; rfl)
    | 2 | 4 =>
      simp only [gensPass, gensIts, List.getD_cons_succ, List.getD_cons_zero, gpassOf, bpass, List.mem_cons, List.not_mem_nil, or_false] at hx
      rcases hx with rfl | rfl <;> (injection h2 with h2; subst h2; cases hc)
    | 5 => cases hx
    | k + 6 => omega

def gensCourse : Course askEnv gensDemo gensPass :=
  courseOf askEnv true gensDemo gensPass 6 (scriptOf (gensDemo.loop (Manager.passes gensPass 6)).1.tr) gensDemo_ended (scriptOf_evs _) (by decide +kernel)
    (fun _ w d hm hc _ => gensDemo_out w d hm hc)

/-- All conditions are met by this run. -/
example : ∃ k, (gensDemo.loop (Manager.passes gensPass k)).2 ≠ .running :=
  C70_gens_ends_partial gensCourse gopts ⟨rfl, rfl, rfl, rfl⟩ Manager.demoEnv gensPass_uses (fun _ => askF_simple) (fun _ => askF_asking) 4 rfl
    ⟨bdemo_std.has, bdemo_std.sc, bdemo_std.sc0⟩ (fun _ _ => .inl rfl) gensPass_clock

/-- Four evaluations and four messages of generators came in when it ends; before that the loop runs and both generators owe an answer. -/
example : (gensDemo.loop (Manager.passes gensPass 6)).2 = .stopped 1 ∧ (gensDemo.loop (Manager.passes gensPass 3)).2 = .running ∧
    Manager.owes 1 (gensDemo.loop (Manager.passes gensPass 3)).1.tr = some Alloc.EVAL_GEN ∧
    Manager.owes 2 (gensDemo.loop (Manager.passes gensPass 3)).1.tr = some Alloc.EVAL_GEN ∧
    Manager.answerCount Alloc.EVAL_SIM (gensDemo.loop (Manager.passes gensPass 6)).1.tr = 4 ∧
    Manager.answerCount Alloc.EVAL_GEN (gensDemo.loop (Manager.passes gensPass 6)).1.tr = 4 := by
  decide +kernel

/-- A persistent generator that waits without having sent anything: the order stays unanswered for ever. -/
theorem C70_mute_witness (n : Nat) :
    outs (Worker.run (fun _ _ _ _ => .recv true) .queue ([.send (EVAL_GEN, .work { tag := EVAL_GEN, rows := [], persistent := true }), .carry, .tick] ++ List.replicate n .tick)).tr = [] := by
  have h : Worker.run (fun _ _ _ _ => .recv true) .queue ([.send (EVAL_GEN, .work { tag := EVAL_GEN, rows := [], persistent := true }), .carry, .tick] ++ List.replicate n .tick) =
      ⟨.user { tag := EVAL_GEN, rows := [], persistent := true } none [], { kind := .queue }, 0,
        [.start { tag := EVAL_GEN, rows := [], persistent := true } none, .took (EVAL_GEN, .work { tag := EVAL_GEN, rows := [], persistent := true })]⟩ := by
    induction n with
    | zero => rfl
    | succ n ih =>
      rw [List.replicate_succ', ← List.append_assoc, Worker.run, List.foldl_append]
      rw [Worker.run] at ih
      rw [ih]
      rfl
  rw [h]
  rfl

end Verif.System
