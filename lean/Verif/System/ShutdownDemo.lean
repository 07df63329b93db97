import Verif.System.PropsShutdown
import Verif.System.LiveDemo
/-!
Concrete courses of events for C75.
-/
namespace Verif.System
open Verif Verif.Worker
open Verif.Manager (Start Iter Bundled endDemo Round)

def fullOf (env : Env) (g : Bool) (c : Start) (f : Nat → Iter) (t : Nat → Int) (rd : Nat → Round) (K : Nat) (script : List Turn) (hend : Ended (whole c f t rd K).2)
    (hs : script.filterMap Turn.ev = (whole c f t rd K).1.tr.reverse) (h : scriptOk env g c.workers script = true)
    (hout : g = true → ∀ w d, .recv w (.data d) ∈ (whole c f t rd K).1.tr → d.calcType = Alloc.EVAL_GEN → ∀ x, d.out = (env.msg x).out) : FullCourse env c f t rd :=
  trackOf env g c.workers _ _ K script ⟨K, hend⟩ (fun k => by
    by_cases hk : k ≤ K
    · exact (whole_grows hk).1
    · rw [(whole_grows (k := K) (j := k) (by omega)).2 hend]; exact List.suffix_refl _) hs h hout

/-- One evaluation is asked for; two workers run generators. -/
def shutDemo : Start := { endDemo with sp := { simMax := some 1 }, gens := [1, 2] }
def shutAlloc : Bundled := .simFirst { numActiveGens := some 2 }
def shutIts : List Iter :=
  [Manager.bpass shutAlloc Manager.demoEnv shutDemo.sp [], Manager.bpass shutAlloc Manager.demoEnv shutDemo.sp [Manager.points 1 [10]],
   Manager.bpass shutAlloc Manager.demoEnv shutDemo.sp [Manager.value 3 [0] [5]]]
def shutPass (k : Nat) : Iter := shutIts.getD k (Manager.bpass shutAlloc Manager.demoEnv shutDemo.sp [])
/-- The other generator answers late. -/
def shutRound : Nat → Round
  | 1 => { mail := [Manager.points 2 [20]], e := 0 }
  | _ => { mail := [], e := 0 }

theorem shut_uses (k : Nat) : (shutPass k).uses shutAlloc Manager.demoEnv shutDemo.sp := by
  unfold shutPass
  match k with
  | 0 | 1 | 2 => exact Manager.bpass_uses _ _ _ _ _
  | k + 3 => simp only [shutIts, List.getD_cons_succ, List.getD_nil]; exact Manager.bpass_uses _ _ _ _ _

theorem shut_clock (k : Nat) : (shutPass k).e2 ≤ (shutPass (k + 1)).e1 := by
  unfold shutPass
  match k with
  | 0 | 1 | 2 => exact Int.le_refl _
  | k + 3 => simp only [shutIts, List.getD_cons_succ, List.getD_nil]; exact Int.le_refl _

theorem shut_stopped : (shutDemo.loop (Manager.passes shutPass 4)).2 = .stopped 1 := by decide +kernel

theorem shut_clean (k : Nat) : (shutDemo.loop (Manager.passes shutPass k)).2.clean = true := by
  by_cases hk : k < 5
  · have : ∀ k < 5, (shutDemo.loop (Manager.passes shutPass k)).2.clean = true := by decide +kernel
    exact this k hk
  · rw [Manager.passes_ended (n := 4) (by rw [shut_stopped]; nofun) k (by omega), shut_stopped]; rfl

theorem shut_proper (k : Nat) : Proper shutDemo [] (shutDemo.loop (Manager.passes shutPass k)).1.tr := by
  have h : Manager.Obliging shutDemo [] (shutDemo.loop (Manager.passes shutPass k)).1.tr := by
    refine Manager.obligingB_sound ⟨Manager.bdemo_std.has, Manager.bdemo_std.sc, Manager.bdemo_std.sc0⟩ rfl rfl (m := 4) (by decide +kernel) ?_
    by_cases hk : k < 5
    · have : ∀ k < 5, Manager.obligingB shutDemo 4 [] (shutDemo.loop (Manager.passes shutPass k)).1.tr = true := by decide +kernel
      exact this k hk
    · rw [Manager.passes_ended (n := 4) (by rw [shut_stopped]; nofun) k (by omega)]
      decide +kernel
  exact ⟨h.hist, h.prot, h.productive, h.unnumbered, h.cancelled⟩

theorem shut_returned : (whole shutDemo shutPass (fun _ => 0) shutRound 4).2 = .returned 0 := by decide +kernel

def shutCourse : FullCourse lookEnv shutDemo shutPass (fun _ => 0) shutRound :=
  fullOf lookEnv false shutDemo shutPass (fun _ => 0) shutRound 4 (scriptOf (whole shutDemo shutPass (fun _ => 0) shutRound 4).1.tr)
    (by rw [shut_returned]; exact ⟨nofun, nofun⟩) (scriptOf_evs _) (by decide +kernel) nofun

/-- When the main loop ends, the second generator is at work; the manager waits for it. -/
example : (shutDemo.run (Manager.passes shutPass 4) (fun _ => 0) (Manager.rounds shutRound 1)).2 = .waiting ∧
    Manager.anyActive (shutDemo.loop (Manager.passes shutPass 4)).1 = true := by decide +kernel

/-- All conditions are met by this run. -/
example : ∃ k, Ended (whole shutDemo shutPass (fun _ => 0) shutRound k).2 :=
  C75_ends_partial shutCourse shutAlloc rfl Manager.demoEnv shut_uses rfl (fun _ => lookF_simple) shut_clean 1 rfl (by decide) []
    (fun k _ => shut_proper k) shut_clock

end Verif.System
