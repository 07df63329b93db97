import Verif.Manager.Once
import Verif.Manager.Props
/-!
Property C11: with the bundled allocation functions no row is sent for evaluation twice.

`Bundled` lists the modelled allocation functions; `it.uses b env sp`: in this pass of the loop the allocation function is
`b`, called with what the manager passes to it.  `simGiven tr` are the rows of all simulation orders of the run.
-/
namespace Verif.Manager
open Verif.History Verif.Res Verif.Sched Verif.Alloc

/-- A pass of the loop with the allocation function `b`. -/
def bpass (b : Bundled) (env : AllocEnv) (sp : Specs) (mail : List Mail) (e : Int := 0) : Iter :=
  { e1 := e, mail := mail, alloc := b.reply env sp 0 id, t := fun _ => 4, e2 := e }

theorem bpass_uses (b : Bundled) (env : AllocEnv) (sp : Specs) (mail : List Mail) (e : Int) : (bpass b env sp mail e).uses b env sp :=
  ⟨0, id, fun l => List.Perm.refl l, rfl⟩

def demoEnv : AllocEnv := { simIn := [.user 1], genIn := [] }

/-- Three workers, worker 1 runs the generator. -/
def bdemo : Start := { sp := {}, cols := demoCols, L := 4, H0 := noH0, n := 3, gens := [1], pinfo := { nextToGive := some 0, totalGenCalls := some 0 } }

/-! ## C11 -/

/-- With an allocation function that chooses among the waiting rows (`give_sim_work_first`, `only_persistent_gens`) no
row is sent for evaluation twice.  Partial: in safe mode, or if no user function returns a protected field; see the
witness below. -/
theorem C11_waiting_partial (c : Start) (hc : c.Std) (b : Bundled) (hb : b.byPriority = true) (env : AllocEnv) (its : List Iter)
    (hits : ∀ it ∈ its, it.uses b env c.sp) (t : Nat → Int) (rounds : List Round)
    (hprot : c.safe = true ∨ Polite (c.run its t rounds).1.tr) : (simGiven (c.run its t rounds).1.tr).Nodup := by
  obtain ⟨p, _, hr⟩ := c.reachB its t rounds hits
  have h := (once_prio hb hc hr hprot).1
  exact (List.sublist_append_left _ _).nodup h

/-- With an allocation function that works through the rows in order (`fast_alloc`, `only_one_gen`,
`give_pregenerated_work`, `persistent_aposmm_alloc`) no row is sent for evaluation twice, whatever the user functions
return.  (For `persistent_aposmm_alloc` a `persis_info` that says that the function has been called before must have
the pointer to the next row.) -/
theorem C11_in_order (c : Start) (b : Bundled) (hb : b.byPriority = false) (env : AllocEnv)
    (h0 : ∀ lp n, b = .aposmm lp n → c.pinfo.firstCall = false → c.pinfo.nextToGive ≠ none) (its : List Iter)
    (hits : ∀ it ∈ its, it.uses b env c.sp) (t : Nat → Int) (rounds : List Round) :
    (simGiven (c.run its t rounds).1.tr).Nodup := by
  obtain ⟨p, _, hr⟩ := c.reachB its t rounds hits
  have hbeh : b.behind c.pinfo [] := by
    cases b with
    | aposmm lp n => exact ⟨fun _ => rfl, fun hf => ⟨h0 lp n rfl hf, by simp⟩⟩
    | _ => intro i hi; simp at hi
  have h := (once_ord hb hbeh hr).1
  exact (List.sublist_append_left _ _).nodup h

/-- Points come back, are evaluated, and the next ones are handed out. -/
def onceIts (b : Bundled) : List Iter :=
  [bpass b demoEnv bdemo.sp [], bpass b demoEnv bdemo.sp [points 1 [10, 20, 30]], bpass b demoEnv bdemo.sp [value 3 [1] [5]],
   bpass b demoEnv bdemo.sp [value 2 [0] [6]]]

example : (bdemo.run (onceIts (.simFirst {})) (fun _ => 0) []).2 = .running ∧
    simGiven (bdemo.run (onceIts (.simFirst {})) (fun _ => 0) []).1.tr = [2, 1, 0] := by decide +kernel

example : (bdemo.run (onceIts (.fast {})) (fun _ => 0) []).2 = .running ∧
    simGiven (bdemo.run (onceIts (.fast {})) (fun _ => 0) []).1.tr = [2, 1, 0] := by decide +kernel

/-- The standard columns. -/
theorem bdemo_std : bdemo.Std where
  has := by unfold HasLibCols; decide
  sc := by unfold LibScalar; decide
  sc0 := by unfold LibScalar; decide

/-- A generator that returns the row with number 0 again, marked as not started. -/
def reset0Rec : Rec := { cols := [(.simId, .scalar), (.simStarted, .scalar)], rows := [fun _ => .s 0] }
def reset0 : Mail :=
  { w := 1, t := 7, m := .data { calcType := EVAL_GEN, calcStatus := 0, rows := [], out := .arr reset0Rec } }

/-- Witness: outside safe mode a generator can have a row evaluated again. -/
theorem C11_twice_witness : ∃ (c : Start) (its : List Iter), c.Std ∧ c.safe = false ∧
    (∀ it ∈ its, it.uses (.simFirst {}) demoEnv c.sp) ∧ (c.run its (fun _ => 0) []).2 = .running ∧
    simGiven (c.run its (fun _ => 0) []).1.tr = [0, 0] := by
  refine ⟨bdemo, [bpass (.simFirst {}) demoEnv bdemo.sp [], bpass (.simFirst {}) demoEnv bdemo.sp [points 1 [10]],
    bpass (.simFirst {}) demoEnv bdemo.sp [value 2 [0] [6]], bpass (.simFirst {}) demoEnv bdemo.sp [reset0]], bdemo_std, rfl, ?_, ?_⟩
  · intro it hit
    simp only [List.mem_cons, List.not_mem_nil, or_false] at hit
    rcases hit with rfl | rfl | rfl | rfl <;> exact bpass_uses _ _ _ _ _
  · decide +kernel

end Verif.Manager
