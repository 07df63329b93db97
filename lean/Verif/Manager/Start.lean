import Verif.Manager.Counts
import Verif.History.Props
/-
The beginning of a run.
-/
namespace Verif.Manager
open Verif.History Verif.Res Verif.Sched Verif.Alloc

/-- What a run starts from: specifications, columns and size of the history, prepended history, safe mode, number of
worker channels, zero-resource workers, generator workers, resource table, `persis_info`, `gen_specs["persis_in"]`. -/
structure Start where
  sp : Specs := {}
  cols : List (Field × Shape) := []
  L : Nat := 0
  H0 : Rec
  safe : Bool := false
  n : Nat
  zero : List Nat := []
  gens : List Nat := []
  rm : Option RM := none
  pinfo : PInfo := {}
  persisIn : List Field := []

/-- The history array at the beginning. -/
def Start.hist (c : Start) : Hist := History.init c.cols c.L c.H0 c.safe

/-- The manager at the beginning. -/
def Start.st (c : Start) : St := initSt c.sp c.n c.zero c.gens c.hist c.rm c.pinfo c.persisIn

/-- A run: `its` is what comes from outside during the main loop, `t` and `rounds` during the shutdown. -/
def Start.run (c : Start) (its : List Iter) (t : Nat → Int) (rounds : List Round) : St × Outcome :=
  Manager.run c.sp c.st its t rounds

/-- The main loop of a run. -/
def Start.loop (c : Start) (its : List Iter) : St × MainEnd := mainLoop c.sp its c.st

variable {c : Start}

theorem start_tr : c.st.tr = [] := rfl
theorem start_pending : c.st.pending = [] := rfl

theorem start_vi : VI c.sp c.st where
  tab := tab_init _ _ _ _ _ _ _
  agree k x hk := by
    have hx : ∃ i, x = { id := i, genWorker := decide (i ∈ c.gens) || (c.sp.gom && decide (i = 0)), zrw := decide (i ∈ c.zero) } := by
      have hm := List.mem_of_getElem? hk
      simp only [Start.st, initSt, initW, List.mem_map] at hm
      obtain ⟨i, _, rfl⟩ := hm
      exact ⟨i, rfl⟩
    obtain ⟨i, rfl⟩ := hx
    rw [start_tr, start_pending]
    exact ⟨rfl, rfl, rfl, rfl⟩
  nd := List.nodup_nil
  exc := rfl

theorem start_started : StartedOk c.hist.simStartedOffset c.st := rfl
theorem start_ended : EndedOk c.hist.simEndedOffset c.st := rfl

/-- Every run is a run of the transition system. -/
theorem Start.reach (c : Start) (its : List Iter) (t : Nat → Int) (rounds : List Round) :
    ∃ p, (c.run its t rounds).2.ph p ∧ Reach c.sp (fun _ _ => True) c.st p (c.run its t rounds).1 :=
  run_reach its t rounds (fun _ _ _ => trivial)

theorem loop_reach (c : Start) (its : List Iter) :
    ((c.loop its).2 = .running → Reach c.sp (fun _ _ => True) c.st .loop (c.loop its).1) ∧
    ((c.loop its).2 ≠ .running → Reach c.sp (fun _ _ => True) c.st (.over (c.loop its).2) (c.loop its).1) :=
  mainLoop_reach its c.st (fun _ _ _ => trivial) .init

/-- The history is the result of the recorded calls. -/
theorem start_hist {P : St → Reply → Prop} {p : Ph} {s : St} (h : Reach c.sp P c.st p s) : s.hist = applyAll c.hist (opsOf s.tr) :=
  h.micros.hist rfl

theorem mainLoop_append (sp : Specs) (its1 its2 : List Iter) (s : St) :
    mainLoop sp (its1 ++ its2) s =
      if (mainLoop sp its1 s).2 = .running then mainLoop sp its2 (mainLoop sp its1 s).1 else mainLoop sp its1 s := by
  induction its1 generalizing s with
  | nil => simp [mainLoop]
  | cons it its1 ih =>
    simp only [List.cons_append, mainLoop]
    split
    · simp
    · generalize iter sp (emit s (.test (termTest sp s.hist it.e1))) it = x
      obtain ⟨s1, f⟩ := x
      cases f with
      | next => simp only; exact ih s1
      | flagged => simp
      | raised e => simp

end Verif.Manager
