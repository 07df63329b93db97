import Verif.Manager.Bundled

/-!
# Nothing is handed out once the limit is reached (C12, allocation side)

The manager stops giving out orders at `sim_max` (C12_gate); the allocation functions do not even produce any.
-/

namespace Verif.Manager
open Verif.History Verif.Alloc Verif.Sched

/-- Once `sim_max` is given out, or when no worker is idle, every bundled function answers with no orders, leaves
`persis_info` alone and does not ask for shutdown. -/
theorem C12_bundled_quiet (b : Bundled) (c : Ctx) (p : PInfo) (s : Sched) (h : c.simMaxGiven = true ∨ c.anyIdle = false) :
    b.call c p s = .ok ⟨[], p, false⟩ := by
  have hg : (c.simMaxGiven || !c.anyIdle) = true := by
    rcases h with h | h <;> simp [h]
  cases b <;> unfold Bundled.call <;> simp only
  · unfold giveSimWorkFirst; rw [if_pos hg]
  · unfold fastAlloc; rw [if_pos hg]
  · unfold oneGenAlloc; rw [if_pos hg]
  · unfold pregenAlloc; rw [if_pos hg]
  · unfold onlyPersistentGens; rw [if_pos hg]
  · unfold aposmmAlloc; rw [if_pos hg]
  · unfold fdAlloc; rw [if_pos hg]
  · unfold ibAlloc; rw [if_pos hg]
  · unfold loAlloc; rw [if_pos hg]

/-- With the limit not reached the same history does produce an order. -/
example : (Bundled.call (.simFirst {}) { exCtx with manage := false, simMaxGiven := true } {} noSched).map (·.work.length) = .ok 0 ∧
    (Bundled.call (.simFirst {}) { exCtx with manage := false } {} noSched).map (·.work.length) = .ok 2 := by decide +kernel

end Verif.Manager
