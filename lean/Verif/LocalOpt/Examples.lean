import Verif.LocalOpt.Props

/-! C65: concrete runs that meet the hypotheses, and the two ways in which a process is left. -/

namespace Verif.LocalOpt

/-- A small optimizer on the integers: it asks for 3, then for 4, then ends at the better one. -/
def exSys : Sys Int Int where
  x0 := 3
  opt := fun vs => match vs with
    | [] => .ask 3
    | [_] => .ask 4
    | [a, b] => if a.2 ≤ b.2 then .stop a.1 1 else .stop b.1 1
    | _ => .raise
  same0 := fun a b => a == b
  same := fun a b => a == b

/-- A step of the scheduler's choice: 0 - the parent, 1 - the child, 2 and 3 - the feeders. -/
def pick (σ : Sys Int Int) (s : St Int Int) (who : Nat) : Option (St Int Int) :=
  match who with
  | 0 => match s.ppc, s.pipe with
    | .initWait, _ => if s.pcr then some { s with ppc := .initGet } else none
    | .initGet, m :: q => some { s with ppc := firstPc σ m, pipe := q, ans := s.ans ++ [m] }
    | .clear v, _ => some { s with ppc := .put v, pcr := false }
    | .put v, _ => some { s with ppc := .set, pbuf := s.pbuf ++ [.val v.1 v.2] }
    | .set, _ => some { s with ppc := .wait, ccr := true }
    | .wait, _ => if s.pcr then some { s with ppc := .get } else none
    | .get, m :: q => some { s with ppc := nextPc m, pipe := q, ans := s.ans ++ [m] }
    | .join, _ => if s.cpc = .dead then some { s with ppc := .closed } else none
    | _, _ => none
  | 1 => match s.cpc, s.pipe with
    | .run, _ => some { s with cpc := .out (σ.opt s.got).msg }
    | .out m, _ => some { s with cpc := .tell m, cbuf := s.cbuf ++ [m] }
    | .tell m, _ => some { s with cpc := after m, pcr := true }
    | .wait x, _ => if s.ccr then some { s with cpc := .get x } else none
    | .get x, m :: q => some { s with cpc := received x m, pipe := q }
    | .clear x v, _ => some { s with cpc := .check x v, ccr := false }
    | .check x v, _ =>
      if σ.same x v.1 then some { s with cpc := .run, got := s.got ++ [v] }
      else some { s with cpc := .out .err }
    | .exiting, _ => if s.cbuf = [] then some { s with cpc := .dead } else none
    | _, _ => none
  | 2 => match s.pbuf with
    | m :: q => some { s with pbuf := q, pipe := s.pipe ++ [m] }
    | [] => none
  | _ => match s.cbuf with
    | m :: q => some { s with cbuf := q, pipe := s.pipe ++ [m] }
    | [] => none

theorem pick_step {σ : Sys Int Int} {s s' : St Int Int} {who : Nat} (h : pick σ s who = some s') :
    Step σ s .tau s' := by
  unfold pick at h
  split at h
  · split at h
    · split at h
      · cases h; exact .initWait ‹_› ‹_›
      · cases h
    · cases h; exact .initGet ‹_› ‹_›
    · cases h; exact .pClear ‹_›
    · cases h; exact .pPut ‹_›
    · cases h; exact .pSet ‹_›
    · split at h
      · cases h; exact .pWait ‹_› ‹_›
      · cases h
    · cases h; exact .pGet ‹_› ‹_›
    · split at h
      · cases h; exact .pJoin ‹_› ‹_›
      · cases h
    · cases h
  · split at h
    · cases h; exact .cRun ‹_›
    · cases h; exact .cPut ‹_›
    · cases h; exact .cTell ‹_›
    · split at h
      · cases h; exact .cWait ‹_› ‹_›
      · cases h
    · cases h; exact .cGet ‹_› ‹_›
    · cases h; exact .cClear ‹_›
    · split at h
      · cases h; exact .cCheck ‹_› ‹_›
      · cases h; exact .cFail ‹_› (by simp_all)
    · split at h
      · cases h; exact .cExit ‹_› ‹_›
      · cases h
    · cases h
  · split at h
    · cases h; exact .pFeed ‹_›
    · cases h
  · split at h
    · cases h; exact .cFeed ‹_›
    · cases h

/-- The first of parent, child and feeders that can move does, in the order `ord`, `n` times. -/
def sched (σ : Sys Int Int) (ord : List Nat) : Nat → St Int Int → St Int Int
  | 0, s => s
  | n + 1, s => match ord.findSome? (pick σ s) with
    | some s' => sched σ ord n s'
    | none => s

theorem sched_reach {σ : Sys Int Int} {ord : List Nat} {s : St Int Int} (n : Nat) (h : Reach σ s) :
    Reach σ (sched σ ord n s) := by
  induction n generalizing s with
  | zero => exact h
  | succ n ih =>
    unfold sched
    split
    · rename_i s' hs'
      obtain ⟨w, _, hw⟩ := List.exists_of_findSome?_eq_some hs'
      exact ih (h.step (pick_step hw) (by nofun))
    · exact h

/-- Call `iterate(v)`, if the parent is between calls. -/
def doCall (v : Int × Int) (s : St Int Int) : St Int Int :=
  if s.ppc = .idle then { s with ppc := .clear v, sent := s.sent ++ [v] } else s

theorem doCall_reach {σ : Sys Int Int} {s : St Int Int} (v : Int × Int) (h : Reach σ s) :
    Reach σ (doCall v s) := by
  unfold doCall
  split
  · exact h.step (.call v ‹_›) (by nofun)
  · exact h

/-- A whole run with the given values, each exchange scheduled in its own order. -/
def talk (σ : Sys Int Int) (ord : List Nat) (vs : List (Int × Int)) : St Int Int :=
  vs.foldl (fun s v => sched σ ord 18 (doCall v s)) (sched σ ord 18 .init)

theorem talk_reach (σ : Sys Int Int) (ord : List Nat) (vs : List (Int × Int)) :
    Reach σ (talk σ ord vs) := by
  unfold talk
  have : ∀ (s : St Int Int), Reach σ s →
      Reach σ (vs.foldl (fun s v => sched σ ord 18 (doCall v s)) s) := by
    induction vs with
    | nil => exact fun s h => h
    | cons v vs ih => exact fun s h => ih _ (sched_reach 18 (doCall_reach v h))
  exact this _ (sched_reach 18 .init)

/-- A run to its end, with eager processes and with eager feeders. -/
example : (talk exSys [0, 1, 2, 3] [(3, 10), (4, 20)]).ans = [.pt 3, .pt 4, .conv 3 1] ∧
    (talk exSys [0, 1, 2, 3] [(3, 10), (4, 20)]).ppc = .closed ∧
    talk exSys [3, 2, 1, 0] [(3, 10), (4, 20)] = talk exSys [0, 1, 2, 3] [(3, 10), (4, 20)] := by
  decide +kernel

/-- Between calls: the parent has the second point, the child waits for its value. -/
example : (talk exSys [0, 1, 2, 3] [(3, 10)]).ppc = .idle ∧
    (talk exSys [0, 1, 2, 3] [(3, 10)]).cpc = .wait 4 ∧
    (talk exSys [0, 1, 2, 3] [(3, 10)]).got = [(3, 10)] := by decide +kernel

/-- A value for another point: the child's assertion fails and `iterate` raises. -/
example : (talk exSys [0, 1, 2, 3] [(3, 10), (5, 20)]).ans = [.pt 3, .pt 4, .err] ∧
    (talk exSys [0, 1, 2, 3] [(3, 10), (5, 20)]).ppc = .failed ∧
    (talk exSys [0, 1, 2, 3] [(3, 10), (5, 20)]).cpc = .dead ∧
    (talk exSys [0, 1, 2, 3] [(3, 10), (5, 20)]).got = [(3, 10)] := by decide +kernel

/-- An optimizer that ends without a second point: `iterate` gives the end at once (which APOSMM
takes for a point, line 267 of persistent_aposmm.py: see C63). -/
example : (talk { exSys with opt := fun vs => if vs = [] then .ask 3 else .stop 3 1 } [0, 1, 2, 3]
    [(3, 10)]).ans = [.pt 3, .conv 3 1] := by decide +kernel

theorem stuck_of {σ : Sys Int Int} {s : St Int Int} (hp : s.ppc = .failed ∨ s.ppc = .wait)
    (hf : s.ppc = .failed → s.sent = []) (hr : s.pcr = false ∨ s.ppc = .failed) (hc : s.cpc = .dead ∨ ((∃ x, s.cpc = .wait x) ∧ s.ccr = false))
    (hq : s.pbuf = [] ∧ s.cbuf = []) (s' : St Int Int) (e : Ev Int Int) (he : e ≠ .crash) :
    ¬ Step σ s e s' := by
  intro hs
  cases hs with
  | crash => exact he rfl
  | _ => rcases hp with hp | hp <;> rcases hc with hc | ⟨⟨x, hc⟩, hcc⟩ <;> simp_all

/-- C65 stated without the reservation of `C65_returns` is false: when the optimizer's first point
is not the starting point, the constructor raises its assertion error and the child is left waiting
for ever; there is no object left on which `destroy` could be called. -/
theorem C65_orphan_witness : ∃ (σ : Sys Int Int) (s : St Int Int), Reach σ s ∧ s.ppc = .failed ∧
    s.cpc = .wait 2 ∧ ∀ s' e, e ≠ .crash → ¬ Step σ s e s' :=
  ⟨{ exSys with opt := fun _ => .ask 2 },
    talk { exSys with opt := fun _ => .ask 2 } [0, 1, 2, 3] [],
    talk_reach _ _ _, by decide +kernel, by decide +kernel,
    fun s' e he => stuck_of (.inl (by decide +kernel)) (fun _ => by decide +kernel) (.inr (by decide +kernel))
      (.inr ⟨⟨2, by decide +kernel⟩, by decide +kernel⟩) (by decide +kernel) s' e he⟩

/-- A child that dies without a message (killed by the system, a crash inside a compiled
optimizer): the parent waits on line 176 for ever, with no timeout and no look at the process. -/
theorem C65_crash_witness : ∃ (σ : Sys Int Int) (s t : St Int Int), Reach σ s ∧
    Step σ s .crash t ∧ t.ppc = .wait ∧ ∀ s' e, e ≠ .crash → ¬ Step σ t e s' := by
  refine ⟨exSys, sched exSys [0, 2, 1, 3] 8 (doCall (3, 10) (talk exSys [0, 1, 2, 3] [])), _,
    sched_reach _ (doCall_reach _ (talk_reach _ _ _)), .crash (by decide +kernel),
    by decide +kernel, fun s' e he => ?_⟩
  exact stuck_of (.inr (by decide +kernel)) (fun h => absurd h (by decide +kernel)) (.inl (by decide +kernel)) (.inl rfl)
    (by decide +kernel) s' e he

end Verif.LocalOpt
