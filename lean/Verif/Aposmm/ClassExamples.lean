import Verif.Aposmm.ClassProps
import Verif.Aposmm.Examples

/-
Concrete uses of the class that meet the hypotheses of C64, and uses outside of them.
-/
namespace Verif.Aposmm

/-- A call, or a step of the generator. -/
inductive JOp
  | start
  | suggest (j : Nat)
  | ingest (rs : List (Nat × FVal))
  | updates
  | gen

def okTrue (x : Except ClsErr Bool) : Bool := match x with | .ok b => b | .error _ => false

def politeB (c : Cls FVal) (rs : List (Nat × FVal)) : Bool :=
  decide ((c.given ++ rs).map (·.1)).Nodup && (rs.all fun r => c.handed.any fun p => decide (p.id = r.1)) &&
    (List.range c.size).all fun k => match (c.given ++ rs)[k]? with | none => true | some r => decide (r.1 = k)

theorem politeB_sound {c : Cls FVal} {rs : List (Nat × FVal)} (h : politeB c rs = true) : Polite c rs := by
  simp only [politeB, Bool.and_eq_true, decide_eq_true_eq, List.all_eq_true, List.any_eq_true] at h
  obtain ⟨⟨h1, h2⟩, h3⟩ := h
  refine ⟨h1, h2, fun k r hk hr => ?_⟩
  have := h3 k (List.mem_range.mpr hk)
  rw [hr] at this
  simpa using this

/-- One step; `guard` is the discipline of `JReach`. -/
def jstep (cf : Cfg Int) (guard : Bool) (s : JS Int) : JOp → Option (JS Int)
  | .start => match s.g, begin cf [] with
    | none, .ok g => some { s with c := { s.c with inbox := s.c.inbox ++ [msgOf g] }, g := some g }
    | _, _ => none
  | .suggest j => if s.g.isSome && (!guard || decide (j ≠ 0) || s.c.last.isNone || decide (s.c.idx = 0) || okTrue s.c.ready) then match s.c.suggest j with
      | .ok (_, c) => some { s with c := c }
      | .error _ => none
    else none
  | .ingest rs => if s.g.isSome && (!guard || politeB s.c rs) then match s.c.ingest .simId rs with
      | .ok c => some { s with c := c }
      | .error _ => none
    else none
  | .updates => some { s with c := s.c.takeUpdates }
  | .gen => match s.g, s.c.out[s.done]? with
    | some g, some b => match pass cf g (.work (valsOf b)) with
      | .ok (some g') => some { s with c := { s.c with inbox := s.c.inbox ++ [msgOf g'] }, g := some g', done := s.done + 1 }
      | _ => none
    | _, _ => none

def jgo (cf : Cfg Int) (guard : Bool) : List JOp → JS Int → Option (JS Int)
  | [], s => some s
  | o :: os, s => match jstep cf guard s o with
    | some s => jgo cf guard os s
    | none => none

theorem jstep_reach {cf : Cfg Int} {s s' : JS Int} {o : JOp} (h : JReach cf s) (hs : jstep cf true s o = some s') : JReach cf s' := by
  cases o with
  | start =>
    rw [jstep] at hs
    split at hs
    · rename_i g h1 h2; cases hs; exact .start h h1 h2
    · cases hs
  | suggest j =>
    rw [jstep] at hs
    split at hs
    · rename_i hg
      split at hs
      · rename_i l c hc
        cases hs
        simp only [Bool.not_true, Bool.false_or, Bool.and_eq_true, Bool.or_eq_true, decide_eq_true_eq, Option.isNone_iff_eq_none] at hg
        refine .suggest h hg.1 (fun hj => ?_) hc
        rcases hg.2 with ((h1 | h1) | h1) | h1
        · exact absurd hj h1
        · exact .inl h1
        · exact .inr (.inl h1)
        · refine .inr (.inr ?_)
          unfold okTrue at h1
          split at h1
          · rename_i e; rw [e, h1]
          · cases h1
      · cases hs
    · cases hs
  | ingest rs =>
    rw [jstep] at hs
    split at hs
    · rename_i hg
      split at hs
      · rename_i c hc
        cases hs
        simp only [Bool.not_true, Bool.false_or, Bool.and_eq_true] at hg
        exact .ingest h hg.1 (politeB_sound hg.2) hc
      · cases hs
    · cases hs
  | updates => cases hs; exact .updates h
  | gen =>
    rw [jstep] at hs
    split at hs
    · rename_i g b h1 h2
      split at hs
      · rename_i g' h3; cases hs; exact .gen h h1 h2 h3
      · cases hs
    · cases hs

theorem jgo_reach {cf : Cfg Int} (os : List JOp) {s s' : JS Int} (h : JReach cf s) (hs : jgo cf true os s = some s') : JReach cf s' := by
  induction os generalizing s with
  | nil => cases hs; exact h
  | cons o os ih =>
    rw [jgo] at hs
    split at hs
    · rename_i h1; exact ih (jstep_reach h h1) hs
    · cases hs

def jFrom (cf : Cfg Int) (os : List JOp) : Option (JS Int) := jgo cf true os { c := { size := cf.initial } }

theorem jFrom_reach {cf : Cfg Int} {os : List JOp} {s : JS Int} (h : jFrom cf os = some s) : JReach cf s := jgo_reach os .init h

/-- All points of the sample, its results in two parts; one new point at a time; the last batch is not handled yet. -/
def exOps : List JOp := [.start, .suggest 0, .ingest [(0, .num 5)], .ingest [(1, .num 3), (2, .num 7)], .gen, .suggest 1, .ingest [(3, .num 2)], .gen,
  .suggest 1, .suggest 2, .updates, .ingest [(5, .num 4)]]

/-- Points 0 to 5 are handed out once each, point 3 is reported as a minimum. -/
example : (jFrom exCf exOps).map (fun s => (s.c.handed.map (·.id), s.c.updates.map (·.id), s.done)) = some ([0, 1, 2, 3, 4, 5], [3], 2) := by decide +kernel

example : (jFrom exCf exOps).map (fun s => s.c.out.map valsOf) =
    some [[(0, .num 5), (1, .num 3), (2, .num 7)], [(3, .num 2)], [(5, .num 4)]] := by decide +kernel

example : (jFrom exCf exOps).isSome = true ∧ ∀ s, jFrom exCf exOps = some s → JReach exCf s := ⟨by decide +kernel, fun _ => jFrom_reach⟩

example : AllMinima exCf := by
  intro c k x b h
  simp only [exCf] at h
  split at h <;> cases h
  rfl

/-! ### Outside of the hypotheses -/

def jLoose (cf : Cfg Int) (os : List JOp) : Option (JS Int) := jgo cf false os { c := { size := cf.initial } }

def clsErr (x : Except ClsErr (List Sug × Cls FVal)) : Option ClsErr := match x with | .error e => some e | .ok _ => none

/-- **C64** `suggest(0)` after `suggest(2)` hands out all points again. -/
theorem C64_again_witness : (jLoose exCf [.start, .suggest 2, .ingest [(0, .num 5), (1, .num 3)], .suggest 0]).map (fun s => s.c.handed.map (·.id)) =
    some [0, 1, 0, 1, 2] := by decide +kernel

/-- **C64** A second `suggest` before any result is a TypeError, though points are left to hand out. -/
theorem C64_second_witness : (jFrom exCf [.start, .suggest 1]).map (fun s => (clsErr (s.c.suggest 1), s.c.rest.map (·.id))) =
    some (some .noBuffer, [1, 2]) := by decide +kernel

/-- Run 0 ends at 58 without claiming a minimum. -/
def exNoMin : Cfg Int := { exCf with ans := fun c k => match c, k with
    | 0, 0 => .point 58
    | 0, _ => .conv 58 false
    | _, _ => .point 18 }

def exAll : List JOp := [.start, .suggest 0, .ingest [(0, .num 5), (1, .num 3), (2, .num 7)], .gen, .suggest 0, .ingest [(3, .num 2)], .gen, .suggest 0]

/-- **C64** The last point of a run that ends without a minimum is handed out again, and its second result is a KeyError in the generator. -/
theorem C64_twice_witness : (jFrom exNoMin exAll).map (fun s => s.c.handed.map (·.id)) = some [0, 1, 2, 3, 4, 5, 3] ∧
    (jLoose exNoMin (exAll ++ [.ingest [(3, .num 2)]])).bind (fun s => s.g.map fun g => errOf (pass exNoMin g (.work [(3, .num 2)]))) =
      some (some .key) := by constructor <;> decide +kernel

/-- **C64** Results without a number are all passed on with number 0; with `sim_id` they are numbered in the order in which they come. -/
theorem C64_zero_witness : (match ({ size := 2 } : Cls FVal).ingest .missing [(7, .num 5), (8, .num 6)] with
      | .ok s => some (s.out.map valsOf) | .error _ => none) = some [[(0, .num 5), (0, .num 6)]] ∧
    (match ({ size := 2 } : Cls FVal).ingest .simId [(7, .num 5), (8, .num 6)] with
      | .ok s => some (s.out.map valsOf) | .error _ => none) = some [[(0, .num 5), (1, .num 6)]] := by constructor <;> decide +kernel

/-- **C64** With `initial_sample_size = 0` the first results are lost. -/
theorem C64_lost_witness : (match ({ size := 0 } : Cls FVal).ingest .simId [(0, .num 5)] with
      | .ok s => some (s.out.map valsOf, s.given.length) | .error _ => none) = some ([[]], 1) := by decide +kernel

/-- **C64** Results of the initial sample that come in another order get other numbers: the result of point 2 is passed on with number 0. -/
theorem C64_order_witness : (jLoose exCf [.start, .suggest 0, .ingest [(2, .num 7), (0, .num 5), (1, .num 3)]]).map (fun s => s.c.out.map valsOf) =
    some [[(0, .num 7), (1, .num 5), (2, .num 3)]] := by decide +kernel

end Verif.Aposmm
