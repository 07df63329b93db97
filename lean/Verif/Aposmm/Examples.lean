import Verif.Aposmm.Props

/-
Concrete runs that meet the hypotheses of C61 to C63, and runs that show what happens outside of them.
-/
namespace Verif.Aposmm

def freshB (rows : List (ARow Int)) (vals : List (Nat × FVal)) : Bool :=
  decide (vals.map (·.1)).Nodup && vals.all fun v => ((rows[v.1]?).map fun r => !r.ended).getD false

theorem freshB_sound {rows : List (ARow Int)} {vals : List (Nat × FVal)} (h : freshB rows vals = true) : Fresh rows vals := by
  simp only [freshB, Bool.and_eq_true, decide_eq_true_eq, List.all_eq_true] at h
  refine ⟨h.1, fun v hv => ?_⟩
  have := h.2 v hv
  cases hr : rows[v.1]? with
  | none => simp [hr] at this
  | some r => exact ⟨r, rfl, by simpa [hr] using this⟩

/-- Passes with proper results. -/
def go (cf : Cfg Int) : List (List (Nat × FVal)) → St Int → Option (St Int)
  | [], s => some s
  | v :: vs, s => if freshB s.rows v then match pass cf s (.work v) with
    | .ok (some s') => go cf vs s'
    | _ => none
    else none

def goFrom (cf : Cfg Int) (H : List (ARow Int)) (vs : List (List (Nat × FVal))) : Option (St Int) := match begin cf H with
  | .ok s => go cf vs s
  | .error _ => none

theorem go_reach {cf : Cfg Int} {H : List (ARow Int)} (vs : List (List (Nat × FVal))) {s s' : St Int} (h : Reach cf H s) (hg : go cf vs s = some s') :
    Reach cf H s' := by
  induction vs generalizing s with
  | nil => cases hg; exact h
  | cons v vs ih =>
    rw [go] at hg
    split at hg
    · rename_i hf
      split at hg
      · rename_i s1 h1
        exact ih (.pass h (fun _ => freshB_sound hf) h1) hg
      · cases hg
    · cases hg

theorem goFrom_reach {cf : Cfg Int} {H : List (ARow Int)} (hH : Given H) {vs : List (List (Nat × FVal))} {s : St Int} (h : goFrom cf H vs = some s) :
    Reach cf H s := by
  unfold goFrom at h
  split at h
  · rename_i s0 h0; exact go_reach vs (.init hH h0) h
  · cases h

theorem given_nil : Given ([] : List (ARow Int)) := ⟨by simp, by simp, by simp⟩

/-- Points on a line from 0 to 100. -/
def line : Geo Int := ⟨fun x y => ((x - y).natAbs : Int), fun x => min x (100 - x), fun x y => by omega⟩

/-- Three sample points, at most one active run; run 0 asks for 58 and ends there, run 1 asks for 18 and 17. -/
def exCf : Cfg Int where
  geo := line
  rk := fun _ => some 10
  mu := 1
  maxActive := some 1
  initial := 3
  nworkers := 3
  ans := fun c k => match c, k with
    | 0, 0 => .point 58
    | 0, _ => .conv 58 true
    | 1, 0 => .point 18
    | 1, 1 => .point 17
    | _, _ => .err
  samp := fun i => match i with | 0 => 20 | 1 => 60 | 2 => 25 | n => 90 + n

/-- The initial sample comes back, then the point of run 0 (which ends), then that of run 1. -/
def exVals : List (List (Nat × FVal)) := [[(0, .num 5), (1, .num 3), (2, .num 7)], [(3, .num 2)], [(4, .nan), (5, .num 4)]]

/-- Rows 0 to 6 are created; run 0 started at row 1 and ended with row 3, run 1 started at row 0 and waits for row 6. -/
example : (goFrom exCf [] exVals).map (fun s => (s.opters, s.endedRuns, s.order, startsOf s.tr)) =
    some ([1], [0], [[1, 3], [0, 5, 6]], [1, 0]) := by decide +kernel

example : (goFrom exCf [] exVals).map (fun s => (sentNew s.tr, sentOpt s.tr, passed s.tr 0, passed s.tr 1)) =
    some ([0, 1, 2, 3, 4, 5, 6, 7], [3], [1, 3], [0, 5]) := by decide +kernel

/-- The state is one that C61 and C63 speak about. -/
example (s : St Int) (h : goFrom exCf [] exVals = some s) : Reach exCf [] s := goFrom_reach given_nil h

/-- Distances to better local and sample points with their rows, and the boundary (rows 0 to 3). -/
example : (goFrom exCf [] exVals).map (fun s => (s.rows.take 4).map fun r => (r.dl, r.il, r.ds, r.iS)) =
    some [(some 2, 5, some 40, 1), (some 2, 3, none, -1), (some 7, 5, some 5, 0), (none, -1, none, -1)] := by decide +kernel

/-- The results received, and the number of sample points among them (rows 3 and 5 are points of runs). -/
example : (goFrom exCf [] exVals).map (fun s => (gotVals s.tr, s.ns)) =
    some ([(4, .nan), (5, .num 4), (3, .num 2), (0, .num 5), (1, .num 3), (2, .num 7)], 4) := by decide +kernel

/-- With `stop_after_k_runs = 1` the generator returns at the third message, after run 0 has ended; not at the second. -/
example : (goFrom { exCf with stopRuns := some 1 } [] (exVals.take 2)).map (fun s =>
    match pass { exCf with stopRuns := some 1 } s (.work [(4, .nan), (5, .num 4)]) with | .ok none => true | _ => false) = some true := by decide +kernel

/-- The first decision: rows 1 and 0 are chosen in the order of their values, row 2 has the better row 0 within 10; `max_active_runs` lets one start. -/
example : (goFrom exCf [] []).map (fun s => match receive exCf s [(0, .num 5), (1, .num 3), (2, .num 7)] with
    | .ok s => startInds exCf.geo s.rows (exCf.rk s.ns) exCf.mu exCf.nu
    | .error _ => []) = some [1, 0] := by decide +kernel

/-- Two sample points of the same smallest value: each has the other within 10, and the tie is broken for the first (row 1 is far from both). -/
example : (goFrom exCf [] []).map (fun s => match receive exCf s [(0, .num 3), (1, .num 9), (2, .num 3)] with
    | .ok s => (startInds exCf.geo s.rows (exCf.rk s.ns) exCf.mu exCf.nu, s.rows.map (·.ds))
    | .error _ => ([], [])) = some ([0, 1], [none, some 35, some 5]) := by decide +kernel

/-! ### Outside of the hypotheses, and other observations -/

/-- Rows of a former run given with `known_to_aposmm`: their distances are reset to infinity and never computed. -/
def exKnown : List (ARow Int) :=
  [{ x := 20, f := .num 1, sid := 0, known := true, ended := true }, { x := 21, f := .num 2, sid := 1, known := true, ended := true }]

/-- **C61** fails for rows given as known: row 1 has infinite distance to better sample points though row 0 is better and next to it. -/
theorem C61_known_witness : ∃ s r o, begin { exCf with initial := 0 } exKnown = .ok s ∧ s.rows[1]? = some r ∧ s.rows[0]? = some o ∧
    Evaluated r ∧ Evaluated o ∧ FVal.lt o.f r.f = true ∧ o.isLocal = false ∧ r.ds = none := by
  refine ⟨{ rows := reset exKnown, ns := 2 }, { x := 21, f := .num 2, sid := 1, known := true, ended := true },
    { x := 20, f := .num 1, sid := 0, known := true, ended := true }, rfl, rfl, rfl, ⟨rfl, by decide⟩, ⟨rfl, by decide⟩, rfl, rfl, rfl⟩

/-- The error of a pass, as a test. -/
def errOf (x : Except Err (Option (St Int))) : Option Err := match x with | .error e => some e | .ok _ => none

/-- **C63** A second result for the last point of a run that has ended is a KeyError: results must come once. -/
theorem C63_twice_witness : (goFrom exCf [] (exVals.take 2)).map (fun s => errOf (pass exCf s (.work [(3, .num 2)]))) = some (some .key) := by
  decide +kernel

/-- **C63** An optimizer that ends at its starting point makes the generator fail. -/
theorem C63_first_answer_witness :
    (goFrom { exCf with ans := fun _ _ => .conv 60 true } [] []).map
      (fun s => errOf (pass { exCf with ans := fun _ _ => .conv 60 true } s (.work [(0, .num 5), (1, .num 3), (2, .num 7)]))) =
    some (some .badStart) := by decide +kernel

/-- **C63** `num_active_runs` of the starting point (row 1) is 0 during the run and -1 after it. -/
theorem C63_count_witness : (goFrom exCf [] (exVals.take 1)).map (fun s => (s.opters, s.rows[1]?.map (·.nact))) = some ([0], some 0) ∧
    (goFrom exCf [] (exVals.take 2)).map (fun s => (s.endedRuns, s.rows[1]?.map (·.nact))) = some ([0], some (-1)) := by
  constructor <;> decide +kernel

/-- **C62** A point exactly `mu` from the boundary is chosen ("more than mu" in the documentation). -/
theorem C62_mu_witness : (goFrom { exCf with mu := 40 } [] []).map (fun s => match receive { exCf with mu := 40 } s [(0, .num 5), (1, .num 3), (2, .num 7)] with
    | .ok s => (startInds exCf.geo s.rows (exCf.rk s.ns) 40 exCf.nu, s.rows[1]?.map (·.bnd))
    | .error _ => ([], none)) = some ([1], some (some 40)) := by decide +kernel

end Verif.Aposmm
