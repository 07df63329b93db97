import Verif.Manager.Start
/-!
Properties C09 and C12–C15: who gets work, and when the run stops.

`c : Start` is the beginning of a run, `c.run its t rounds` a run (or the part of it that the inputs cover).  The
answers of the allocation function, the messages of the workers, their order and all clock readings are arbitrary.
The record `tr` of the run is newest first; in `tr = post ++ e :: pre`, `pre` is what had happened before `e`.
`view w pre` is what the messages exchanged so far say about worker `w` (`Verif.Manager.Spec`).
-/
namespace Verif.Manager
open Verif.History Verif.Res Verif.Sched Verif.Alloc

/-! ### A concrete run used in the examples -/

/-- Two workers, at most three evaluations, room for four points. -/
def demo : Start := { sp := { simMax := some 3 }, cols := demoCols, L := 4, H0 := noH0, n := 2 }

def genOrder : Work := { tag := EVAL_GEN, fields := [], rows := [], persistent := false }
def simOrder (rows : List Nat) : Work := { tag := EVAL_SIM, fields := [.user 1], rows := rows, persistent := false }
def points (w : Nat) (as : List Int) : Mail :=
  { w := w, t := 5, m := .data { calcType := EVAL_GEN, calcStatus := 0, rows := [], out := .arr (demoPoints as) } }
def value (w : Nat) (rows : List Nat) (ys : List Int) : Mail :=
  { w := w, t := 6, m := .data { calcType := EVAL_SIM, calcStatus := 0, rows := rows, out := .arr (demoVals ys) } }

/-- A pass of the loop: messages, then orders. -/
def pass (mail : List Mail) (work : List (Nat × Work)) (e : Int := 0) : Iter :=
  { e1 := e, mail := mail, alloc := fun _ => .ok [] work false {}, t := fun _ => 4, e2 := e }

/-- The generator runs on worker 1, then both workers evaluate, then worker 2 gets another point. -/
def demoIts : List Iter :=
  [pass [] [(1, genOrder)], pass [points 1 [10, 20, 30]] [(1, simOrder [0]), (2, simOrder [1])],
   pass [value 2 [1] [7]] [(2, simOrder [2])]]

/-! ## C09 -/

/-- Orders of the main loop go only to a worker that has no unanswered order, or, if the worker is in active-receive
mode, only if they are active-receive orders. -/
theorem C09_only_idle (c : Start) (its : List Iter) (t : Nat → Int) (rounds : List Round) (post pre : List Ev)
    (to key : Nat) (wk : Work) (h : (c.run its t rounds).1.tr = post ++ .order to key wk :: pre) (hf : hasFinal pre = false) :
    ((view to pre).recv = false ∧ (view to pre).busy = false) ∨ ((view to pre).recv = true ∧ wk.activeRecv.isSome = true) := by
  obtain ⟨p, _, hr⟩ := c.reach its t rounds
  have key := hr.orders (g := fun pre to _ wk => hasFinal pre = false →
    ((view to pre).recv = false ∧ (view to pre).busy = false) ∨ ((view to pre).recv = true ∧ wk.activeRecv.isSome = true))
    (by rw [start_tr]; exact Always.nil) rfl (fun pre to key wk h h' => by rw [h] at h'; simp at h')
    (fun s w wk t rest k wk' l0 hr _ hc hk hwk hl0 _ => by
      have hv := (hr.vi start_vi rfl rfl rfl).1
      obtain ⟨k', x, hk', hx, hcase, _⟩ := checkOrder_none hc
      obtain rfl : k = k' := by rw [hk] at hk'; simpa using hk'
      have ha := hv.agree k x hx
      have hview : view (idAt c.sp k) (l0 ++ s.tr) = view (idAt c.sp k) s.tr :=
        view_neutral _ _ _ (by rcases hl0 with h | ⟨_, h⟩ <;> rw [h] <;> simp [neutral])
      rw [hview, ha.busy, ha.recv]
      have hrec : wk'.activeRecv = wk.activeRecv := by rw [hwk]
      rcases hcase with ⟨h1, h2⟩ | ⟨h1, h2 | h2⟩
      · exact .inr ⟨h1, by rw [hrec]; exact h2⟩
      · simp at h2
      · exact .inl ⟨h1, by simp [h2]⟩)
  exact key _ _ _ h hf

/-- An order to a worker that may not get it is refused: nothing is sent or changed, no later order of the
same answer is looked at, and the pass of the loop raises.  `Reach … (.hand ((w, wk, t) :: rest)) s`: in state `s`
the loop over `Work` has come to the order `wk` with key `w`. -/
theorem C09_refused (c : Start) (s : St) (w k : Nat) (wk : Work) (t : Int) (rest : List (Nat × Work × Int))
    (hr : Reach c.sp (fun _ _ => True) c.st (.hand ((w, wk, t) :: rest)) s) (hm : simMaxGiven c.sp s.hist = false)
    (hk : wPos c.sp.gom s.W.length w = some k)
    (hbad : ¬ (((view (idAt c.sp k) s.tr).recv = false ∧ (view (idAt c.sp k) s.tr).busy = false) ∨
      ((view (idAt c.sp k) s.tr).recv = true ∧ wk.activeRecv.isSome = true))) :
    handOutAll c.sp ((w, wk, t) :: rest) s =
      (s, some (if (view (idAt c.sp k) s.tr).recv then .recvOrder else .busy)) := by
  have hv := (hr.vi start_vi rfl rfl rfl).1
  have hkl := wPos_lt hk
  have ha := hv.agree k s.W[k] (List.getElem?_eq_some_iff.mpr ⟨hkl, rfl⟩)
  rw [ha.recv, ha.busy] at hbad
  have hg : getW c.sp s w = some s.W[k] := by simp [getW, hk, hkl]
  have hc : checkOrder c.sp s wk w false = some (if s.W[k].activeRecv then .recvOrder else .busy) := by
    simp only [checkOrder, hg]
    cases hrec : s.W[k].activeRecv with
    | true =>
      have : wk.activeRecv.isNone = true := by
        cases hx : wk.activeRecv with
        | none => rfl
        | some b => exact absurd (.inr ⟨hrec, by rw [hx]; rfl⟩) hbad
      simp [this]
    | false =>
      have : s.W[k].active ≠ 0 := fun h => hbad (.inl ⟨hrec, by simp [h]⟩)
      simp [this]
  rw [ha.recv]
  simp only [handOutAll, hm, Bool.false_eq_true, if_false, handOut, hc, andThen]

/-- A refused order ends the run with that error: whatever happens during the shutdown, the run does not return. -/
theorem run_raised (c : Start) (its : List Iter) (e : MErr) (h : (c.loop its).2 = .raised e) (t : Nat → Int) (rounds : List Round) :
    (c.run its t rounds).2 = .raised e ∨ (c.run its t rounds).2 = .waiting ∨ ∃ x, (c.run its t rounds).2 = .raisedFinal x := by
  simp only [Start.run, Manager.run, Start.loop] at *
  generalize mainLoop c.sp its c.st = y at h
  obtain ⟨s, m⟩ := y
  simp only at h
  subst h
  simp only
  generalize finalPhase c.sp (emit s .final) t rounds = z
  obtain ⟨s', f⟩ := z
  cases f with
  | waiting => exact .inr (.inl rfl)
  | done f => exact .inl rfl
  | raised x => exact .inr (.inr ⟨x, rfl⟩)

/-- After the end of the main loop the only orders are persistent stops. -/
theorem no_work_after_loop (c : Start) (its : List Iter) (t : Nat → Int) (rounds : List Round) (post pre : List Ev)
    (to key : Nat) (wk : Work) (h : (c.run its t rounds).1.tr = post ++ .order to key wk :: pre) (hf : hasFinal pre = true) :
    wk.tag = PERSIS_STOP := by
  obtain ⟨p, _, hr⟩ := c.reach its t rounds
  exact hr.lateOrders rfl _ _ _ h hf

/-- The demo run: three orders to idle workers; an order to a busy worker and a shutdown order are told apart. -/
example : (demo.run demoIts (fun _ => 0) []).2 = .running ∧ simGiven (demo.run demoIts (fun _ => 0) []).1.tr = [2, 1, 0] ∧
    (view 1 (demo.run demoIts (fun _ => 0) []).1.tr).busy = true ∧
    (demo.run (demoIts.take 2 ++ [pass [] [(1, simOrder [2])]]) (fun _ => 0) []).2 = .waiting ∧
    (demo.loop (demoIts.take 2 ++ [pass [] [(1, simOrder [2])]])).2 = .raised .busy := by decide +kernel

/-! ## C12 -/

/-- With `sim_max = N`, rows are sent for evaluation only as long as fewer than `N` have been sent. -/
theorem C12_gate (c : Start) (N : Nat) (hN : c.sp.simMax = some N) (its : List Iter) (t : Nat → Int) (rounds : List Round)
    (post pre : List Ev) (to key : Nat) (wk : Work) (h : (c.run its t rounds).1.tr = post ++ .order to key wk :: pre)
    (hs : wk.tag = EVAL_SIM) : (simGiven pre).length < N := by
  obtain ⟨p, _, hr⟩ := c.reach its t rounds
  exact hr.simMax hN rfl rfl _ _ _ h hs

/-- With `sim_max = N` and orders of one row each, at most `N` rows are sent for evaluation.  Partial: orders of up to
`b` rows can exceed `N` by `b - 1`; see the witness below. -/
theorem C12_at_most_partial (c : Start) (N b : Nat) (hN : c.sp.simMax = some N) (its : List Iter) (t : Nat → Int)
    (rounds : List Round)
    (hb : ∀ to key wk, .order to key wk ∈ (c.run its t rounds).1.tr → wk.tag = EVAL_SIM → wk.rows.length ≤ b) :
    (simGiven (c.run its t rounds).1.tr).length ≤ N + (b - 1) := by
  obtain ⟨p, _, hr⟩ := c.reach its t rounds
  exact simGiven_bound _ (hr.simMax hN rfl rfl) hb

/-- The demo run reaches the limit, and a fourth order is not sent. -/
example : (simGiven (demo.run (demoIts ++ [pass [value 1 [0] [7]] [(1, simOrder [3])]]) (fun _ => 0) []).1.tr).length = 3 ∧
    (demo.run (demoIts ++ [pass [value 1 [0] [7]] [(1, simOrder [3])]]) (fun _ => 0) []).2 = .running := by decide +kernel

/-- Witness: with `sim_max = 1` an order of three rows is sent. -/
theorem C12_exceeded : ∃ (c : Start) (its : List Iter), c.sp.simMax = some 1 ∧ (c.run its (fun _ => 0) []).2 = .running ∧
    (simGiven (c.run its (fun _ => 0) []).1.tr).length = 3 :=
  ⟨{ demo with sp := { simMax := some 1 } },
   [pass [] [(1, genOrder)], pass [points 1 [10, 20, 30]] [(1, simOrder [0, 1, 2])]], by decide +kernel⟩

/-! ## C13 -/

/-- The time limit is reached. -/
def WallReached (sp : Specs) (e : Int) : Prop := ∃ m, sp.wallclockMax = some m ∧ m ≤ e
/-- `sim_max` rows have been recorded as evaluated. -/
def SimReached (sp : Specs) (tr : List Ev) : Prop := ∃ N, sp.simMax = some N ∧ N ≤ (simBack tr).length
/-- `gen_max`: `h` has that many rows on top of those that the prepended history had marked as known to a generator. -/
def GenReached (sp : Specs) (informed0 : Nat) (h : Hist) : Prop := ∃ N, sp.genMax = some N ∧ N + informed0 ≤ h.index
/-- `stop_val`: some evaluated row has a value that is a number and not above the given one. -/
def ValReached (sp : Specs) (h : Hist) : Prop := ∃ f v, sp.stopVal = some (f, v) ∧
  ∃ r ∈ h.rows, r.flag .simEnded = true ∧ ∃ x ∈ cellVals (r f), sp.nan x = false ∧ sp.le x v = true

theorem stopValTest_iff (sp : Specs) (h : Hist) (f : Field) (v : Int) : stopValTest sp h f v = true ↔
    ∃ r ∈ h.rows, r.flag .simEnded = true ∧ ∃ x ∈ cellVals (r f), sp.nan x = false ∧ sp.le x v = true := by
  simp only [stopValTest, List.any_eq_true, List.mem_filter, Bool.not_eq_true', and_assoc]

/-- The value of `term_test`, case by case. -/
theorem termTest_iff (sp : Specs) (h : Hist) (e : Int) (tr : List Ev) (hc : h.simEndedCount = h.simEndedOffset + (simBack tr).length) :
    (WallReached sp e → termTest sp h e = 2) ∧
    (¬ WallReached sp e → (SimReached sp tr ∨ GenReached sp h.genInformedOffset h ∨ ValReached sp h) → termTest sp h e = 1) ∧
    (¬ WallReached sp e → ¬ (SimReached sp tr ∨ GenReached sp h.genInformedOffset h ∨ ValReached sp h) → termTest sp h e = 0) := by
  have h1 : wallTest sp e = true ↔ WallReached sp e := by
    cases hw : sp.wallclockMax <;> simp [WallReached, wallTest, hw]
  have h2 : simTest sp h = true ↔ SimReached sp tr := by
    cases hw : sp.simMax with
    | none => simp [SimReached, simTest, hw]
    | some m => simp [SimReached, simTest, hw]; omega
  have h3 : genTest sp h = true ↔ GenReached sp h.genInformedOffset h := by
    cases hw : sp.genMax <;> simp [GenReached, genTest, hw]
  have h4 : valTest sp h = true ↔ ValReached sp h := by
    cases hw : sp.stopVal with
    | none => simp [ValReached, valTest, hw]
    | some fv =>
      obtain ⟨f, v⟩ := fv
      simp only [ValReached, valTest, hw, Option.some.injEq, Prod.mk.injEq]
      rw [stopValTest_iff]
      constructor
      · intro h; exact ⟨f, v, ⟨rfl, rfl⟩, h⟩
      · rintro ⟨f', v', ⟨rfl, rfl⟩, h⟩; exact h
  unfold termTest
  rw [← h1, ← h2, ← h3, ← h4]
  refine ⟨fun a => if_pos a, fun a b => ?_, fun a b => ?_⟩
  · rw [if_neg a]
    rcases b with b | b | b
    · rw [if_pos b]
    · simp [b]
    · simp [b]
  · rw [if_neg a, if_neg (fun h => b (.inl h)), if_neg (fun h => b (.inr (.inl h))), if_neg (fun h => b (.inr (.inr h)))]

/-- If the loop is still running after the inputs `its`, then at the next pass it stops with status 2 if the time limit
is reached, otherwise with status 1 if one of the other given criteria holds, and otherwise it goes on (this pass does
not end by a criterion). -/
theorem C13_loop (c : Start) (its : List Iter) (it : Iter) (rest : List Iter) (h : (c.loop its).2 = .running) :
    (WallReached c.sp it.e1 → c.loop (its ++ it :: rest) = (emit (c.loop its).1 (.test 2), .stopped 2)) ∧
    (¬ WallReached c.sp it.e1 → (SimReached c.sp (c.loop its).1.tr ∨ GenReached c.sp c.hist.genInformedOffset (c.loop its).1.hist ∨
        ValReached c.sp (c.loop its).1.hist) → c.loop (its ++ it :: rest) = (emit (c.loop its).1 (.test 1), .stopped 1)) ∧
    (¬ WallReached c.sp it.e1 → ¬ (SimReached c.sp (c.loop its).1.tr ∨ GenReached c.sp c.hist.genInformedOffset (c.loop its).1.hist ∨
        ValReached c.sp (c.loop its).1.hist) → ∀ r, (c.loop (its ++ [it])).2 ≠ .stopped r) := by
  have hr := (loop_reach c its).1 h
  have he := hr.ended start_ended rfl
  obtain ⟨_, ho2, ho3⟩ := hr.offsets
  have hc : (c.loop its).1.hist.simEndedCount = (c.loop its).1.hist.simEndedOffset + (simBack (c.loop its).1.tr).length := by
    rw [ho2]; exact he
  have key := termTest_iff c.sp (c.loop its).1.hist it.e1 (c.loop its).1.tr hc
  rw [ho3] at key
  have happ : ∀ l, c.loop (its ++ l) = mainLoop c.sp l (c.loop its).1 := by
    intro l
    simp only [Start.loop] at *
    rw [mainLoop_append, if_pos h]
  refine ⟨fun hw => ?_, fun hn ho => ?_, fun hn ho r => ?_⟩
  · rw [happ]; simp only [mainLoop]; rw [key.1 hw]; rfl
  · rw [happ]; simp only [mainLoop]; rw [key.2.1 hn ho]; rfl
  · rw [happ]
    simp only [mainLoop]
    rw [key.2.2 hn ho]
    simp only [ne_eq, not_true_eq_false, if_false]
    generalize iter c.sp (emit (c.loop its).1 (.test 0)) it = x
    obtain ⟨s1, f⟩ := x
    cases f <;> simp

/-- An order of the main loop is only sent while every test so far was negative; so none follows a positive test. -/
theorem C13_no_work_after (c : Start) (its : List Iter) (t : Nat → Int) (rounds : List Round) (post pre : List Ev)
    (to key : Nat) (wk : Work) (h : (c.run its t rounds).1.tr = post ++ .order to key wk :: pre) :
    (∀ r, .test r ∈ pre → r = 0) ∨ wk.tag = PERSIS_STOP := by
  obtain ⟨p, _, hr⟩ := c.reach its t rounds
  have hs := hr.orders (g := fun pre _ _ _ => hasFinal pre = false → ∀ r, .test r ∈ pre → r = 0)
    (by rw [start_tr]; exact .nil) rfl (fun pre to key wk h h' => by rw [h] at h'; simp at h')
    (fun s w wk t rest k wk' l0 hr _ _ _ _ hl0 _ r hr' => by
      have := hr.tests rfl rfl
      rcases hl0 with rfl | ⟨_, rfl⟩
      · exact this r hr'
      · refine this r ?_; simpa using hr')
  by_cases hf : hasFinal pre = true
  · exact .inr (no_work_after_loop c its t rounds post pre to key wk h hf)
  · exact .inl (hs _ _ _ h (by simpa using hf))

/-- The demo run stops with status 1 after three results, and with status 2 if the time is over as well. -/
example :
    (demo.loop (demoIts ++ [pass [value 1 [0] [7], value 2 [2] [5]] [], pass [] []])).2 = .stopped 1 ∧
    ({ demo with sp := { simMax := some 3, wallclockMax := some 9 } }.loop
      (demoIts ++ [pass [value 1 [0] [7], value 2 [2] [5]] [], pass [] [] 9])).2 = .stopped 2 := by decide +kernel

/-! ## C14 -/

/-- Rows of the prepended history that are marked as known to a generator. -/
def informed0 (c : Start) : Nat := if .genInformed ∈ c.H0.fields then countFlag c.H0.rows .genInformed else 0

theorem informed_offset (c : Start) (hsc : LibScalar c.cols) (hsc0 : LibScalar c.H0.cols) : c.hist.genInformedOffset = informed0 c := by
  have hz : ∀ cols : List (Field × Shape), LibScalar cols → zeroRow cols .genInformed = .s 0 := by
    intro cols h
    simp only [zeroRow]
    split
    · rename_i x hx
      have h1 := List.find?_some hx
      have h2 := h x (List.mem_of_find?_eq_some hx) (by simp at h1; rw [h1]; simp [libEFields])
      rw [h2]; rfl
    · rfl
  have hcols : LibScalar c.hist.cols := by
    simp only [Start.hist, init]
    split
    · exact hsc
    · intro x hx
      rw [List.mem_append] at hx
      rcases hx with hx | hx
      · exact hsc0 x hx
      · exact hsc x (List.mem_filter.mp hx).1
  have hfr : ∀ (cols : List (Field × Shape)) (r : Row), (freshen cols r).flag .genInformed = r.flag .genInformed := by
    intro cols r
    simp only [freshen, Row.flag]
    split <;> split <;> simp [Row.set]
  have hh0 : ∀ (i : Nat) (r : Row), (h0Row c.hist.cols c.H0 i r).flag .genInformed = (decide (.genInformed ∈ c.H0.fields) && r.flag .genInformed) := by
    intro i r
    have : h0Row c.hist.cols c.H0 i r .genInformed = if .genInformed ∈ c.H0.fields then r .genInformed else .s 0 := by
      simp only [h0Row]
      by_cases h1 : Field.genInformed ∈ c.H0.fields <;> by_cases h2 : Field.simId ∈ c.H0.fields <;>
        by_cases h3 : Field.simStarted ∈ c.H0.fields <;> by_cases h4 : Field.simEnded ∈ c.H0.fields <;>
        simp [Row.set, hz _ hcols, h1, h2, h3, h4]
    simp only [Row.flag, this]
    by_cases h : Field.genInformed ∈ c.H0.fields <;> simp [h]
  have hpre : ∀ (l : List Row) (k : Nat), countFlag (l.mapIdx (fun i r => h0Row c.hist.cols c.H0 (i + k) r)) .genInformed =
      if .genInformed ∈ c.H0.fields then countFlag l .genInformed else 0 := by
    intro l
    induction l with
    | nil => intro k; simp [countFlag]
    | cons r l ih =>
      intro k
      have h1 := ih (k + 1)
      simp only [countFlag, List.mapIdx_cons, List.countP_cons, hh0] at h1 ⊢
      have h2 : (fun i r => h0Row c.hist.cols c.H0 (i + 1 + k) r) = fun i r => h0Row c.hist.cols c.H0 (i + (k + 1)) r := by
        funext i r; congr 1; omega
      rw [h2, h1]
      by_cases h : Field.genInformed ∈ c.H0.fields <;> simp [h]
  have hfresh : countFlag (List.replicate c.L (freshRow c.hist.cols)) .genInformed = 0 := by
    simp only [countFlag, List.countP_eq_zero]
    intro r hr
    rw [(List.mem_replicate.mp hr).2, freshRow, hfr]
    simp [Row.flag, hz _ hcols]
  have hmap : ∀ l : List Row, countFlag (l.map (freshen c.hist.cols)) .genInformed = countFlag l .genInformed := by
    intro l
    simp only [countFlag, List.countP_map]
    congr 1
    funext r
    exact hfr _ r
  show countFlag c.hist.rows .genInformed = _
  have hrows : c.hist.rows = (if c.L = 0 then (c.H0.rows.mapIdx (fun i r => h0Row c.hist.cols c.H0 i r)).map (freshen c.hist.cols)
      else c.H0.rows.mapIdx (fun i r => h0Row c.hist.cols c.H0 i r)) ++ List.replicate c.L (freshRow c.hist.cols) := rfl
  have happ : ∀ a b : List Row, countFlag (a ++ b) .genInformed = countFlag a .genInformed + countFlag b .genInformed :=
    fun a b => List.countP_append
  rw [hrows, happ, hfresh, Nat.add_zero]
  have := hpre c.H0.rows 0
  simp only [Nat.add_zero] at this
  simp only [informed0]
  split
  · rw [hmap, this]
  · exact this

/-- The `gen_max` criterion, for every prepended history: `gen_max = N` stops the loop exactly when the history has
`N` rows more than the prepended history has rows marked as known to a generator. -/
theorem C14_counts (c : Start) (its : List Iter) (N : Nat) (hN : c.sp.genMax = some N) (hsc : LibScalar c.cols)
    (hsc0 : LibScalar c.H0.cols) (hw : c.sp.wallclockMax = none) (hs : c.sp.simMax = none) (hv : c.sp.stopVal = none)
    (h : (c.loop its).2 = .running) (it : Iter) :
    (N + informed0 c ≤ (c.loop its).1.hist.index → (c.loop (its ++ [it])).2 = .stopped 1) ∧
    ((c.loop its).1.hist.index < N + informed0 c → ∀ r, (c.loop (its ++ [it])).2 ≠ .stopped r) := by
  obtain ⟨_, h2, h3⟩ := C13_loop c its it [] h
  have hnw : ¬ WallReached c.sp it.e1 := by rintro ⟨m, hm, _⟩; rw [hw] at hm; simp at hm
  rw [informed_offset c hsc hsc0] at h2 h3
  refine ⟨fun hle => ?_, fun hlt => h3 hnw ?_⟩
  · rw [h2 hnw (.inr (.inl ⟨N, hN, hle⟩))]
  · rintro (⟨m, hm, _⟩ | ⟨m, hm, hle⟩ | ⟨f, v, hm, _⟩)
    · rw [hs] at hm; simp at hm
    · rw [hN] at hm; simp at hm; omega
    · rw [hv] at hm; simp at hm

/-- With `gen_max = N` (and no other criterion) the loop stops exactly when `N` rows have been added to the
prepended ones.  Partial: every row of the prepended history is marked as known to a generator (`gen_informed`), or there is
none; see the witness below. -/
theorem C14_new_points_partial (c : Start) (its : List Iter) (N : Nat) (hN : c.sp.genMax = some N) (hsc : LibScalar c.cols)
    (hsc0 : LibScalar c.H0.cols) (hw : c.sp.wallclockMax = none) (hs : c.sp.simMax = none) (hv : c.sp.stopVal = none)
    (hH0 : c.H0.rows = [] ∨ (.genInformed ∈ c.H0.fields ∧ ∀ r ∈ c.H0.rows, r.flag .genInformed = true))
    (h : (c.loop its).2 = .running) (it : Iter) :
    (c.loop (its ++ [it])).2 = .stopped 1 ↔ N ≤ (c.loop its).1.hist.index - c.H0.rows.length := by
  have hi : informed0 c = c.H0.rows.length := by
    simp only [informed0]
    rcases hH0 with h | ⟨h1, h2⟩
    · simp [h, countFlag]
    · rw [if_pos h1]; simp only [countFlag]; exact List.countP_eq_length.mpr h2
  have hge : c.H0.rows.length ≤ (c.loop its).1.hist.index :=
    ((loop_reach c its).1 h).micros.histInv (I := fun h => c.H0.rows.length ≤ h.index)
      (fun h o _ hh => Nat.le_trans hh (apply_struct h o).2.2.1) (Nat.le_refl _)
  obtain ⟨h1, h2⟩ := C14_counts c its N hN hsc hsc0 hw hs hv h it
  rw [hi] at h1 h2
  constructor
  · intro hst
    by_cases hlt : (c.loop its).1.hist.index < N + c.H0.rows.length
    · exact absurd hst (h2 hlt 1)
    · omega
  · intro hle; exact h1 (by omega)

/-- A prepended history of one row, marked as known to a generator or not. -/
def oneRow (informed : Int) : Rec :=
  ⟨[(.simId, .scalar), (.simStarted, .scalar), (.simEnded, .scalar), (.genInformed, .scalar), (.user 0, .scalar)],
   [mkRow [(.simId, .s 0), (.simStarted, .s 1), (.simEnded, .s 1), (.genInformed, .s informed), (.user 0, .s 5)]]⟩

def genDemo (informed : Int) : Start :=
  { sp := { genMax := some 2 }, cols := demoCols, L := 4, H0 := oneRow informed, n := 2 }

/-- With the prepended row marked, the loop goes on after one new point and stops after two. -/
example :
    ((genDemo 1).loop [pass [] [(1, genOrder)], pass [points 1 [10]] [(1, genOrder)], pass [] []]).2 = .running ∧
    ((genDemo 1).loop [pass [] [(1, genOrder)], pass [points 1 [10, 20]] [(1, genOrder)], pass [] []]).2 = .stopped 1 := by
  decide +kernel

/-- Witness: with a prepended row that is not marked, `gen_max = 2` stops the loop after one new point. -/
theorem C14_stops_early : ∃ (c : Start) (its : List Iter) (it : Iter), c.sp.genMax = some 2 ∧ c.H0.rows.length = 1 ∧
    (c.loop its).2 = .running ∧ (c.loop its).1.hist.index - c.H0.rows.length = 1 ∧ (c.loop (its ++ [it])).2 = .stopped 1 :=
  ⟨genDemo 0, [pass [] [(1, genOrder)], pass [points 1 [10]] [(1, genOrder)]], pass [] [], by decide +kernel⟩

/-! ## C15 -/

/-- With `stop_val = (f, v)` (and no other criterion) the loop stops exactly when some evaluated row has a value
strictly below `v`.  Partial: no evaluated row has a value equal to `v` (`le x v` and `le v x`); see the witness below. -/
theorem C15_strictly_below_partial (c : Start) (its : List Iter) (f : Field) (v : Int) (hN : c.sp.stopVal = some (f, v))
    (hw : c.sp.wallclockMax = none) (hs : c.sp.simMax = none) (hg : c.sp.genMax = none)
    (h : (c.loop its).2 = .running) (it : Iter)
    (hne : ∀ r ∈ (c.loop its).1.hist.rows, r.flag .simEnded = true → ∀ x ∈ cellVals (r f), c.sp.nan x = false →
      ¬ (c.sp.le x v = true ∧ c.sp.le v x = true)) :
    (c.loop (its ++ [it])).2 = .stopped 1 ↔
      ∃ r ∈ (c.loop its).1.hist.rows, r.flag .simEnded = true ∧
        ∃ x ∈ cellVals (r f), c.sp.nan x = false ∧ c.sp.le x v = true ∧ c.sp.le v x = false := by
  obtain ⟨_, h2, h3⟩ := C13_loop c its it [] h
  have hnw : ¬ WallReached c.sp it.e1 := by rintro ⟨m, hm, _⟩; rw [hw] at hm; simp at hm
  constructor
  · intro hst
    have : SimReached c.sp (c.loop its).1.tr ∨ GenReached c.sp c.hist.genInformedOffset (c.loop its).1.hist ∨ ValReached c.sp (c.loop its).1.hist :=
      Classical.byContradiction fun hn => h3 hnw hn 1 hst
    rcases this with ⟨m, hm, _⟩ | ⟨m, hm, _⟩ | ⟨f', v', hm, r, hr, he, x, hx, hna, hle⟩
    · rw [hs] at hm; simp at hm
    · rw [hg] at hm; simp at hm
    · rw [hN] at hm
      simp only [Option.some.injEq, Prod.mk.injEq] at hm
      obtain ⟨rfl, rfl⟩ := hm
      refine ⟨r, hr, he, x, hx, hna, hle, ?_⟩
      have := hne r hr he x hx hna
      simpa [hle] using this
  · rintro ⟨r, hr, he, x, hx, hna, hle, _⟩
    rw [h2 hnw (.inr (.inr ⟨f, v, hN, r, hr, he, x, hx, hna, hle⟩))]

def valDemo : Start := { sp := { stopVal := some (.user 0, 5) }, cols := demoCols, L := 4, H0 := noH0, n := 2 }

example :
    (valDemo.loop (demoIts ++ [pass [] []])).2 = .running ∧
    (valDemo.loop (demoIts ++ [pass [value 1 [0] [4]] [], pass [] []])).2 = .stopped 1 := by decide +kernel

/-- Witness: a value equal to `stop_val` stops the loop. -/
theorem C15_stops_at_equal : ∃ (c : Start) (its : List Iter) (it : Iter), c.sp.stopVal = some (.user 0, 5) ∧
    (c.loop its).2 = .running ∧ (c.loop (its ++ [it])).2 = .stopped 1 ∧
    ∀ r ∈ (c.loop its).1.hist.rows, r.flag .simEnded = true → r (.user 0) = .s 5 ∨ r (.user 0) = .s 7 :=
  ⟨valDemo, demoIts ++ [pass [value 1 [0] [5]] []], pass [] [], by decide +kernel⟩

end Verif.Manager
