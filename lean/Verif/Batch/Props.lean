import Verif.Batch.Model
import Verif.History.Props
/-!
# C93: simulators that run a task for each point, or replay a run
-/
namespace Verif.Batch
open Verif.Exec (State)

/-- The process of the task has run and ended with this code. -/
def Job.Code (j : Job) (c : Int) : Prop := ∃ l, j = .ran c l

/-- The process of the task has run and its first line is this number. -/
def Job.Wrote (j : Job) (v : Int) : Prop := ∃ c, j = .ran c (some v)

theorem runTask_ok {j : Job} {st : State} {f : File} (h : runTask j = .ok (st, f)) :
    ∃ c l, j = .ran c l ∧ f = some l ∧ st = (if c = 0 then .finished else .failed) := by
  cases j with
  | never => cases h
  | ran c l => cases h; exact ⟨c, l, rfl, rfl, rfl⟩

theorem loop_cons {app dry : Bool} {file : File} {p : Pt} {ps : List Pt} {r : List Int × List State}
    (h : loop app dry file (p :: ps) = .ok r) :
    ∃ st file' v vs sts, (if dry then .ok (State.finished, file) else runTask p.job) = .ok (st, file') ∧
      (if app then readNum file' else .ok p.value) = .ok v ∧ loop app dry file' ps = .ok (vs, sts) ∧ r = (v :: vs, st :: sts) := by
  rw [loop] at h
  split at h
  · cases h
  · rename_i st file' h1
    split at h
    · cases h
    · rename_i v h2
      split at h
      · cases h
      · rename_i vs sts h3
        cases h
        exact ⟨st, file', v, vs, sts, h1, h2, h3, rfl⟩

/-- State of the task by its code. -/
def Job.Ends (j : Job) (st : State) : Prop := (j.Code 0 ∧ st = .finished) ∨ ∃ c, c ≠ 0 ∧ j.Code c ∧ st = .failed

inductive Run (app : Bool) : List Pt → List Int → List State → Prop
  | nil : Run app [] [] []
  | cons {p ps v vs st sts} : p.job.Ends st → (app = true → p.job.Wrote v) → (app = false → v = p.value) → Run app ps vs sts → Run app (p :: ps) (v :: vs) (st :: sts)

theorem loop_run {app : Bool} {file : File} {ps : List Pt} {vs : List Int} {sts : List State}
    (h : loop app false file ps = .ok (vs, sts)) : Run app ps vs sts := by
  induction ps generalizing file vs sts with
  | nil => cases h; exact .nil
  | cons p ps ih =>
    obtain ⟨st, file', v, vs', sts', h1, h2, h3, e⟩ := loop_cons h
    cases e
    obtain ⟨c, l, hj, hf, hs⟩ := runTask_ok h1
    refine .cons ?_ ?_ ?_ (ih h3)
    · by_cases hc : c = 0
      · subst hc; rw [if_pos rfl] at hs; exact .inl ⟨⟨l, hj⟩, hs⟩
      · rw [if_neg hc] at hs; exact .inr ⟨c, hc, ⟨l, hj⟩, hs⟩
    · intro ha
      subst hf
      rw [if_pos ha] at h2
      cases l with
      | none => cases h2
      | some l => cases h2; exact ⟨c, hj⟩
    · intro ha
      rw [if_neg (by rw [ha]; decide)] at h2
      cases h2; rfl

theorem Job.Code.unique {j : Job} {a b : Int} (h1 : j.Code a) (h2 : j.Code b) : a = b := by
  obtain ⟨l, h1⟩ := h1
  obtain ⟨m, h2⟩ := h2
  rw [h1] at h2
  cases h2; rfl

theorem Run.states {app : Bool} {ps : List Pt} {vs : List Int} {sts : List State} (h : Run app ps vs sts) :
    ((∀ p ∈ ps, p.job.Code 0) ∧ sts.all (· == .finished) = true) ∨
    ((∃ p ∈ ps, ∃ c, c ≠ 0 ∧ p.job.Code c) ∧ sts.all (· == .finished) = false ∧ sts.any (· == .failed) = true) := by
  induction h with
  | nil => left; simp
  | cons he _ _ _ ih =>
    rename_i p ps v vs st sts _ _ _
    rcases he with ⟨h0, rfl⟩ | ⟨c, hc, h1, rfl⟩
    · rcases ih with ⟨a, b⟩ | ⟨⟨q, hq, c, hc, h2⟩, b, d⟩
      · left
        refine ⟨?_, by simpa using b⟩
        intro q hq
        rcases List.mem_cons.1 hq with rfl | hq
        · exact h0
        · exact a q hq
      · right
        refine ⟨⟨q, List.mem_cons_of_mem _ hq, c, hc, h2⟩, ?_, ?_⟩
        · rw [List.all_cons, b]; rfl
        · rw [List.any_cons, d]; rfl
    · right
      exact ⟨⟨p, List.mem_cons_self, c, hc, h1⟩, by rw [List.all_cons]; rfl, by rw [List.any_cons]; rfl⟩

theorem Run.values {app : Bool} {ps : List Pt} {vs : List Int} {sts : List State} (h : Run app ps vs sts) :
    vs.length = ps.length ∧ ∀ (i : Nat) (p : Pt), ps[i]? = some p → ∃ v, vs[i]? = some v ∧ (app = true → p.job.Wrote v) ∧ (app = false → v = p.value) := by
  induction h with
  | nil => exact ⟨rfl, by simp⟩
  | cons _ h1 h2 _ ih =>
    refine ⟨by simp [ih.1], ?_⟩
    intro i p hp
    cases i with
    | zero => simp at hp; subst hp; exact ⟨_, rfl, h1, h2⟩
    | succ i => exact ih.2 i p (by simpa using hp)

/-- C93: whatever `out.txt` was before, an answer for a batch has one value for each point; with `six_hump_camel` it is what the task of this very point has written.  The status is that of the tasks: done if all have ended with code zero, failed if not. -/
theorem C93_own (app : Bool) (file : File) (ps : List Pt) (vs : List Int) (s : Status) (h : multi app false file ps = .ok (vs, s)) :
    vs.length = ps.length ∧
    (∀ (i : Nat) (p : Pt), ps[i]? = some p → ∃ v, vs[i]? = some v ∧ (app = true → p.job.Wrote v) ∧ (app = false → v = p.value)) ∧
    ((∀ p ∈ ps, p.job.Code 0) ∧ s = WORKER_DONE ∨ (∃ p ∈ ps, ∃ c, c ≠ 0 ∧ p.job.Code c) ∧ s = TASK_FAILED) := by
  rw [multi] at h
  split at h
  · cases h
  · rename_i vs' sts hl
    cases h
    have R := loop_run hl
    refine ⟨R.values.1, R.values.2, ?_⟩
    rcases R.states with ⟨a, b⟩ | ⟨a, b, d⟩
    · left; exact ⟨a, by rw [verdict, if_pos b]⟩
    · right; exact ⟨a, by rw [verdict, if_neg (by rw [b]; decide), if_pos d]⟩

theorem loop_total (app : Bool) (file : File) (ps : List Pt)
    (h : ∀ p ∈ ps, (∃ c, p.job.Code c) ∧ (app = true → ∃ v, p.job.Wrote v)) : ∃ r, loop app false file ps = .ok r := by
  induction ps generalizing file with
  | nil => exact ⟨_, rfl⟩
  | cons p ps ih =>
    obtain ⟨⟨c, l, hc⟩, hw⟩ := h p List.mem_cons_self
    obtain ⟨⟨vs, sts⟩, hr⟩ := ih (some l) (fun q hq => h q (List.mem_cons_of_mem _ hq))
    rw [loop, hc]
    cases app with
    | false => simp only [runTask, Bool.false_eq_true, if_false]; rw [hr]; exact ⟨_, rfl⟩
    | true =>
      obtain ⟨v, c', hv⟩ := hw rfl
      rw [hc] at hv
      cases hv
      simp only [runTask, Bool.false_eq_true, if_false, if_true, readNum]
      rw [hr]
      exact ⟨_, rfl⟩

/-- A batch is answered exactly if every task has run and, with `six_hump_camel`, has written a number, whatever the codes. -/
theorem C93_answered (app : Bool) (file : File) (ps : List Pt) :
    (∃ r, multi app false file ps = .ok r) ↔ ∀ p ∈ ps, (∃ c, p.job.Code c) ∧ (app = true → ∃ v, p.job.Wrote v) := by
  constructor
  · rintro ⟨⟨vs, s⟩, h⟩ p hp
    rw [multi] at h
    split at h
    · cases h
    · rename_i vs' sts hl
      have R := loop_run hl
      clear hl h
      induction R with
      | nil => cases hp
      | cons he hw _ _ ih =>
        rcases List.mem_cons.1 hp with rfl | hp
        · refine ⟨?_, fun ha => ⟨_, hw ha⟩⟩
          rcases he with ⟨h0, _⟩ | ⟨c, _, h1, _⟩
          · exact ⟨0, h0⟩
          · exact ⟨c, h1⟩
        · exact ih hp
  · intro h
    obtain ⟨⟨vs, sts⟩, hr⟩ := loop_total app file ps h
    exact ⟨_, by rw [multi, hr]⟩

/-- The values of a whole batch are lost if one task fails without output: the status TASK_FAILED is not returned, the simulator raises an exception. -/
theorem C93_lost (file : File) (ps qs : List Pt) (p : Pt) (h : ∀ v, ¬ p.job.Wrote v) : ∃ e, multi true false file (ps ++ p :: qs) = .error e := by
  cases hm : multi true false file (ps ++ p :: qs) with
  | error e => exact ⟨e, rfl⟩
  | ok r =>
    obtain ⟨v, hv⟩ := ((C93_answered true file _).1 ⟨r, hm⟩ p (by simp)).2 rfl
    exact absurd hv (h v)

example : multi true false (some (some 99)) [⟨.ran 0 (some 4), 0⟩, ⟨.ran 1 (some 5), 0⟩, ⟨.ran 0 (some 6), 0⟩] = .ok ([4, 5, 6], TASK_FAILED) := rfl
example : multi true false none [⟨.ran 0 (some 4), 0⟩, ⟨.ran 0 (some 5), 0⟩] = .ok ([4, 5], WORKER_DONE) := rfl
example : multi false false none [⟨.ran 0 none, 7⟩, ⟨.ran 0 none, 8⟩] = .ok ([7, 8], WORKER_DONE) := rfl

/-- Three good points and one task that fails before it prints. -/
theorem C93_lost_witness : multi true false none [⟨.ran 0 (some 4), 0⟩, ⟨.ran 0 (some 5), 0⟩, ⟨.ran 0 (some 6), 0⟩, ⟨.ran 1 none, 0⟩] = .error .notNumber := rfl

/-- A dry run with `six_hump_camel` runs nothing and still reads `out.txt`: without the file it raises an exception, and what an earlier run has left becomes the value of every point, with status done. -/
theorem C93_dry (file : File) (ps : List Pt) (hne : ps ≠ []) :
    (∀ v, file = some (some v) → multi true true file ps = .ok (List.replicate ps.length v, WORKER_DONE)) ∧
    ((∀ v, file ≠ some (some v)) → ∃ e, multi true true file ps = .error e) := by
  constructor
  · intro v hf
    subst hf
    have : ∀ ps : List Pt, loop true true (some (some v)) ps = .ok (List.replicate ps.length v, List.replicate ps.length State.finished) := by
      intro ps
      induction ps with
      | nil => rfl
      | cons p ps ih => simp only [loop, if_true, readNum]; rw [ih]; rfl
    rw [multi, this]
    dsimp only
    rw [verdict, if_pos (by simp)]
  · intro h
    cases ps with
    | nil => exact absurd rfl hne
    | cons p ps =>
      rcases file with _ | _ | v
      · exact ⟨.noFile, rfl⟩
      · exact ⟨.notNumber, rfl⟩
      · exact absurd rfl (h v)

/-- One point: the value is what its task has written. -/
theorem C93_single (j : Job) (v : Int) (s : Status) (h : single j = .ok (v, s)) :
    j.Wrote v ∧ (s = WORKER_DONE ↔ j.Code 0) := by
  cases j with
  | never => cases h
  | ran c l =>
    cases l with
    | none => cases h
    | some l =>
      simp only [single, runTask, readNum] at h
      cases h
      refine ⟨⟨c, rfl⟩, ?_⟩
      by_cases hc : c = 0
      · subst hc; exact ⟨fun _ => ⟨_, rfl⟩, fun _ => rfl⟩
      · rw [if_neg hc]
        refine ⟨fun e => ?_, fun e => ?_⟩
        · rw [if_neg (by decide)] at e; cases e
        · obtain ⟨m, e⟩ := e; cases e; exact absurd rfl hc

/-- A failed task is never reported as TASK_FAILED by the functions for one point: the status is a string that is no status of libEnsemble. -/
theorem C93_single_status (j : Job) (v : Int) (s : Status) (h : single j = .ok (v, s)) (hc : ¬ j.Code 0) : s = .str "FAILED" ∧ s ≠ TASK_FAILED := by
  have hs := (C93_single j v s h).2
  cases j with
  | never => cases h
  | ran c l =>
    cases l with
    | none => cases h
    | some l =>
      simp only [single, runTask, readNum] at h
      have h0 : c ≠ 0 := fun e => hc ⟨_, by rw [e]⟩
      rw [if_neg h0, if_neg (by decide)] at h
      cases h
      exact ⟨rfl, by decide⟩

example : single (.ran 0 (some 5)) = .ok (5, WORKER_DONE) := rfl
example : single (.ran 1 (some 5)) = .ok (5, .str "FAILED") := rfl

/-- `gpu_variable_resources_subenv` returns what was in `out.txt` before, whatever its own task writes. -/
theorem C93_subenv (file : File) (j : Job) :
    (∀ v s, subenv file j = .ok (v, s) → file = some (some v)) ∧ (∀ c l l', subenv file (.ran c l) = subenv file (.ran c l')) := by
  refine ⟨?_, fun _ _ _ => rfl⟩
  intro v s h
  cases j with
  | never => cases h
  | ran c l =>
    rcases file with _ | _ | w
    · cases h
    · cases h
    · cases h; rfl

theorem C93_subenv_witness : subenv (some (some 9)) (.ran 0 (some 5)) = .ok (9, WORKER_DONE) ∧ subenv none (.ran 0 (some 5)) = .error .noFile := ⟨rfl, rfl⟩

/-! ### Replaying a run -/

open Verif.History

/-- Both values fit in the same column. -/
def SameShape (a b : Val) : Prop := ∃ s : Shape, a.hasShape s = true ∧ b.hasShape s = true

theorem stored_same {a b : Val} (h : SameShape a b) : stored a b = b := by
  obtain ⟨s, h1, h2⟩ := h
  cases s with
  | scalar =>
    cases a with
    | v _ => cases h1
    | s _ => rfl
  | vec n =>
    cases a with
    | s _ => cases h1
    | v xs =>
      cases b with
      | s _ => cases h2
      | v ys =>
        simp only [Val.hasShape, beq_iff_eq] at h1 h2
        simp only [stored]
        congr 1
        apply List.ext_getElem
        · simp [h1, h2]
        · intro k k1 k2
          simp [k2]

theorem mock_eq {cols : List (Field × Shape)} {file : Rec} {inds : List Nat} {d : Rec} (h : mockSim cols file inds = some d) :
    ∃ i is src, inds = i :: is ∧ file.rows[i]? = some src ∧ (∀ c ∈ cols, c.1 ∈ file.fields) ∧ d = { cols := cols, rows := [fun f => if f ∈ cols.map (·.1) then src f else .s 0] } := by
  cases inds with
  | nil => cases h
  | cons i is =>
    rw [mockSim] at h
    split at h
    · cases h
    · rename_i src hs
      split at h
      · rename_i ha
        cases h
        refine ⟨i, is, src, rfl, hs, ?_, rfl⟩
        intro c hc
        have := List.all_eq_true.1 ha c hc
        exact of_decide_eq_true this
      · cases h

/-- C93: for an order of one row, the history has afterwards in this row what the file has in it, for all fields in `sim_specs["out"]`. -/
theorem C93_mock (cols : List (Field × Shape)) (file d : Rec) (h h' : Hist) (i : Nat) (t : Int) (kill : Bool)
    (hm : mockSim cols file [i] = some d) (hnd : (cols.map (·.1)).Nodup)
    (hok : apply h (.simReturn [i] (some d) t kill) = (h', none)) (f : Field) (hf : f ∈ cols.map (·.1)) (hh : f ∈ h.fields)
    (h1 : f ≠ .simEnded) (h2 : f ≠ .simEndedTime)
    (hs : ∀ old src, cell h.rows i f = some old → file.rows[i]? = some src → SameShape old (src f)) :
    ∃ src, file.rows[i]? = some src ∧ cell h'.rows i f = some (src f) := by
  obtain ⟨j, is, src, e, hsrc, _, rfl⟩ := mock_eq hm
  cases e
  obtain ⟨_, H, _⟩ := C07_exact_rows h h' [i] { cols := cols, rows := [fun f => if f ∈ cols.map (·.1) then src f else .s 0] } t kill (by simp) hnd hok
  obtain ⟨_, _, _, H, _⟩ := H 0 i rfl
  obtain ⟨s', old, e1, e2, e3⟩ := H f hf hh h1 h2
  simp only [List.getElem?_cons_zero, Option.some.injEq] at e1
  have e4 : s' f = src f := by rw [← e1]; exact if_pos hf
  refine ⟨src, hsrc, ?_⟩
  rw [e3, e4, stored_same (hs old src e2 hsrc)]

/-- An order of several rows is answered with the values of its first row only, and the manager cannot store the answer. -/
theorem C93_mock_batch (cols : List (Field × Shape)) (file d : Rec) (h : Hist) (i j : Nat) (is : List Nat) (t : Int) (kill : Bool)
    (hm : mockSim cols file (i :: j :: is) = some d) (hne : cols ≠ []) :
    d.rows.length = 1 ∧ (apply h (.simReturn (i :: j :: is) (some d) t kill)).2 ≠ none := by
  obtain ⟨_, _, src, e, hsrc, _, rfl⟩ := mock_eq hm
  refine ⟨rfl, ?_⟩
  have key : ∀ (d : Rec) (g : Hist), d.rows.length = 1 → d.fields ≠ [] → (simRows t (some d) 0 (i :: j :: is) g).2 ≠ none := by
    intro d g hl hf
    rw [simRows]
    split
    · simp
    · split
      · simp
      · rw [simRows]
        split
        · simp
        · rename_i r1 _
          have : ∀ sf r, simRowWrite sf (some d) 1 r = (r, some .indexError) := by
            intro sf r
            simp only [simRowWrite]
            rw [if_neg (by simpa using hf), List.getElem?_eq_none (by omega)]
          rw [this]
          simp
  intro hn
  simp only [apply] at hn
  rw [updateF] at hn
  split at hn
  · cases hn
  · rename_i g hg
    refine key _ (preSim h _) rfl ?_ (by rw [hg])
    simpa [Rec.fields] using hne

def exCols : List (Field × Shape) := [(.user 1, .scalar), (.user 2, .vec 2)]

/-- A file of two rows. -/
def exFile : Rec := { cols := exCols, rows := [fun f => if f = .user 1 then .s 5 else .v [1, 2], fun f => if f = .user 1 then .s 6 else .v [3, 4]] }

def exHist : Hist := init (libEFields.map (·, Shape.scalar) ++ exCols) 2 ⟨[], []⟩ true

/-- Row 1 is replayed; a row beyond the file and an order without rows raise an exception. -/
example : (mockSim exCols exFile [1]).map (fun d => ((apply exHist (.simReturn [1] (some d) 3 false)).1.rows.map (fun r => (r (.user 1), r (.user 2))), (apply exHist (.simReturn [1] (some d) 3 false)).2)) =
    some ([(.s 0, .v [0, 0]), (.s 6, .v [3, 4])], none) ∧ mockSim exCols exFile [2] = none ∧ mockSim exCols exFile [] = none := by
  refine ⟨?_, rfl, rfl⟩
  decide

/-- Both rows in one order: the manager raises an exception. -/
theorem C93_mock_witness : (mockSim exCols exFile [0, 1]).map (fun d => (apply exHist (.simReturn [0, 1] (some d) 3 false)).2) = some (some .indexError) := by
  decide

end Verif.Batch
