import Verif.History.StampInv
/-!
Property theorems C01–C08 about the history of an ensemble (`libensemble/history.py`).

`run (init cols L H0 safe) ops` is the history after an arbitrary list of operations; `trimH` is the
array handed to the user.  `cell rows i f` is the value of field `f` in row `i`.
Each theorem is followed by examples showing that its hypotheses are met by a concrete run, and by
witnesses where the code violates the unguarded statement.
-/
namespace Verif.History

/-! ### A concrete run used in the examples -/

/-- Columns of a small ensemble: the bookkeeping columns, a scalar output and a vector of width 2. -/
def demoCols : List (Field × Shape) :=
  libEFields.map (fun f => (f, Shape.scalar)) ++ [(.user 0, .scalar), (.user 1, .vec 2)]

def mkRow (l : List (Field × Val)) : Row := fun f =>
  match l.find? (fun p => p.1 = f) with | some p => p.2 | none => .s 0

def noH0 : Rec := ⟨[], []⟩

/-- A generator return of points `x = (a, a+1)`. -/
def demoPoints (as : List Int) : Rec :=
  ⟨[(.user 1, .vec 2)], as.map (fun a => mkRow [(.user 1, .v [a, a + 1])])⟩

/-- A simulation return `f = y` per row. -/
def demoVals (ys : List Int) : Rec := ⟨[(.user 0, .scalar)], ys.map (fun y => mkRow [(.user 0, .s y)])⟩

/-- Three points in a history with room for one, one evaluated and given back. -/
def demoOps : List Op :=
  [.genReturn 1 (demoPoints [10, 20, 30]) 5 6, .giveSim [1] 2 7 true,
   .simReturn [1] (some (demoVals [99])) 8 true, .giveGen [0, 1] 9, .genReturn 3 (demoPoints [40]) 10 11]

theorem demoCols_lib : HasLibCols demoCols := by
  intro f hf; simp [libEFields] at hf
  rcases hf with h | h | h | h | h | h | h | h | h | h | h | h | h <;> subst h <;> decide

theorem demoCols_scalar : LibScalar demoCols := by
  unfold LibScalar demoCols; decide

/-- Boolean form of `IdSafe`, for examples. -/
def idSafeB : Op → Bool
  | .simReturn _ (some d) _ _ => !d.fields.contains .simId
  | .genReturn _ d _ _ => decide d.fields.Nodup &&
      (!d.fields.contains .simId || d.rows.all (fun r => match r .simId with | .s x => decide (0 ≤ x) | _ => false))
  | _ => true

theorem idSafe_of_b {op : Op} (h : idSafeB op = true) : IdSafe op := by
  cases op with
  | simReturn i d t k =>
    cases d with
    | none => trivial
    | some d => show Field.simId ∉ d.fields; simpa [idSafeB] using h
  | genReturn w d ts t =>
    simp only [idSafeB, Bool.and_eq_true, decide_eq_true_eq, Bool.or_eq_true, Bool.not_eq_true',
      List.all_eq_true] at h
    refine ⟨h.1, ?_⟩
    intro hin r hr
    rcases h.2 with h2 | h2
    · simp [hin] at h2
    · have := h2 r hr
      split at this
      · rename_i x hx; simp at this; exact ⟨x.toNat, by rw [hx]; congr 1; omega⟩
      · simp at this
  | _ => trivial

theorem demo_safe : ∀ op ∈ demoOps, IdSafe op := fun op h =>
  idSafe_of_b (List.all_eq_true.1 (show demoOps.all idSafeB = true by decide) op h)

/-! ### C01 -/

/-- Specification: the rows are numbered 0, 1, 2, … by their `sim_id`. -/
def NumberedFromZero (rows : List Row) : Prop :=
  ∀ (i : Nat) (r : Row), rows[i]? = some r → r .simId = .s i

/-- Row i of the visible history has `sim_id` i after every sequence of operations (also when the last
one raised), provided simulation functions do not return a `sim_id` column and generators return
non-negative ones (or none).  Missing from the full statement: without these two guards it is false,
see `C01_negative_id_witness`, `C01_sim_id_from_sim_witness`, `C01_sim_max_zero_witness`. -/
theorem C01_row_ids_partial (cols : List (Field × Shape)) (L : Nat) (H0 : Rec) (safe : Bool) (ops : List Op)
    (hc : HasLibCols cols) (hL : 0 < L ∨ H0.rows = [])
    (hH0 : .simId ∈ H0.fields → NumberedFromZero H0.rows) (hops : ∀ op ∈ ops, IdSafe op) :
    NumberedFromZero (trimH (run (init cols L H0 safe) ops).1) := by
  have H := (run_id (idInv_init cols L H0 safe hc hL (fun h i r hr => hH0 h i r hr)) ops hops).1
  intro i r hr
  unfold trimH at hr
  rw [List.getElem?_take] at hr
  split at hr
  · rename_i hi
    have := H.vis i hi
    unfold cell at this
    rw [hr] at this
    simpa using this
  · cases hr

/-- Consequence: ids are unique and no visible row has id -1. -/
theorem C01_ids_unique_partial (cols : List (Field × Shape)) (L : Nat) (H0 : Rec) (safe : Bool) (ops : List Op)
    (hc : HasLibCols cols) (hL : 0 < L ∨ H0.rows = [])
    (hH0 : .simId ∈ H0.fields → NumberedFromZero H0.rows) (hops : ∀ op ∈ ops, IdSafe op) :
    ((trimH (run (init cols L H0 safe) ops).1).map (· .simId)).Nodup ∧
    ∀ r ∈ trimH (run (init cols L H0 safe) ops).1, r .simId ≠ .s (-1) := by
  have H := C01_row_ids_partial cols L H0 safe ops hc hL hH0 hops
  generalize trimH (run (init cols L H0 safe) ops).1 = rows at H
  constructor
  · rw [List.nodup_iff_pairwise_ne, List.pairwise_iff_getElem]
    intro i j hi hj hij
    simp only [List.length_map] at hi hj
    simp only [List.getElem_map]
    rw [H i _ (List.getElem?_eq_getElem hi), H j _ (List.getElem?_eq_getElem hj)]
    intro e; injection e with e; omega
  · intro r hr
    obtain ⟨i, hi⟩ := List.mem_iff_getElem?.1 hr
    rw [H i r hi]
    intro e; injection e with e; omega

example : (trimH (run (init demoCols 1 noH0 true) demoOps).1).map (·.sid) = [0, 1, 2, 3] := by decide
example : HasLibCols demoCols ∧ (0 < 1 ∨ noH0.rows = []) ∧ (∀ op ∈ demoOps, IdSafe op) :=
  ⟨demoCols_lib, Or.inl (by decide), demo_safe⟩

/-- Violation: a generator that returns `sim_id = -1` while the array is full is accepted, and the
history then shows a row numbered -1. -/
theorem C01_negative_id_witness :
    let ops : List Op := [.genReturn 1 (demoPoints [10]) 5 6,
      .genReturn 1 ⟨[(.simId, .scalar)], [mkRow [(.simId, .s (-1))]]⟩ 7 8]
    (run (init demoCols 1 noH0 true) ops).2 = none ∧
    (trimH (run (init demoCols 1 noH0 true) ops).1).map (·.sid) = [0, -1] := by decide

/-- Violation: `sim_id` is not protected by safe mode, so a simulation that returns a `sim_id` column
renumbers its row. -/
theorem C01_sim_id_from_sim_witness :
    let ops : List Op := [.genReturn 1 (demoPoints [10, 20]) 5 6, .giveSim [0] 2 7 false,
      .simReturn [0] (some ⟨[(.simId, .scalar)], [mkRow [(.simId, .s 7)]]⟩) 8 false]
    (run (init demoCols 5 noH0 true) ops).2 = none ∧
    (trimH (run (init demoCols 5 noH0 true) ops).1).map (·.sid) = [7, 1] := by decide

/-- Violation: with `sim_max = 0` the slice `[-L:]` in the initialiser is the whole array, so the ids of a
prepended history are overwritten with -1. -/
theorem C01_sim_max_zero_witness :
    (trimH (init demoCols 0 ⟨[(.simId, .scalar)], [mkRow [(.simId, .s 0)], mkRow [(.simId, .s 1)]]⟩ true)).map
      (·.sid) = [-1, -1] := by decide

/-! ### C02 -/

/-- An accepted generator return without `sim_id` appends exactly the returned points, in order, to the
visible rows and leaves every earlier row as it was — on every reachable history. -/
theorem C02_append (cols : List (Field × Shape)) (L : Nat) (H0 : Rec) (safe : Bool) (pre : List Op)
    (hc : HasLibCols cols) (hL : 0 < L ∨ H0.rows = [])
    (hH0 : .simId ∈ H0.fields → NumberedFromZero H0.rows) (hpre : ∀ op ∈ pre, IdSafe op)
    (w : Nat) (d : Rec) (ts t : Int) (hno : Field.simId ∉ d.fields) (hnd : d.fields.Nodup)
    (h h' : Hist) (hh : (run (init cols L H0 safe) pre).1 = h)
    (hok : apply h (.genReturn w d ts t) = (h', none)) :
    (trimH h').length = (trimH h).length + d.rows.length ∧
    (∀ i < (trimH h).length, ∀ f ∈ h.fields, cell (trimH h') i f = cell (trimH h) i f) ∧
    (∀ (j : Nat) (src : Row), d.rows[j]? = some src → ∀ f ∈ d.fields, f ∉ protectedFields →
      cell (trimH h') ((trimH h).length + j) f = some (src f)) := by
  have HV := (run_id (idInv_init cols L H0 safe hc hL (fun h i r hr => hH0 h i r hr)) pre hpre).1
  rw [hh] at HV
  have hlen : (trimH h).length = h.index := by
    have := HV.room; unfold trimH; rw [List.length_take]; omega
  have hcell : ∀ (g : Hist) (i : Nat) (f : Field), i < g.index → cell (trimH g) i f = cell g.rows i f := by
    intro g i f hi; unfold cell trimH; rw [List.getElem?_take, if_pos hi]
  simp only [apply] at hok
  by_cases hne : d.rows = []
  · have : updateXIn h w d ts t = (h, none) := by unfold updateXIn; simp [hne]
    rw [this] at hok
    cases hok
    refine ⟨by simp [hne], fun i _ f _ => rfl, ?_⟩
    intro j src hj; simp [hne] at hj
  · have A := updateXIn_append h w d ts t HV.room hne hno hnd (by rw [hok])
    rw [hok] at A
    simp only at A
    obtain ⟨a1, a2, a3, a4⟩ := A
    have hlen' : (trimH h').length = h'.index := by
      unfold trimH; rw [List.length_take]; omega
    refine ⟨by rw [hlen', hlen, a1], ?_, ?_⟩
    · intro i hi f hf
      rw [hlen] at hi
      rw [hcell h' i f (by omega), hcell h i f hi]
      exact a3 i hi f hf
    · intro j src hj f hf hp
      have hjl : j < d.rows.length := by
        rcases Nat.lt_or_ge j d.rows.length with h1 | h1
        · exact h1
        · rw [List.getElem?_eq_none h1] at hj; cases hj
      rw [hlen, hcell h' _ f (by omega)]
      apply a4 j src hj f hf <;> intro e <;> subst e <;> simp [protectedFields] at hp

/-- The appended values stay in the visible history for the rest of the run, unless a later user function
itself returns that field. -/
theorem C02_kept (cols : List (Field × Shape)) (L : Nat) (H0 : Rec) (safe : Bool) (pre post : List Op)
    (hc : HasLibCols cols) (hL : 0 < L ∨ H0.rows = [])
    (hH0 : .simId ∈ H0.fields → NumberedFromZero H0.rows) (hpre : ∀ op ∈ pre, IdSafe op)
    (w : Nat) (d : Rec) (ts t : Int) (hno : Field.simId ∉ d.fields) (hnd : d.fields.Nodup)
    (hpreok : (run (init cols L H0 safe) pre).2 = none)
    (hok : (run (init cols L H0 safe) (pre ++ [.genReturn w d ts t])).2 = none)
    (f : Field) (hf : f ∈ d.fields) (hp : f ∉ protectedFields) (hpost : ∀ op ∈ post, f ∉ op.writes)
    (j : Nat) (src : Row) (hj : d.rows[j]? = some src) :
    cell (trimH (run (init cols L H0 safe) (pre ++ .genReturn w d ts t :: post)).1)
      ((run (init cols L H0 safe) pre).1.index + j) f = some (src f) := by
  generalize hh : run (init cols L H0 safe) pre = o at *
  obtain ⟨h, e⟩ := o
  simp only at hpreok
  subst hpreok
  have hok' : apply h (.genReturn w d ts t) = ((apply h (.genReturn w d ts t)).1, none) := by
    rw [run_append, hh] at hok
    simp only [run] at hok
    split at hok
    · simp at hok
    · rename_i heq; rw [heq]
  obtain ⟨b1, _, b3⟩ := C02_append cols L H0 safe pre hc hL hH0 hpre w d ts t hno hnd h _ (by rw [hh]) hok'
  have HV := (run_id (idInv_init cols L H0 safe hc hL (fun h i r hr => hH0 h i r hr)) pre hpre).1
  rw [hh] at HV
  have hlen : (trimH h).length = h.index := by
    have := HV.room; simp only at this; unfold trimH; rw [List.length_take]; omega
  have hc1 := b3 j src hj f hf hp
  rw [hlen] at hc1 b1
  rw [run_append, hh]
  simp only [run]
  rw [hok']
  simp only
  generalize hg : (apply h (.genReturn w d ts t)).1 = h1 at *
  have hjl : j < d.rows.length := by
    rcases Nat.lt_or_ge j d.rows.length with h1 | h1
    · exact h1
    · rw [List.getElem?_eq_none h1] at hj; cases hj
  have hi1 : h.index + j < h1.index ∧ h.index + j < h1.rows.length := by
    have : (trimH h1).length = min h1.index h1.rows.length := by unfold trimH; rw [List.length_take]
    omega
  have hst := run_struct h1 post
  have hfl : f ∈ h1.fields := by
    have hdne : d.rows.isEmpty = false := by
      cases hd : d.rows with
      | nil => rw [hd] at hjl; simp at hjl
      | cons _ _ => rfl
    rw [← hg]
    simp only [apply]
    rcases updateXIn_cases h w d ts t hdne with ⟨_, h3, hh3, heq⟩ | ⟨hin, _⟩ | ⟨hin, _⟩ | ⟨hin, _⟩
    · rw [heq, genFinish_fields, hh3]
      have := extend_has h d.cols f hf
      rw [← fields_ensureRoom _ d.rows.length] at this
      exact this
    all_goals exact absurd hin hno
  have hfr := run_frame h1 post f hpost hfl (h.index + j) hi1.2
  have e1 : cell (trimH h1) (h.index + j) f = cell h1.rows (h.index + j) f := by
    unfold cell trimH; rw [List.getElem?_take, if_pos hi1.1]
  have e2 : cell (trimH (run h1 post).1) (h.index + j) f = cell (run h1 post).1.rows (h.index + j) f := by
    unfold cell trimH; rw [List.getElem?_take, if_pos (by omega)]
  rw [e2, hfr, ← e1, hc1]

/-- Returns are accepted: if every field has a fixed dtype shape throughout the run and (in safe mode) no
protected field is returned, a generator return without `sim_id` never fails. -/
theorem C02_accepted (T : Typing) (cols : List (Field × Shape)) (L : Nat) (H0 : Rec) (safe : Bool) (pre : List Op)
    (hc : HasLibCols cols) (hL : 0 < L ∨ H0.rows = [])
    (hH0 : .simId ∈ H0.fields → NumberedFromZero H0.rows) (hpre : ∀ op ∈ pre, IdSafe op)
    (hTops : ∀ op ∈ pre, T.op op)
    (hTH : ShapeInv T (init cols L H0 safe))
    (w : Nat) (d : Rec) (ts t : Int) (hno : Field.simId ∉ d.fields) (hnd : d.fields.Nodup) (hTd : T.typedRec d)
    (hprot : safe = true → ∀ f ∈ d.fields, f ∉ protectedFields)
    (hpreok : (run (init cols L H0 safe) pre).2 = none) :
    (run (init cols L H0 safe) (pre ++ [.genReturn w d ts t])).2 = none := by
  have HI := (run_id (idInv_init cols L H0 safe hc hL (fun h i r hr => hH0 h i r hr)) pre hpre).2 hpreok
  have HS := run_shape hTH pre hTops
  have hs := (run_struct (init cols L H0 safe) pre).1
  generalize hh : run (init cols L H0 safe) pre = o at *
  obtain ⟨h, e⟩ := o
  simp only at hpreok
  subst hpreok
  simp only at HI HS hs
  rw [init_safe] at hs
  have := genReturn_accept HS HI w d ts t hTd ⟨hnd, fun hin => absurd hin hno⟩ (by rw [hs]; exact hprot)
  rcases this with h1 | h1
  · rw [run_append, hh]
    simp only [run, apply]
    split
    · rename_i heq; rw [heq] at h1; simp at h1
    · rfl
  · exact absurd h1.2 hno

/-- The example ensemble satisfies the typing hypotheses. -/
def demoTyping : Typing :=
  ⟨fun f => if f = .user 1 then .vec 2 else .scalar, by
    intro f hf
    split
    · rename_i e; subst e; simp [libEFields] at hf
    · rfl⟩

theorem demo_shape : ShapeInv demoTyping (init demoCols 1 noH0 true) := by
  have hcols : demoTyping.cols demoCols := by unfold Typing.cols demoCols demoTyping; decide
  refine ⟨hcols, ?_⟩
  intro i f x hf hx
  have hi := cell_lt hx
  rw [init_length] at hi
  unfold cell at hx
  rw [init_get_fresh _ _ _ _ _ (by simp [noH0]) hi] at hx
  simp only [Option.map_some, Option.some.injEq] at hx
  rw [← hx]
  exact freshRow_shape demoTyping demoCols hcols f hf

example : demoTyping.typedRec (demoPoints [40, 41]) := by
  refine ⟨by unfold Typing.cols demoPoints demoTyping; decide, ?_⟩
  intro r hr f hf
  simp [demoPoints, Rec.fields] at hr hf
  subst hf
  rcases hr with rfl | rfl <;> decide
example : (run (init demoCols 1 noH0 true) (demoOps ++ [.genReturn 3 (demoPoints [50]) 10 11])).2 = none := by decide
example : (trimH (run (init demoCols 1 noH0 true) demoOps).1).map (· (.user 1)) =
    [.v [10, 11], .v [20, 21], .v [30, 31], .v [40, 41]] := by decide

/-! ### C03 -/

/-- The number of visible rows never exceeds the allocation (so the returned array is never short), and
recording a generator return never indexes outside the allocated rows. -/
theorem C03_capacity_partial (cols : List (Field × Shape)) (L : Nat) (H0 : Rec) (safe : Bool) (ops : List Op)
    (hc : HasLibCols cols) (hL : 0 < L ∨ H0.rows = [])
    (hH0 : .simId ∈ H0.fields → NumberedFromZero H0.rows) (hops : ∀ op ∈ ops, IdSafe op) :
    (run (init cols L H0 safe) ops).1.index ≤ (run (init cols L H0 safe) ops).1.rows.length ∧
    (trimH (run (init cols L H0 safe) ops).1).length = (run (init cols L H0 safe) ops).1.index ∧
    ((run (init cols L H0 safe) ops).2 = none → ∀ w d ts t, IdSafe (.genReturn w d ts t) →
      (apply (run (init cols L H0 safe) ops).1 (.genReturn w d ts t)).2 ≠ some .indexError) := by
  have H := run_id (idInv_init cols L H0 safe hc hL (fun h i r hr => hH0 h i r hr)) ops hops
  refine ⟨H.1.room, ?_, ?_⟩
  · have := H.1.room; unfold trimH; rw [List.length_take]; omega
  · intro hok w d ts t hs
    exact (apply_genReturn_id (H.2 hok) w d ts t hs).2.2

/-- Every visible row that was not prepended was produced by a generator return of this run: rows that were
only preallocated are never shown.  (Safe mode, clock readings non-zero.) -/
theorem C03_visible_rows_generated (cols : List (Field × Shape)) (L : Nat) (H0 : Rec) (ops : List Op)
    (hc : HasLibCols cols) (hsc : LibScalar cols) (hs0 : LibScalar H0.cols) (hL : 0 < L ∨ H0.rows = [])
    (hH0 : .simId ∈ H0.fields → NumberedFromZero H0.rows) (hops : ∀ op ∈ ops, IdSafe op)
    (ht : ∀ op ∈ ops, ∀ w d ts t, op = .genReturn w d ts t → t ≠ 0) (i : Nat) (h1 : H0.rows.length ≤ i)
    (h2 : i < (trimH (run (init cols L H0 true) ops).1).length) :
    ∃ (pre : List Op) (w : Nat) (d : Rec) (ts t : Int) (post : List Op),
      ops = pre ++ .genReturn w d ts t :: post ∧
      (run (init cols L H0 true) pre).1.index ≤ i ∧
      (run (init cols L H0 true) (pre ++ [.genReturn w d ts t])).2 = none ∧
      i < (run (init cols L H0 true) (pre ++ [.genReturn w d ts t])).1.index := by
  have hU : HiddenUnstamped (init cols L H0 true) := by
    intro i h1 h2
    rw [init_length] at h2
    unfold cell
    rw [init_get_fresh _ _ _ _ _ h1 h2]
    simp only [Option.map_some]
    rw [freshRow_lib _ (init_lib cols L H0 true hc hsc hs0).scalar _ (by simp [libEFields]) (by simp) (by simp) (by simp)]
  have h2' : i < (run (init cols L H0 true) ops).1.index := by
    unfold trimH at h2; rw [List.length_take] at h2; omega
  obtain ⟨pre, w, d, ts, t, post, a, b, c, e, _⟩ :=
    run_stamps (idInv_init cols L H0 true hc hL (fun h i r hr => hH0 h i r hr))
      (init_lib cols L H0 true hc hsc hs0) rfl hU ops hops ht i h1 h2'
  exact ⟨pre, w, d, ts, t, post, a, b, c, e⟩

example : (run (init demoCols 1 noH0 true) demoOps).1.rows.length = 7 := by decide
example : (run (init demoCols 7 noH0 true) demoOps).1.rows.length = 7 ∧
    (trimH (run (init demoCols 7 noH0 true) demoOps).1).length = 4 := by decide

/-! ### C04 -/

/-- A simulation return with a protected field raises, and no cell of a protected field changes. -/
theorem C04_sim_rejected (h : Hist) (hsafe : h.safeMode = true) (inds : List Nat) (hne : inds ≠ []) (d : Rec)
    (t : Int) (kill : Bool) (f : Field) (hf : f ∈ d.fields) (hp : f ∈ protectedFields) :
    (apply h (.simReturn inds (some d) t kill)).2 ≠ none ∧
    ∀ g ∈ protectedFields, g ∈ h.fields → ∀ i,
      cell (apply h (.simReturn inds (some d) t kill)).1.rows i g = cell h.rows i g := by
  obtain ⟨e, le, heq, he1, he2⟩ := updateF_shape h inds (some d) t kill
  simp only [apply]
  rw [heq]
  have hsafe' : (preSim h (some d)).safeMode = true := by rw [safe_preSim]; exact hsafe
  have hcs := fun g (hg : g ∈ h.fields) i => cell_preSim (some d) hg i
  generalize preSim h (some d) = h1 at *
  have wf : ∀ (fs : List Field) (src r : Row), f ∈ fs → (writeFields true src fs r).2 ≠ none := by
    intro fs
    induction fs with
    | nil => intro _ _ h; simp at h
    | cons a as ih =>
      intro src r hm
      unfold writeFields
      split
      · simp
      · rename_i hna
        split
        · simp
        · apply ih
          rcases List.mem_cons.1 hm with rfl | h
          · simp [hp] at hna
          · exact h
  have hdf : d.fields.isEmpty = false := by
    cases hd : d.fields with
    | nil => rw [hd] at hf; simp at hf
    | cons _ _ => rfl
  have hrow : ∀ r, (simRowWrite h1.safeMode (some d) 0 r).2 ≠ none := by
    intro r
    rw [hsafe']
    unfold simRowWrite
    simp only [hdf]
    split
    · simp_all
    · split
      · simp
      · exact wf _ _ _ hf
  cases inds with
  | nil => exact absurd rfl hne
  | cons a as =>
    have hsr : (simRows t (some d) 0 (a :: as) h1).2 ≠ none ∧ ∀ g ∈ protectedFields, ∀ i,
        cell (simRows t (some d) 0 (a :: as) h1).1.rows i g = cell h1.rows i g := by
      unfold simRows
      split
      · simp
      · rename_i r hr
        split
        · rename_i r' e' hw
          refine ⟨by simp, ?_⟩
          intro g hg i
          simp only
          rw [cell_set]
          split
          · rename_i hc; obtain ⟨rfl, _⟩ := hc
            have := simRowWrite_protected (some d) 0 r g hg
            rw [hsafe'] at hw
            rw [hw] at this
            simp only at this
            rw [this]; simp [cell, hr]
          · rfl
        · rename_i r' hw
          exact absurd (by rw [hw]) (hrow r)
    refine ⟨?_, ?_⟩
    · simp only; intro h0; exact hsr.1 (he2 h0)
    · intro g hg hgf i
      simp only
      rw [hsr.2 g hg i, hcs g hgf i]

/-- A generator return with a protected field raises, and no cell of a protected field changes. -/
theorem C04_gen_rejected (h : Hist) (hsafe : h.safeMode = true) (hlib : ∀ f ∈ libEFields, f ∈ h.fields)
    (w : Nat) (d : Rec) (ts t : Int) (hne : d.rows ≠ []) (f : Field) (hf : f ∈ d.fields) (hp : f ∈ protectedFields) :
    (apply h (.genReturn w d ts t)).2 ≠ none ∧
    ∀ g ∈ protectedFields, ∀ i < h.rows.length,
      cell (apply h (.genReturn w d ts t)).1.rows i g = cell h.rows i g := by
  have herr : (apply h (.genReturn w d ts t)).2 ≠ none := by
    simp only [apply]
    have gf : ∀ (h3 : Hist) inds n, h3.safeMode = true → (genFinish h3 w d ts t inds n).2 ≠ none := by
      intro h3 inds n hs3
      unfold genFinish
      rw [hs3]
      split
      · simp
      · rename_i heq
        obtain ⟨c, hc, e⟩ := List.mem_map.1 hf
        exact absurd (e ▸ hp) (genColumns_ok_unprotected _ _ _ _ heq c hc)
    rcases updateXIn_cases h w d ts t (by simpa using hne) with ⟨_, h3, hh3, heq⟩ | ⟨_, heq⟩ | ⟨_, n, heq⟩ | ⟨_, n, inds, _, heq⟩
    · rw [heq]; apply gf; rw [hh3]; simpa using hsafe
    · rw [heq]; simp
    · rw [heq]; simp
    · rw [heq]; apply gf; simpa using hsafe
  refine ⟨herr, ?_⟩
  intro g hg i hi
  rcases apply_protected h hsafe (.genReturn w d ts t) g hg hlib i hi with h1 | h1
  · exact h1
  · exact absurd h1.1 herr

/-- On every reachable history in safe mode a protected cell changes only in the way the manager itself
changes it: started/worker when handed out, ended when returned, informed when given back and ended,
the generator stamp once on an unstamped row, the kill flag by the manager (`ProtectedChange`). -/
theorem C04_bookkeeping (cols : List (Field × Shape)) (L : Nat) (H0 : Rec) (ops : List Op)
    (hc : HasLibCols cols) (op : Op) (g : Field) (hg : g ∈ protectedFields) (i : Nat)
    (hi : i < (run (init cols L H0 true) ops).1.rows.length) :
    cell (apply (run (init cols L H0 true) ops).1 op).1.rows i g = cell (run (init cols L H0 true) ops).1.rows i g ∨
    ProtectedChange (run (init cols L H0 true) ops).1 (apply (run (init cols L H0 true) ops).1 op).1
      (apply (run (init cols L H0 true) ops).1 op).2 g i op := by
  have hst := run_struct (init cols L H0 true) ops
  apply apply_protected
  · exact hst.1
  · exact hg
  · intro f hf; exact hst.2.2.2 f (init_cols_lib cols L H0 true hc f hf)
  · exact hi

example : (apply (init demoCols 3 noH0 true) (.genReturn 1 ⟨[(.simEnded, .scalar)], [mkRow []]⟩ 1 2)).2 =
    some (.protectedField .simEnded) := by decide
/-- Without safe mode the same return is accepted. -/
example : (apply (init demoCols 3 noH0 false) (.genReturn 1 ⟨[(.simEnded, .scalar)], [mkRow []]⟩ 1 2)).2 =
    none := by decide

/-! ### C05 -/

/-- In safe mode every informed row has ended, after every sequence of operations. -/
theorem C05_informed_ended (cols : List (Field × Shape)) (L : Nat) (H0 : Rec) (ops : List Op)
    (hc : HasLibCols cols) (hsc : LibScalar cols) (hs0 : LibScalar H0.cols)
    (h0 : ∀ r ∈ (init cols L H0 true).rows, r.flag .genInformed = true → r.flag .simEnded = true) :
    ∀ r ∈ (run (init cols L H0 true) ops).1.rows, r.flag .genInformed = true → r.flag .simEnded = true := by
  have conv : ∀ h : Hist, InformedEnded h ↔
      ∀ r ∈ h.rows, r.flag .genInformed = true → r.flag .simEnded = true := by
    intro h
    unfold InformedEnded Row.flag cell
    constructor
    · intro H r hr hf
      obtain ⟨i, hi⟩ := List.mem_iff_getElem?.1 hr
      have hl : i < h.rows.length := by
        rcases Nat.lt_or_ge i h.rows.length with h1 | h1
        · exact h1
        · rw [List.getElem?_eq_none h1] at hi; cases hi
      have := H i hl
      rw [hi] at this
      simp at this hf ⊢
      exact this hf
    · intro H i hi hf
      have := H h.rows[i] (List.getElem_mem hi)
      rw [List.getElem?_eq_getElem hi] at hf ⊢
      simp at this hf ⊢
      exact this hf
  rw [← conv] at h0 ⊢
  exact run_informed (init_lib cols L H0 true hc hsc hs0) rfl h0 ops

/-- The initial condition holds whenever no history is prepended. -/
theorem C05_initial (cols : List (Field × Shape)) (L : Nat) (hc : HasLibCols cols) (hsc : LibScalar cols) :
    ∀ r ∈ (init cols L noH0 true).rows, r.flag .genInformed = true → r.flag .simEnded = true := by
  intro r hr hf
  obtain ⟨i, hi⟩ := List.mem_iff_getElem?.1 hr
  have hl : i < (init cols L noH0 true).rows.length := by
    rcases Nat.lt_or_ge i (init cols L noH0 true).rows.length with h1 | h1
    · exact h1
    · rw [List.getElem?_eq_none h1] at hi; cases hi
  rw [init_length] at hl
  rw [init_get_fresh _ _ _ _ _ (by simp [noH0]) hl] at hi
  cases hi
  have : LibScalar (init cols L noH0 true).cols := (init_lib cols L noH0 true hc hsc (by intro c h; simp [noH0] at h)).scalar
  unfold Row.flag at hf
  rw [freshRow_lib _ this _ (by simp [libEFields]) (by simp) (by simp) (by simp)] at hf
  simp at hf

theorem h0Row_informed (cols : List (Field × Shape)) (H0 : Rec) (i : Nat) (r : Row)
    (hsc : LibScalar cols)
    (h : .genInformed ∈ H0.fields → r.flag .genInformed = true → .simStarted ∈ H0.fields →
      (.simEnded ∈ H0.fields → r.flag .simEnded = true) ∧ (.simEnded ∉ H0.fields → r.flag .simStarted = true)) :
    (h0Row cols H0 i r).flag .genInformed = true → (h0Row cols H0 i r).flag .simEnded = true := by
  have hz := zeroRow_lib cols hsc .genInformed (by simp [libEFields])
  unfold h0Row Row.flag Row.set at *
  by_cases h1 : Field.simStarted ∈ H0.fields <;> by_cases h2 : Field.simEnded ∈ H0.fields <;>
    by_cases h3 : Field.simId ∈ H0.fields <;> by_cases h4 : Field.genInformed ∈ H0.fields <;>
    simp_all

theorem freshen_flag (cols : List (Field × Shape)) (r : Row) (f : Field) (hf : f = .genInformed ∨ f = .simEnded) :
    (freshen cols r).flag f = r.flag f := by
  unfold freshen Row.flag Row.set
  rcases hf with rfl | rfl <;> (by_cases h1 : Field.uid ∈ cols.map (·.1) <;> by_cases h2 : Field.resourceSets ∈ cols.map (·.1) <;> simp [h1, h2])

/-- The initial condition holds for every prepended history whose own rows meet it; columns that are missing are filled in so
that it holds (in particular it holds for every history without `gen_informed` and for every one without `sim_started`). -/
theorem C05_prepended (cols : List (Field × Shape)) (L : Nat) (H0 : Rec) (hc : HasLibCols cols) (hsc : LibScalar cols)
    (hs0 : LibScalar H0.cols)
    (h : .genInformed ∈ H0.fields → .simStarted ∈ H0.fields → ∀ r ∈ H0.rows, r.flag .genInformed = true →
      (.simEnded ∈ H0.fields → r.flag .simEnded = true) ∧ (.simEnded ∉ H0.fields → r.flag .simStarted = true)) :
    ∀ r ∈ (init cols L H0 true).rows, r.flag .genInformed = true → r.flag .simEnded = true := by
  have hsi : LibScalar (init cols L H0 true).cols := (init_lib cols L H0 true hc hsc hs0).scalar
  intro r hr hf
  have hcase : (∃ i r0, r0 ∈ H0.rows ∧ (r = h0Row (init cols L H0 true).cols H0 i r0 ∨
      r = freshen (init cols L H0 true).cols (h0Row (init cols L H0 true).cols H0 i r0))) ∨
      r = freshRow (init cols L H0 true).cols := by
    revert hr
    unfold init
    simp only
    intro hr
    rcases List.mem_append.mp hr with hr | hr
    · left
      split at hr
      · obtain ⟨y, hy, rfl⟩ := List.mem_map.mp hr
        obtain ⟨i, hi, rfl⟩ := List.mem_mapIdx.mp hy
        exact ⟨i, _, List.getElem_mem hi, .inr rfl⟩
      · obtain ⟨i, hi, rfl⟩ := List.mem_mapIdx.mp hr
        exact ⟨i, _, List.getElem_mem hi, .inl rfl⟩
    · right
      exact List.eq_of_mem_replicate hr
  rcases hcase with ⟨i, r0, hr0, e⟩ | e
  · have key := h0Row_informed _ H0 i r0 hsi (fun a b c => h a c r0 hr0 b)
    rcases e with rfl | rfl
    · exact key hf
    · rw [freshen_flag _ _ _ (.inl rfl)] at hf
      rw [freshen_flag _ _ _ (.inr rfl)]
      exact key hf
  · subst e
    unfold Row.flag at hf
    rw [freshRow_lib _ hsi _ (by simp [libEFields]) (by simp) (by simp) (by simp)] at hf
    simp at hf

/-- A prepended history without the columns of libEnsemble (as from a file of points): both rows count as evaluated and none as
returned to a generator. -/
example : ((init demoCols 1 ⟨[(.simId, .scalar)], [fun _ => .s 0, fun f => if f = .simId then .s 1 else .s 0]⟩ true).rows.map
    (fun r => (r.flag .genInformed, r.flag .simEnded))) = [(false, true), (false, true), (false, false)] := by decide

example : (trimH (run (init demoCols 1 noH0 true) demoOps).1).map
    (fun r => (r.flag .genInformed, r.flag .simEnded)) =
    [(false, false), (true, true), (false, false), (false, false)] := by decide

/-! ### C06 -/

/-- In safe mode the generator stamp of every row generated in this run is, at the end of the run, the one
of the return that made the row visible — whatever happened afterwards. -/
theorem C06_stamp_of_first_return (cols : List (Field × Shape)) (L : Nat) (H0 : Rec) (ops : List Op)
    (hc : HasLibCols cols) (hsc : LibScalar cols) (hs0 : LibScalar H0.cols) (hL : 0 < L ∨ H0.rows = [])
    (hH0 : .simId ∈ H0.fields → NumberedFromZero H0.rows) (hops : ∀ op ∈ ops, IdSafe op)
    (ht : ∀ op ∈ ops, ∀ w d ts t, op = .genReturn w d ts t → t ≠ 0) (i : Nat) (h1 : H0.rows.length ≤ i)
    (h2 : i < (run (init cols L H0 true) ops).1.index) :
    ∃ (pre : List Op) (w : Nat) (d : Rec) (ts t : Int) (post : List Op),
      ops = pre ++ .genReturn w d ts t :: post ∧
      (run (init cols L H0 true) pre).1.index ≤ i ∧
      (run (init cols L H0 true) (pre ++ [.genReturn w d ts t])).2 = none ∧
      i < (run (init cols L H0 true) (pre ++ [.genReturn w d ts t])).1.index ∧
      cell (run (init cols L H0 true) ops).1.rows i .genWorker = some (.s w) ∧
      cell (run (init cols L H0 true) ops).1.rows i .genStartedTime = some (.s ts) ∧
      cell (run (init cols L H0 true) ops).1.rows i .genEndedTime = some (.s t) := by
  have hU : HiddenUnstamped (init cols L H0 true) := by
    intro i h1 h2
    rw [init_length] at h2
    unfold cell
    rw [init_get_fresh _ _ _ _ _ h1 h2]
    simp only [Option.map_some]
    rw [freshRow_lib _ (init_lib cols L H0 true hc hsc hs0).scalar _ (by simp [libEFields]) (by simp) (by simp) (by simp)]
  exact run_stamps (idInv_init cols L H0 true hc hL (fun h i r hr => hH0 h i r hr))
      (init_lib cols L H0 true hc hsc hs0) rfl hU ops hops ht i h1 h2

/-- Any row that carries a generator end time (also a prepended one) keeps its three stamp fields for ever. -/
theorem C06_stamp_constant (cols : List (Field × Shape)) (L : Nat) (H0 : Rec) (pre post : List Op)
    (hc : HasLibCols cols) (hsc : LibScalar cols) (hs0 : LibScalar H0.cols) (i : Nat)
    (hpre : (run (init cols L H0 true) pre).2 = none)
    (hi : i < (run (init cols L H0 true) pre).1.rows.length)
    (hst : cell (run (init cols L H0 true) pre).1.rows i .genEndedTime ≠ some (.s 0)) :
    ∀ f ∈ [Field.genWorker, .genStartedTime, .genEndedTime],
      cell (run (init cols L H0 true) (pre ++ post)).1.rows i f = cell (run (init cols L H0 true) pre).1.rows i f := by
  intro f hf
  have hl := run_lib (init_lib cols L H0 true hc hsc hs0) pre
  have hs := (run_struct (init cols L H0 true) pre).1
  rw [run_append]
  generalize hh : run (init cols L H0 true) pre = o at *
  obtain ⟨h, e⟩ := o
  simp only at hpre
  subst hpre
  exact run_stamped hl (hs.trans rfl) post i hi hst f hf

/-- A second generator updating row 0 by `sim_id` does not change who generated it. -/
example : (trimH (run (init demoCols 1 noH0 true) (demoOps ++
    [.genReturn 8 ⟨[(.simId, .scalar), (.user 1, .vec 2)], [mkRow [(.simId, .s 0), (.user 1, .v [7, 7])]]⟩ 20 21])).1).map
      (fun r => (r .genWorker, r .genStartedTime, r .genEndedTime, r (.user 1))) =
    [(.s 1, .s 5, .s 6, .v [7, 7]), (.s 1, .s 5, .s 6, .v [20, 21]), (.s 1, .s 5, .s 6, .v [30, 31]),
     (.s 3, .s 10, .s 11, .v [40, 41])] := by decide

/-! ### C07 -/

/-- Specification of storing a returned value into a cell: a scalar replaces a scalar (and fills a vector),
a vector replaces the leading entries. -/
def stored (old new : Val) : Val :=
  match old, new with
  | .v ys, .v xs => .v ((List.range ys.length).map (fun k => if k < xs.length then xs.getD k 0 else ys.getD k 0))
  | .v ys, .s x => .v (ys.map (fun _ => x))
  | .s _, new => new

theorem writeCell_stored (f : Field) (old new x : Val) (h : writeCell f old new = .ok x) : x = stored old new := by
  unfold writeCell at h
  split at h
  · cases h; rfl
  · rename_i y ys; cases h; simp only [stored]; congr 1
    exact List.map_const'.symm
  · rename_i xs ys
    split at h
    · cases h
    · split at h
      · cases h
      · cases h
        simp only [stored]
        congr 1
        apply List.ext_getElem
        · simp; omega
        · intro n h1 h2
          simp only [List.length_append, List.length_drop, List.length_map, List.length_range] at h1 h2
          rw [List.getElem_append]
          simp only [List.getElem_map, List.getElem_range]
          split
          · rename_i hn; simp [List.getD_eq_getElem?_getD, hn]
          · rename_i hn
            simp [List.getD_eq_getElem?_getD, List.getElem?_eq_getElem h2]
            congr 1; omega
  · cases h

theorem cell_preSim_new (h : Hist) (d : Rec) (f : Field) (hf : f ∈ d.fields) (hn : f ∉ h.fields) (i : Nat) (x : Val)
    (hx : cell (preSim h (some d)).rows i f = some x) : x = zeroRow d.cols f := by
  obtain ⟨c, hc, e⟩ := List.mem_map.1 hf
  have hmem : c ∈ newCols h.cols d.cols := by
    unfold newCols; rw [List.mem_filter]; refine ⟨hc, ?_⟩; rw [e]; exact decide_eq_true hn
  simp only [preSim] at hx
  unfold extendCols at hx
  split at hx
  · rename_i hemp; rw [List.isEmpty_iff] at hemp; rw [hemp] at hmem; simp at hmem
  · unfold appendNewFields cell at hx
    simp only [List.getElem?_map, Option.map_map] at hx
    cases hr : h.rows[i]? with
    | none => rw [hr] at hx; simp at hx
    | some r =>
      rw [hr] at hx
      simp only [Option.map_some, Function.comp, Option.some.injEq, hn, if_false] at hx
      rw [← hx]
      unfold zeroRow newCols
      rw [List.find?_filter]
      congr 1
      apply congrArg (fun p => List.find? p d.cols)
      funext a
      by_cases ha : a.1 = f
      · have hn' : f ∉ h.cols.map (·.1) := hn
        simp only [ha, decide_true, hn', not_false_eq_true]; try trivial
      · simp [ha]

/-- An accepted simulation return writes exactly the rows of its work order: the k-th returned record goes
to the k-th row, those rows get `sim_ended`, all other cells of known fields are unchanged, and the
number of ended points grows by the number of rows. -/
theorem C07_exact_rows (h h' : Hist) (inds : List Nat) (d : Rec) (t : Int) (kill : Bool) (hnd : inds.Nodup)
    (hdn : d.fields.Nodup) (hok : apply h (.simReturn inds (some d) t kill) = (h', none)) :
    (∀ i, i ∉ inds → ∀ f ∈ h.fields, cell h'.rows i f = cell h.rows i f) ∧
    (∀ k i : Nat, inds[k]? = some i →
      cell h'.rows i .simEnded = some (.s 1) ∧ cell h'.rows i .simEndedTime = some (.s t) ∧
      (∀ f ∈ h.fields, f ∉ d.fields → f ≠ .simEnded → f ≠ .simEndedTime → cell h'.rows i f = cell h.rows i f) ∧
      (∀ f ∈ d.fields, f ∈ h.fields → f ≠ .simEnded → f ≠ .simEndedTime →
        ∃ src old, d.rows[k]? = some src ∧ cell h.rows i f = some old ∧
          cell h'.rows i f = some (stored old (src f))) ∧
      (∀ f ∈ d.fields, f ∉ h.fields → f ≠ .simEnded → f ≠ .simEndedTime →
        ∃ src, d.rows[k]? = some src ∧ cell h'.rows i f = some (stored (zeroRow d.cols f) (src f)))) ∧
    h'.simEndedCount = h.simEndedCount + inds.length := by
  obtain ⟨e, le, heq, he1, he2⟩ := updateF_shape h inds (some d) t kill
  simp only [apply] at hok
  rw [heq] at hok
  have hrows : h'.rows = (simRows t (some d) 0 inds (preSim h (some d))).1.rows := by
    injection hok with a b; rw [← a]
  have hcnt : h'.simEndedCount = (simRows t (some d) 0 inds (preSim h (some d))).1.simEndedCount := by
    injection hok with a b; rw [← a]
  have hnone : (simRows t (some d) 0 inds (preSim h (some d))).2 = none := by
    injection hok with a b; exact he2 b
  have hc0 : (preSim h (some d)).simEndedCount = h.simEndedCount := by
    simp only [preSim]; unfold extendCols appendNewFields; split <;> rfl
  have hpc := fun f (hf : f ∈ h.fields) i => cell_preSim (some d) hf i
  have hpn := fun f (hf : f ∈ d.fields) (hn : f ∉ h.fields) i x => cell_preSim_new h d f hf hn i x
  rw [hrows]
  generalize preSim h (some d) = h1 at *
  generalize hout : simRows t (some d) 0 inds h1 = out at *
  obtain ⟨h2, e2⟩ := out
  simp only at hnone hrows hcnt ⊢
  subst hnone
  refine ⟨?_, ?_, ?_⟩
  · intro i hi f hf
    have := simRows_not_mem t (some d) 0 inds h1 i hi
    rw [hout] at this
    simp only at this
    unfold cell
    rw [this]
    exact hpc f hf i
  · intro k i hk
    obtain ⟨r, r', hr, hw, hr'⟩ := simRows_ok t (some d) inds 0 h1 h2 hout hnd k i hk
    have hcell : ∀ f, cell h2.rows i f = some (((r'.set .simEnded (.s 1)).set .simEndedTime (.s t)) f) := by
      intro f; unfold cell; rw [hr']; rfl
    have hold : ∀ f ∈ h.fields, cell h.rows i f = some (r f) := by
      intro f hf; rw [← hpc f hf i]; unfold cell; rw [hr]; rfl
    refine ⟨by rw [hcell]; simp [Row.set], by rw [hcell]; simp [Row.set], ?_, ?_, ?_⟩
    · intro f hf hfd g1 g2
      rw [hcell, hold f hf]
      simp only [Row.set, g1, g2, if_false]
      have := fun sf => simRowWrite_frame sf (some d) (0 + k) r f (by intro d' e; cases e; exact hfd)
      have := this h1.safeMode
      rw [hw] at this
      simp only at this
      rw [this]
    · intro f hfd hf g1 g2
      unfold simRowWrite at hw
      simp only at hw
      split at hw
      · rename_i hem; rw [List.isEmpty_iff] at hem; rw [hem] at hfd; simp at hfd
      · split at hw
        · simp at hw
        · rename_i src hsrc
          rw [Nat.zero_add] at hsrc
          have := (writeFields_ok _ _ _ _ _ hw hdn f hfd).1
          refine ⟨src, r f, hsrc, hold f hf, ?_⟩
          rw [hcell, ← writeCell_stored f _ _ _ this]
          simp [Row.set, g1, g2]
    · intro f hfd hf g1 g2
      unfold simRowWrite at hw
      simp only at hw
      split at hw
      · rename_i hem; rw [List.isEmpty_iff] at hem; rw [hem] at hfd; simp at hfd
      · split at hw
        · simp at hw
        · rename_i src hsrc
          rw [Nat.zero_add] at hsrc
          have := (writeFields_ok _ _ _ _ _ hw hdn f hfd).1
          refine ⟨src, hsrc, ?_⟩
          have hz := hpn f hfd hf i (r f) (by unfold cell; rw [hr]; rfl)
          rw [← hz, hcell, ← writeCell_stored f _ _ _ this]
          simp [Row.set, g1, g2]
  · rw [hcnt, ← hc0]
    exact simRows_count t (some d) inds 0 h1 h2 hout

/-- A vector longer than the field is rejected. -/
theorem C07_too_long_rejected (h : Hist) (inds : List Nat) (d : Rec) (t : Int) (kill : Bool) (hnd : inds.Nodup)
    (hdn : d.fields.Nodup) (k i : Nat) (hk : inds[k]? = some i) (f : Field) (hf : f ∈ d.fields) (hfh : f ∈ h.fields)
    (src : Row) (hsrc : d.rows[k]? = some src) (xs ys : List Int) (hx : src f = .v xs)
    (hy : cell h.rows i f = some (.v ys)) (hlong : ys.length < xs.length) :
    (apply h (.simReturn inds (some d) t kill)).2 ≠ none := by
  intro hno
  obtain ⟨e, le, heq, he1, he2⟩ := updateF_shape h inds (some d) t kill
  simp only [apply] at hno
  rw [heq] at hno
  have hnone := he2 hno
  have hpc := cell_preSim (some d) hfh i
  generalize preSim h (some d) = h1 at *
  generalize hout : simRows t (some d) 0 inds h1 = out at *
  obtain ⟨h2, e2⟩ := out
  simp only at hnone
  subst hnone
  obtain ⟨r, r', hr, hw, hr'⟩ := simRows_ok t (some d) inds 0 h1 h2 hout hnd k i hk
  have hold : r f = .v ys := by
    rw [hy] at hpc; unfold cell at hpc; rw [hr] at hpc; simpa using hpc
  unfold simRowWrite at hw
  simp only at hw
  split at hw
  · rename_i hem; rw [List.isEmpty_iff] at hem; rw [hem] at hf; simp at hf
  · rw [Nat.zero_add, hsrc] at hw
    simp only at hw
    have := (writeFields_ok _ _ _ _ _ hw hdn f hf).1
    rw [hold, hx] at this
    unfold writeCell at this
    simp only at this
    rw [if_pos hlong] at this
    cases this

example : (trimH (apply (run (init demoCols 1 noH0 true) demoOps).1
    (.simReturn [2, 0] (some ⟨[(.user 1, .vec 1)], [mkRow [(.user 1, .v [5])], mkRow [(.user 1, .v [6])]]⟩) 50 false)).1).map
      (fun r => (r (.user 1), r .simEnded)) =
    [(.v [6, 11], .s 1), (.v [20, 21], .s 1), (.v [5, 31], .s 1), (.v [40, 41], .s 0)] := by decide
example : (apply (run (init demoCols 1 noH0 true) demoOps).1
    (.simReturn [2] (some ⟨[(.user 1, .vec 3)], [mkRow [(.user 1, .v [5, 6, 7])]]⟩) 50 false)).2 =
    some (.tooMany (.user 1)) := by decide

/-! ### C08 -/

/-- For `sim_max > 0` the prepended rows come first with all their fields unchanged; rows without start flag are
treated as started and ended, rows with a start flag but no end flag as ended iff started; ids are assigned
if absent; and the counters of points started/ended in this run begin at zero (see also `C08_counters`).
Missing: for `sim_max = 0` the first part is false (`C08_sim_max_zero_witness`); the `gen_max` counter is
treated in C14. -/
theorem C08_prepended_partial (cols : List (Field × Shape)) (L : Nat) (H0 : Rec) (safe : Bool) (hL : 0 < L) :
    (trimH (init cols L H0 safe)).length = H0.rows.length ∧
    (∀ (i : Nat) (r0 : Row), H0.rows[i]? = some r0 → ∃ r, (trimH (init cols L H0 safe))[i]? = some r ∧
      (∀ f ∈ H0.fields, (f = .simEnded → Field.simStarted ∈ H0.fields) → r f = r0 f) ∧
      (Field.simStarted ∉ H0.fields → r .simStarted = .s 1 ∧ r .simEnded = .s 1) ∧
      (Field.simStarted ∈ H0.fields → Field.simEnded ∉ H0.fields → r .simEnded = r0 .simStarted) ∧
      (Field.simId ∉ H0.fields → r .simId = .s i)) ∧
    (init cols L H0 safe).simStartedCount = (init cols L H0 safe).simStartedOffset ∧
    (init cols L H0 safe).simEndedCount = (init cols L H0 safe).simEndedOffset := by
  refine ⟨?_, ?_, rfl, rfl⟩
  · unfold trimH; rw [List.length_take, init_length, init_index]; omega
  · intro i r0 hr
    have hi : i < H0.rows.length := by
      rcases Nat.lt_or_ge i H0.rows.length with h1 | h1
      · exact h1
      · rw [List.getElem?_eq_none h1] at hr; cases hr
    refine ⟨h0Row (init cols L H0 safe).cols H0 i r0, ?_, ?_, ?_, ?_, ?_⟩
    · unfold trimH
      rw [List.getElem?_take, init_index, if_pos hi]
      exact init_get_h0 cols L H0 safe hL i r0 hr
    · intro f hf hse
      unfold h0Row
      by_cases h1 : Field.simStarted ∈ H0.fields <;> by_cases h2 : Field.simEnded ∈ H0.fields <;>
        by_cases h3 : Field.simId ∈ H0.fields <;> simp only [h1, h2, h3, not_true_eq_false, not_false_eq_true,
          if_true, if_false] <;>
        simp only [Row.set_apply, hf, if_true] <;>
        (repeat' split) <;> simp_all
    · intro h1
      unfold h0Row
      simp only [h1, not_false_eq_true, if_true]
      split <;> simp [Row.set]
    · intro h1 h2
      unfold h0Row
      simp only [h1, h2, not_false_eq_true, not_true_eq_false, if_true, if_false]
      split <;> simp [Row.set]
    · intro h1
      unfold h0Row
      simp [h1, Row.set]

example : (trimH (init demoCols 4 ⟨[(.user 0, .scalar)], [mkRow [(.user 0, .s 5)], mkRow [(.user 0, .s 6)]]⟩ true)).map
    (fun r => (r (.user 0), r .simEnded, r .simId)) = [(.s 5, .s 1, .s 0), (.s 6, .s 1, .s 1)] := by decide

/-- Counters at the start of a run: for each of the three flags the number counted so far and the number charged to
earlier runs are both the number of visible (prepended) rows that carry the flag, so their difference, which the tests for
`sim_max` use, is zero.  Valid for every `sim_max`, also 0. -/
theorem C08_counters (cols : List (Field × Shape)) (L : Nat) (H0 : Rec) (safe : Bool) (hsc : LibScalar cols)
    (hsc0 : LibScalar H0.cols) :
    let h := init cols L H0 safe
    let carrying := fun f => ((trimH h).filter (·.flag f)).length
    h.simStartedCount = carrying .simStarted ∧ h.simStartedOffset = carrying .simStarted ∧
    h.simEndedCount = carrying .simEnded ∧ h.simEndedOffset = carrying .simEnded ∧
    h.genInformedCount = carrying .genInformed ∧ h.genInformedOffset = carrying .genInformed := by
  intro h carrying
  have hcols : LibScalar h.cols := by
    simp only [h, init]
    split
    · exact hsc
    · intro x hx
      rw [List.mem_append] at hx
      rcases hx with hx | hx
      · exact hsc0 x hx
      · exact hsc x (List.mem_filter.mp hx).1
  have key : ∀ f : Field, f = .simStarted ∨ f = .simEnded ∨ f = .genInformed → countFlag h.rows f = carrying f := by
    intro f hf
    have hz : zeroRow h.cols f = .s 0 := by
      simp only [zeroRow]
      split
      · rename_i x hx
        have h1 := List.find?_some hx
        have h2 := hcols x (List.mem_of_find?_eq_some hx) (by
          simp at h1; rw [h1]; rcases hf with rfl | rfl | rfl <;> simp [libEFields])
        rw [h2]; rfl
      · rfl
    have hfresh : (freshRow h.cols).flag f = false := by
      have : freshRow h.cols f = zeroRow h.cols f := by
        simp only [freshRow, freshen]
        rcases hf with rfl | rfl | rfl <;> (split <;> split <;> simp [Row.set])
      simp [Row.flag, this, hz]
    have hsplit : ∃ pre : List Row, pre.length = H0.rows.length ∧ h.rows = pre ++ List.replicate L (freshRow h.cols) := by
      refine ⟨_, ?_, rfl⟩
      split <;> simp
    obtain ⟨pre, hl, hr⟩ := hsplit
    have hi : h.index = H0.rows.length := rfl
    show countFlag h.rows f = (((h.rows.take h.index)).filter (·.flag f)).length
    rw [hi, hr, ← hl, List.take_left, ← List.countP_eq_length_filter]
    simp only [countFlag, List.countP_append]
    have : List.countP (fun x => x.flag f) (List.replicate L (freshRow h.cols)) = 0 := by
      rw [List.countP_eq_zero]
      intro r hr
      rw [(List.mem_replicate.mp hr).2, hfresh]; simp
    omega
  exact ⟨key _ (.inl rfl), key _ (.inl rfl), key _ (.inr (.inl rfl)), key _ (.inr (.inl rfl)), key _ (.inr (.inr rfl)),
    key _ (.inr (.inr rfl))⟩

example :
    let h := init demoCols 4 ⟨[(.simStarted, .scalar), (.simEnded, .scalar), (.genInformed, .scalar)],
      [mkRow [(.simStarted, .s 1), (.simEnded, .s 1)], mkRow [(.simStarted, .s 1)], mkRow []]⟩ true
    (h.simStartedOffset, h.simEndedOffset, h.genInformedOffset) = (2, 1, 0) := by decide

/-- Violation for `sim_max = 0`: the start time and id of prepended rows are overwritten. -/
theorem C08_sim_max_zero_witness :
    (trimH (init demoCols 0 ⟨[(.simId, .scalar), (.simStartedTime, .scalar)],
        [mkRow [(.simId, .s 0), (.simStartedTime, .s 77)]]⟩ true)).map
      (fun r => (r .simId, r .simStartedTime)) = [(.s (-1), INF)] := by decide

/-- Violation: an `H0` with `sim_ended` but without `sim_started` gets all its rows marked as ended, also those
it recorded as not ended. -/
theorem C08_ended_overwritten_witness :
    (trimH (init demoCols 4 ⟨[(.simEnded, .scalar)], [mkRow [(.simEnded, .s 0)]]⟩ true)).map
      (fun r => r .simEnded) = [.s 1] := by decide

end Verif.History
