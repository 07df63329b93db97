import Verif.History.IdInv
/-! Frame lemmas: which cells each operation can change. -/
namespace Verif.History

theorem cell_lt {rows : List Row} {i : Nat} {g : Field} {x : Val} (h : cell rows i g = some x) :
    i < rows.length := by
  rcases Nat.lt_or_ge i rows.length with h1 | h1
  · exact h1
  · simp [cell, List.getElem?_eq_none h1] at h

theorem cell_some {rows : List Row} {i : Nat} (g : Field) (h : i < rows.length) :
    ∃ x, cell rows i g = some x := ⟨rows[i] g, by simp [cell, List.getElem?_eq_getElem h]⟩

/-- Columns an operation may write (spec level). -/
def Op.writes : Op → List Field
  | .simReturn _ d _ _ => (match d with | none => [] | some d => d.fields) ++ [.simEnded, .simEndedTime]
  | .giveSim _ _ _ _ => [.simStarted, .simStartedTime, .simWorker]
  | .giveGen _ _ => [.genInformed, .genInformedTime]
  | .genReturn _ d _ _ => d.fields ++ [.simId, .genStartedTime, .genEndedTime, .genWorker]
  | .requestCancel _ => [.cancelRequested]
  | .markKill _ => [.killSent]

/-- `updateF` written as: extend, row loop, then a change of `lastEnded` only. -/
theorem updateF_shape (h : Hist) (inds d t k) :
    ∃ e le, updateF h inds d t k =
      ({ (simRows t d 0 inds (preSim h d)).1 with lastEnded := le }, e)
      ∧ ((simRows t d 0 inds (preSim h d)).2 ≠ none → e =
          (simRows t d 0 inds (preSim h d)).2)
      ∧ (e = none → (simRows t d 0 inds (preSim h d)).2 = none) := by
  unfold updateF
  generalize simRows t d 0 inds (preSim h d) = o
  obtain ⟨h2, e⟩ := o
  cases e with
  | some e => exact ⟨some e, h2.lastEnded, rfl, fun _ => rfl, by simp⟩
  | none =>
    simp only
    split
    · split
      · exact ⟨_, h2.lastEnded, rfl, by simp, by simp⟩
      · exact ⟨none, _, rfl, by simp, by simp⟩
    · exact ⟨none, h2.lastEnded, rfl, by simp, by simp⟩

theorem cell_preSim {h : Hist} (d : Option Rec) {f : Field} (hf : f ∈ h.fields) (i : Nat) :
    cell (preSim h d).rows i f = cell h.rows i f := by
  cases d with
  | none => rfl
  | some d => exact cell_extendCols h d.cols hf i

theorem length_preSim (h : Hist) (d : Option Rec) :
    (preSim h d).rows.length = h.rows.length := by
  cases d <;> simp [preSim]

theorem index_preSim (h : Hist) (d : Option Rec) :
    (preSim h d).index = h.index := by
  cases d <;> simp [preSim]

theorem safe_preSim (h : Hist) (d : Option Rec) :
    (preSim h d).safeMode = h.safeMode := by
  cases d <;> simp [preSim]

theorem fields_preSim {h : Hist} (d : Option Rec) {f : Field} (hf : f ∈ h.fields) :
    f ∈ (preSim h d).fields := by
  cases d with
  | none => exact hf
  | some d => exact fields_extendCols_mono h d.cols hf

/-- The stages of `updateXIn` before the column loop: rows keep all old cells (except that the rows
that are being appended get their number). -/
theorem updateXIn_cases (h : Hist) (w d ts t) (hne : d.rows.isEmpty = false) :
    (Field.simId ∉ d.fields ∧ ∃ h3 : Hist, h3 = { ensureRoom (extendCols h d.cols) d.rows.length with
        rows := numberRows (ensureRoom (extendCols h d.cols) d.rows.length).rows h.index d.rows.length } ∧
      updateXIn h w d ts t = genFinish h3 w d ts t (List.range' h.index d.rows.length) d.rows.length) ∨
    (Field.simId ∈ d.fields ∧ updateXIn h w d ts t = (extendCols h d.cols, some .gap)) ∨
    (Field.simId ∈ d.fields ∧ ∃ n, updateXIn h w d ts t =
        (ensureRoom (extendCols h d.cols) n, some .indexError)) ∨
    (Field.simId ∈ d.fields ∧ ∃ n inds, resolveAll (ensureRoom (extendCols h d.cols) n).rows.length
        (d.rows.map (·.sid)) = some inds ∧ updateXIn h w d ts t =
        genFinish (ensureRoom (extendCols h d.cols) n) w d ts t inds n) := by
  unfold updateXIn
  simp only [hne, Bool.false_eq_true, if_false]
  split
  · rename_i hno
    left
    refine ⟨hno, _, rfl, ?_⟩
    simp
  · rename_i hin
    simp only [Classical.not_not] at hin
    right
    split
    · right
      split
      · rename_i hr; left; exact ⟨hin, _, rfl⟩
      · rename_i inds hr; right; exact ⟨hin, _, inds, hr, rfl⟩
    · left; exact ⟨hin, rfl⟩

theorem cell_ensureRoom_old (h : Hist) (n i : Nat) (g : Field) (hi : i < h.rows.length) :
    cell (ensureRoom h n).rows i g = cell h.rows i g := by
  unfold cell; rw [get_ensureRoom_old _ _ _ hi]

/-- Main frame theorem: a column outside `op.writes` keeps all its existing cells. -/
theorem apply_frame (h : Hist) (op : Op) (g : Field) (hg : g ∉ op.writes) (hf : g ∈ h.fields)
    (i : Nat) (hi : i < h.rows.length) : cell (apply h op).1.rows i g = cell h.rows i g := by
  cases op with
  | simReturn inds d t k =>
    obtain ⟨e, le, heq, _⟩ := updateF_shape h inds d t k
    simp only [apply]
    rw [heq]
    simp only
    rw [cell_simRows_frame]
    · exact cell_preSim d hf i
    · intro d' hd; subst hd; simp [Op.writes] at hg; exact hg.1
    · intro e; subst e; exact hg (by simp [Op.writes])
    · intro e; subst e; exact hg (by simp [Op.writes])
  | giveSim inds w t k =>
    simp [Op.writes] at hg
    simp only [apply]
    unfold updateXOut
    split
    · rfl
    · simp only
      have : cell (updAll (fun r => ((r.set .simStarted (.s 1)).set .simStartedTime (.s t)).set
        .simWorker (.s w)) h.rows inds) i g = cell h.rows i g := by
        apply cell_updAll_frame
        intro r; simp [Row.set, hg]
      split
      · split <;> exact this
      · exact this
  | giveGen inds t =>
    simp [Op.writes] at hg
    simp only [apply]
    unfold updateToGen
    split
    · rfl
    · split
      · rfl
      · simp only
        rw [cell_updAll_frame _ _ (by intro r; simp [Row.set, hg])]
        split
        · rw [cell_updAll_frame _ _ (by intro r; simp [Row.set, hg])]
        · split
          · rw [cell_updAll_frame _ _ (by intro r; simp [Row.set, hg])]
          · rfl
  | genReturn w d ts t =>
    simp [Op.writes] at hg
    simp only [apply]
    cases hne : d.rows.isEmpty with
    | true => unfold updateXIn; simp [hne]
    | false =>
      rcases updateXIn_cases h w d ts t hne with ⟨_, h3, hh3, heq⟩ | ⟨_, heq⟩ | ⟨_, n, heq⟩ | ⟨_, n, inds, _, heq⟩
      · rw [heq, cell_genFinish_ne _ _ _ _ _ _ _ _ hg.1 hg.2.2.1 hg.2.2.2.1 hg.2.2.2.2, hh3]
        simp only
        rw [cell_numberRows_ne _ _ _ _ _ hg.2.1, cell_ensureRoom_old _ _ _ _ (by simpa using hi)]
        exact cell_extendCols h d.cols hf i
      · rw [heq]; exact cell_extendCols h d.cols hf i
      · rw [heq]; simp only
        rw [cell_ensureRoom_old _ _ _ _ (by simpa using hi)]
        exact cell_extendCols h d.cols hf i
      · rw [heq, cell_genFinish_ne _ _ _ _ _ _ _ _ hg.1 hg.2.2.1 hg.2.2.2.1 hg.2.2.2.2]
        rw [cell_ensureRoom_old _ _ _ _ (by simpa using hi)]
        exact cell_extendCols h d.cols hf i
  | requestCancel inds =>
    simp [Op.writes] at hg
    simp only [apply]
    apply cell_updAll_frame
    intro r; simp [Row.set, hg]
  | markKill inds =>
    simp [Op.writes] at hg
    simp only [apply]
    apply cell_updAll_frame
    intro r; simp [Row.set, hg]

/-- Structural facts kept by every operation. -/
theorem apply_struct (h : Hist) (op : Op) :
    (apply h op).1.safeMode = h.safeMode ∧ h.rows.length ≤ (apply h op).1.rows.length ∧
    h.index ≤ (apply h op).1.index ∧ (∀ f ∈ h.fields, f ∈ (apply h op).1.fields) := by
  cases op with
  | simReturn inds d t k =>
    obtain ⟨e, le, heq, _⟩ := updateF_shape h inds d t k
    have hf := simRows_frame t d 0 inds (preSim h d)
    simp only [apply]
    rw [heq]
    refine ⟨?_, ?_, ?_, ?_⟩
    · exact hf.2.2.1.trans (safe_preSim h d)
    · exact Nat.le_of_eq (hf.2.2.2.1.trans (length_preSim h d)).symm
    · exact Nat.le_of_eq (hf.1.trans (index_preSim h d)).symm
    · intro f hff
      have := fields_preSim d hff
      unfold Hist.fields at this ⊢
      simp only
      rw [hf.2.1]; exact this
  | giveSim inds w t k =>
    simp only [apply]
    unfold updateXOut
    split
    · simp
    · simp only
      split
      · split <;> simp [Hist.fields]
      · simp [Hist.fields]
  | giveGen inds t =>
    simp only [apply]
    unfold updateToGen
    split
    · simp
    · split
      · simp
      · refine ⟨rfl, ?_, Nat.le_refl _, fun f hf => hf⟩
        simp only [length_updAll]
        split
        · simp
        · split <;> simp
  | genReturn w d ts t =>
    simp only [apply]
    cases hne : d.rows.isEmpty with
    | true => unfold updateXIn; simp [hne]
    | false =>
      have hle := fun n => length_le_ensureRoom (extendCols h d.cols) n
      have gs : ∀ h3 inds n, (genFinish h3 w d ts t inds n).1.safeMode = h3.safeMode := by
        intro h3 inds n; unfold genFinish; split <;> rfl
      have gi : ∀ h3 inds n, h3.index ≤ (genFinish h3 w d ts t inds n).1.index := by
        intro h3 inds n; rw [genFinish_index]; split <;> omega
      rcases updateXIn_cases h w d ts t hne with ⟨_, h3, hh3, heq⟩ | ⟨_, heq⟩ | ⟨_, n, heq⟩ | ⟨_, n, inds, _, heq⟩
      · rw [heq]
        refine ⟨?_, ?_, ?_, ?_⟩
        · rw [gs, hh3]; simp
        · rw [genFinish_length, hh3]; have := hle d.rows.length; simpa using this
        · have := gi h3 (List.range' h.index d.rows.length) d.rows.length; rw [hh3] at this ⊢; simpa using this
        · intro f hf; rw [genFinish_fields, hh3]
          have := fields_extendCols_mono h d.cols hf
          rw [← fields_ensureRoom _ d.rows.length] at this
          exact this
      · rw [heq]; refine ⟨by simp, by simp, by simp, fun f hf => fields_extendCols_mono h d.cols hf⟩
      · rw [heq]; refine ⟨by simp, by simpa using hle n, by simp, fun f hf => ?_⟩
        simpa using fields_extendCols_mono h d.cols hf
      · rw [heq]
        refine ⟨by rw [gs]; simp, ?_, ?_, ?_⟩
        · rw [genFinish_length]; simpa using hle n
        · have := gi (ensureRoom (extendCols h d.cols) n) inds n; simpa using this
        · intro f hf; rw [genFinish_fields]; simpa using fields_extendCols_mono h d.cols hf
  | requestCancel inds => simp [apply, Hist.fields]
  | markKill inds => simp [apply, Hist.fields]

theorem run_struct (h : Hist) (ops : List Op) :
    (run h ops).1.safeMode = h.safeMode ∧ h.rows.length ≤ (run h ops).1.rows.length ∧
    h.index ≤ (run h ops).1.index ∧ (∀ f ∈ h.fields, f ∈ (run h ops).1.fields) := by
  induction ops generalizing h with
  | nil => simp [run]
  | cons op ops ih =>
    have ha := apply_struct h op
    unfold run
    split
    · rename_i heq; rw [heq] at ha; exact ha
    · rename_i h' heq; rw [heq] at ha
      have := ih h'
      exact ⟨this.1.trans ha.1, Nat.le_trans ha.2.1 this.2.1, Nat.le_trans ha.2.2.1 this.2.2.1,
        fun f hf => this.2.2.2 f (ha.2.2.2 f hf)⟩

/-- Splitting a run. -/
theorem run_append (h : Hist) (a b : List Op) :
    run h (a ++ b) = match run h a with
      | (h', none) => run h' b
      | (h', some e) => (h', some e) := by
  induction a generalizing h with
  | nil => simp [run]
  | cons op ops ih =>
    simp only [List.cons_append, run]
    split
    · rfl
    · rw [ih]

/-- Column frame for a whole run. -/
theorem run_frame (h : Hist) (ops : List Op) (g : Field) (hg : ∀ op ∈ ops, g ∉ op.writes)
    (hf : g ∈ h.fields) (i : Nat) (hi : i < h.rows.length) :
    cell (run h ops).1.rows i g = cell h.rows i g := by
  induction ops generalizing h with
  | nil => rfl
  | cons op ops ih =>
    have ha := apply_frame h op g (hg op List.mem_cons_self) hf i hi
    have hs := apply_struct h op
    unfold run
    split
    · rename_i heq; rw [heq] at ha; exact ha
    · rename_i h' heq; rw [heq] at ha hs
      rw [ih h' (fun o ho => hg o (List.mem_cons_of_mem _ ho)) (hs.2.2.2 g hf) (Nat.lt_of_lt_of_le hi hs.2.1), ha]

/-! ### protected columns in safe mode -/

/-- What a whole row loop can do to a protected cell in safe mode. -/
theorem simRows_protected (t : Int) (d : Option Rec) (inds : List Nat) (h : Hist)
    (hsafe : h.safeMode = true) (g : Field) (hg : g ∈ protectedFields) (i : Nat) :
    cell (simRows t d 0 inds h).1.rows i g = cell h.rows i g ∨
    (i ∈ inds ∧ ((g = .simEnded ∧ cell (simRows t d 0 inds h).1.rows i g = some (.s 1)) ∨
      (g = .simEndedTime ∧ cell (simRows t d 0 inds h).1.rows i g = some (.s t)))) := by
  have := simRows_rel (fun h h' => h.safeMode = true → h'.safeMode = true ∧
    (cell h'.rows i g = cell h.rows i g ∨
    (i ∈ inds ∧ ((g = .simEnded ∧ cell h'.rows i g = some (.s 1)) ∨
      (g = .simEndedTime ∧ cell h'.rows i g = some (.s t))))))
    (fun h hs => ⟨hs, Or.inl rfl⟩) (by
      intro a b c h1 h2 hs
      have h1 := h1 hs
      have h2 := h2 h1.1
      refine ⟨h2.1, ?_⟩
      rcases h2.2 with h3 | h3
      · rw [h3]; exact h1.2
      · exact Or.inr h3) t d inds (by
      intro h j ind r r' e _ hr hw hs
      refine ⟨hs, Or.inl ?_⟩
      rw [hs] at hw
      have := simRowWrite_protected d j r g hg
      rw [hw] at this
      simp only at this ⊢
      rw [cell_set]
      split
      · rename_i hc; obtain ⟨rfl, _⟩ := hc; simp [cell, hr, this]
      · rfl) (by
      intro h j ind r r' hin hr hw hs
      refine ⟨hs, ?_⟩
      rw [hs] at hw
      have := simRowWrite_protected d j r g hg
      rw [hw] at this
      simp only at this ⊢
      rw [cell_set]
      split
      · rename_i hc
        obtain ⟨rfl, _⟩ := hc
        by_cases h1 : g = .simEnded
        · right; refine ⟨hin, Or.inl ⟨h1, ?_⟩⟩; subst h1; simp [Row.set]
        · by_cases h2 : g = .simEndedTime
          · right; refine ⟨hin, Or.inr ⟨h2, ?_⟩⟩; subst h2; simp [Row.set]
          · left; simp [cell, hr, Row.set_ne _ _ h1, Row.set_ne _ _ h2, this]
      · exact Or.inl rfl) 0 inds (fun _ h => h) h
  exact (this hsafe).2

/-- What the generator tail can do to a protected cell in safe mode. -/
theorem genFinish_protected (h : Hist) (w d ts t inds n) (hsafe : h.safeMode = true) (g : Field)
    (hg : g ∈ protectedFields) (i : Nat) :
    cell (genFinish h w d ts t inds n).1.rows i g = cell h.rows i g ∨
    ((genFinish h w d ts t inds n).2 = none ∧ i ∈ inds ∧ cell h.rows i .genEndedTime = some (.s 0) ∧
      ((g = .genWorker ∧ cell (genFinish h w d ts t inds n).1.rows i g = some (.s w)) ∨
       (g = .genStartedTime ∧ cell (genFinish h w d ts t inds n).1.rows i g = some (.s ts)) ∨
       (g = .genEndedTime ∧ cell (genFinish h w d ts t inds n).1.rows i g = some (.s t)))) := by
  unfold genFinish
  rw [hsafe]
  have hp := fun g (hg : g ∈ protectedFields) =>
    cell_genColumns_protected (inds.zip d.rows) d.cols h.rows g hg i
  split
  · rename_i heq; rw [heq] at hp; exact Or.inl (hp g hg)
  · rename_i rows' heq
    rw [heq] at hp
    simp only at hp ⊢
    generalize hfirst : inds.filter (fun i => decide ((rows'[i]?).map (· .genEndedTime) = some (.s 0))) = first
    have hidem : ∀ r, stampRow w ts t (stampRow w ts t r) = stampRow w ts t r := by
      intro r; funext f; simp only [stampRow, Row.set]; split <;> (try split) <;> (try split) <;> rfl
    have hget := get_updAll_idem (stampRow w ts t) hidem rows' first i
    by_cases hin : i ∈ first
    · have hmem : i ∈ inds ∧ (rows'[i]?).map (· .genEndedTime) = some (.s 0) := by
        rw [← hfirst] at hin; simpa using hin
      have h0 : cell h.rows i .genEndedTime = some (.s 0) := by
        rw [← hp .genEndedTime (by simp [protectedFields])]; exact hmem.2
      cases hr : rows'[i]? with
      | none => rw [hr] at hmem; simp at hmem
      | some r =>
        rw [hr] at hget
        simp only [Option.map_some, hin, if_true] at hget
        have hcell : ∀ g, cell (updAll (stampRow w ts t) rows' first) i g = some (stampRow w ts t r g) := by
          intro g; unfold cell; rw [hget]; rfl
        by_cases h1 : g = .genWorker
        · right; refine ⟨trivial, hmem.1, h0, Or.inl ⟨h1, ?_⟩⟩; subst h1; rw [hcell]; simp [stampRow, Row.set]
        · by_cases h2 : g = .genStartedTime
          · right; refine ⟨trivial, hmem.1, h0, Or.inr (Or.inl ⟨h2, ?_⟩)⟩; subst h2; rw [hcell]; simp [stampRow, Row.set]
          · by_cases h3 : g = .genEndedTime
            · right; refine ⟨trivial, hmem.1, h0, Or.inr (Or.inr ⟨h3, ?_⟩)⟩; subst h3; rw [hcell]; simp [stampRow, Row.set]
            · left
              rw [hcell, ← hp g hg]
              simp [cell, hr, stampRow, Row.set, h1, h2, h3]
    · left
      rw [← hp g hg]
      unfold cell
      rw [get_updAll_not_mem _ _ _ _ hin]

theorem get_updAll_const (g : Row → Row) (f : Field) (x : Val) (hx : ∀ r, g r f = x) (rows : List Row)
    (inds : List Nat) (i : Nat) (hi : i < rows.length) (him : i ∈ inds) :
    cell (updAll g rows inds) i f = some x := by
  unfold updAll
  induction inds generalizing rows with
  | nil => simp at him
  | cons j js ih =>
    simp only [List.foldl_cons]
    by_cases h : i ∈ js
    · exact ih _ (by simpa using hi) h
    · have hj : i = j := by rcases List.mem_cons.1 him with h1 | h1; exact h1; exact absurd h1 h
      have := get_updAll_not_mem g (rows.modify j g) js i h
      unfold updAll at this
      unfold cell
      rw [this, List.getElem?_modify]
      simp [hj.symm, List.getElem?_eq_getElem hi, hx]

theorem cell_updAll (g : Row → Row) (f : Field) (rows : List Row) (inds : List Nat) (i : Nat)
    (hi : i ∉ inds) : cell (updAll g rows inds) i f = cell rows i f := by
  unfold cell; rw [get_updAll_not_mem _ _ _ _ hi]

/-- What can happen to a protected cell in safe mode, operation by operation. -/
def ProtectedChange (h h' : Hist) (err : Option HErr) (g : Field) (i : Nat) : Op → Prop
  | .simReturn inds _ t _ => i ∈ inds ∧
      ((g = .simEnded ∧ cell h'.rows i g = some (.s 1)) ∨
       (g = .simEndedTime ∧ cell h'.rows i g = some (.s t)))
  | .giveSim inds w t _ => i ∈ inds ∧
      ((g = .simStarted ∧ cell h'.rows i g = some (.s 1)) ∨
       (g = .simStartedTime ∧ cell h'.rows i g = some (.s t)) ∨
       (g = .simWorker ∧ cell h'.rows i g = some (.s w)))
  | .giveGen inds t => i ∈ inds ∧
      ((g = .genInformed ∧ cell h.rows i .simEnded ≠ some (.s 0) ∧ cell h'.rows i g = some (.s 1)) ∨
       (g = .genInformedTime ∧ cell h'.rows i g = some (.s t)))
  | .genReturn w _ ts t => err = none ∧ cell h.rows i .genEndedTime = some (.s 0) ∧
      ((g = .genWorker ∧ cell h'.rows i g = some (.s w)) ∨
       (g = .genStartedTime ∧ cell h'.rows i g = some (.s ts)) ∨
       (g = .genEndedTime ∧ cell h'.rows i g = some (.s t)))
  | .requestCancel _ => False
  | .markKill inds => i ∈ inds ∧ g = .killSent ∧ cell h'.rows i g = some (.s 1)

theorem apply_protected (h : Hist) (hsafe : h.safeMode = true) (op : Op) (g : Field)
    (hg : g ∈ protectedFields) (hlib : ∀ f ∈ libEFields, f ∈ h.fields) (i : Nat) (hi : i < h.rows.length) :
    cell (apply h op).1.rows i g = cell h.rows i g ∨
    ProtectedChange h (apply h op).1 (apply h op).2 g i op := by
  have hf : g ∈ h.fields := by
    apply hlib
    simp only [protectedFields, List.mem_cons, List.not_mem_nil, or_false] at hg
    rcases hg with h | h | h | h | h | h | h | h | h | h | h <;> subst h <;> simp [libEFields]
  cases op with
  | simReturn inds d t k =>
    obtain ⟨e, le, heq, _⟩ := updateF_shape h inds d t k
    simp only [apply, ProtectedChange]
    rw [heq]
    simp only
    have := simRows_protected t d inds (preSim h d) (by rw [safe_preSim]; exact hsafe) g hg i
    rw [cell_preSim d hf i] at this
    exact this
  | giveSim inds w t k =>
    by_cases hex : g ∈ (Op.giveSim inds w t k).writes
    · simp only [apply, ProtectedChange]
      have key : ∀ hst : Hist, hst.rows = updAll (fun r => ((r.set .simStarted (.s 1)).set .simStartedTime (.s t)).set
          .simWorker (.s w)) h.rows inds → cell hst.rows i g = cell h.rows i g ∨ (i ∈ inds ∧
          ((g = .simStarted ∧ cell hst.rows i g = some (.s 1)) ∨
          (g = .simStartedTime ∧ cell hst.rows i g = some (.s t)) ∨
          (g = .simWorker ∧ cell hst.rows i g = some (.s w)))) := by
        intro hst hrows
        rw [hrows]
        by_cases him : i ∈ inds
        · right
          refine ⟨him, ?_⟩
          simp only [Op.writes, List.mem_cons, List.not_mem_nil, or_false] at hex
          rcases hex with e | e | e <;> subst e
          · left; exact ⟨rfl, get_updAll_const _ _ _ (by intro r; simp [Row.set]) _ _ _ hi him⟩
          · right; left; exact ⟨rfl, get_updAll_const _ _ _ (by intro r; simp [Row.set]) _ _ _ hi him⟩
          · right; right; exact ⟨rfl, get_updAll_const _ _ _ (by intro r; simp [Row.set]) _ _ _ hi him⟩
        · left; exact cell_updAll _ _ _ _ _ him
      unfold updateXOut
      split
      · exact Or.inl rfl
      · simp only
        split
        · split
          · exact key _ rfl
          · exact key _ rfl
        · exact key _ rfl
    · exact Or.inl (apply_frame h _ g hex hf i hi)
  | giveGen inds t =>
    by_cases hex : g ∈ (Op.giveGen inds t).writes
    · simp only [Op.writes, List.mem_cons, List.not_mem_nil, or_false] at hex
      simp only [apply, ProtectedChange]
      unfold updateToGen
      split
      · exact Or.inl rfl
      · split
        · exact Or.inl rfl
        · simp only
          generalize hend : inds.filter (fun i => ((h.rows[i]?).map (·.flag .simEnded)).getD false) = ended
          have hmem : ∀ j, j ∈ ended ↔ j ∈ inds ∧ j < h.rows.length ∧ cell h.rows j .simEnded ≠ some (.s 0) := by
            intro j
            rw [← hend, List.mem_filter]
            unfold cell
            rcases Nat.lt_or_ge j h.rows.length with h1 | h1
            · simp [Row.flag, h1]
            · simp [List.getElem?_eq_none h1]; intro _; omega
          rcases hex with e | e <;> subst e
          · -- genInformed
            rw [cell_updAll_frame _ _ (by intro r; simp [Row.set])]
            split
            · rename_i hall
              have hsame : ∀ j ∈ inds, j ∈ ended := by
                rw [← hend] at hall ⊢
                rw [List.length_filter_eq_length_iff] at hall
                intro j hj
                rw [List.mem_filter]
                exact ⟨hj, hall j hj⟩
              by_cases him : i ∈ inds
              · right
                refine ⟨him, Or.inl ⟨rfl, ((hmem i).1 (hsame i him)).2.2, ?_⟩⟩
                exact get_updAll_const _ _ _ (by intro r; simp) _ _ _ hi him
              · left; exact cell_updAll _ _ _ _ _ him
            · split
              · by_cases him : i ∈ ended
                · right
                  have := (hmem i).1 him
                  refine ⟨this.1, Or.inl ⟨rfl, this.2.2, ?_⟩⟩
                  exact get_updAll_const _ _ _ (by intro r; simp) _ _ _ hi him
                · left; exact cell_updAll _ _ _ _ _ him
              · exact Or.inl rfl
          · -- genInformedTime
            by_cases him : i ∈ inds
            · right
              refine ⟨him, Or.inr ⟨rfl, ?_⟩⟩
              apply get_updAll_const _ _ _ (by intro r; simp) _ _ _ _ him
              split
              · simpa using hi
              · split
                · simpa using hi
                · exact hi
            · left
              rw [cell_updAll _ _ _ _ _ him]
              split
              · rw [cell_updAll_frame _ _ (by intro r; simp [Row.set])]
              · split
                · rw [cell_updAll_frame _ _ (by intro r; simp [Row.set])]
                · rfl
    · exact Or.inl (apply_frame h _ g hex hf i hi)
  | genReturn w d ts t =>
    simp only [apply, ProtectedChange]
    have hid : g ≠ .simId := by intro e; subst e; simp [protectedFields] at hg
    have hg0 : Field.genEndedTime ∈ h.fields := hlib _ (by simp [libEFields])
    cases hne : d.rows.isEmpty with
    | true => left; unfold updateXIn; simp [hne]
    | false =>
      rcases updateXIn_cases h w d ts t hne with ⟨_, h3, hh3, heq⟩ | ⟨_, heq⟩ | ⟨_, n, heq⟩ | ⟨_, n, inds, _, heq⟩
      · rw [heq]
        have hc : ∀ g, g ∈ h.fields → g ≠ .simId → cell h3.rows i g = cell h.rows i g := by
          intro g hf hid
          rw [hh3]
          simp only
          rw [cell_numberRows_ne _ _ _ _ _ hid, cell_ensureRoom_old _ _ _ _ (by simpa using hi)]
          exact cell_extendCols h d.cols hf i
        have := genFinish_protected h3 w d ts t (List.range' h.index d.rows.length) d.rows.length
          (by rw [hh3]; simpa using hsafe) g hg i
        rw [hc g hf hid, hc _ hg0 (by simp)] at this
        rcases this with h1 | ⟨h1, _, h2⟩
        · exact Or.inl h1
        · exact Or.inr ⟨h1, h2⟩
      · left; rw [heq]; exact cell_extendCols h d.cols hf i
      · left; rw [heq]; simp only
        rw [cell_ensureRoom_old _ _ _ _ (by simpa using hi)]
        exact cell_extendCols h d.cols hf i
      · rw [heq]
        have hc : ∀ g, g ∈ h.fields → cell (ensureRoom (extendCols h d.cols) n).rows i g = cell h.rows i g := by
          intro g hf
          rw [cell_ensureRoom_old _ _ _ _ (by simpa using hi)]
          exact cell_extendCols h d.cols hf i
        have := genFinish_protected (ensureRoom (extendCols h d.cols) n) w d ts t inds n
          (by simpa using hsafe) g hg i
        rw [hc g hf, hc _ hg0] at this
        rcases this with h1 | ⟨h1, _, h2⟩
        · exact Or.inl h1
        · exact Or.inr ⟨h1, h2⟩
  | requestCancel inds =>
    left
    apply apply_frame h _ g _ hf i hi
    intro e
    simp only [Op.writes, List.mem_cons, List.not_mem_nil, or_false] at e
    subst e
    simp [protectedFields] at hg
  | markKill inds =>
    by_cases hex : g = .killSent
    · subst hex
      simp only [apply, ProtectedChange]
      by_cases him : i ∈ inds
      · right; exact ⟨him, trivial, get_updAll_const _ _ _ (by intro r; simp) _ _ _ hi him⟩
      · left; exact cell_updAll _ _ _ _ _ him
    · left
      apply apply_frame h _ g _ hf i hi
      simpa [Op.writes] using hex

end Verif.History
