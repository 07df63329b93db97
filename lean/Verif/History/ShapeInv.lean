import Verif.History.MoreLemmas
/-! Every cell has the shape of its column; so well-typed generator returns are never rejected. -/
namespace Verif.History

/-- A global typing of field names in which the fields libEnsemble writes itself are scalar. -/
structure Typing where
  ty : Field → Shape
  special : ∀ f, (f ∈ libEFields ∨ f = .uid ∨ f = .resourceSets) → ty f = .scalar

def Typing.cols (T : Typing) (cs : List (Field × Shape)) : Prop := ∀ c ∈ cs, c.2 = T.ty c.1

def Typing.typedRec (T : Typing) (d : Rec) : Prop :=
  T.cols d.cols ∧ ∀ r ∈ d.rows, ∀ f ∈ d.fields, (r f).hasShape (T.ty f) = true

/-- The data carried by an operation is typed. -/
def Typing.op (T : Typing) : Op → Prop
  | .simReturn _ (some d) _ _ => T.cols d.cols
  | .genReturn _ d _ _ => T.typedRec d
  | _ => True

structure ShapeInv (T : Typing) (h : Hist) : Prop where
  cols : T.cols h.cols
  cells : ∀ i f x, f ∈ h.fields → cell h.rows i f = some x → x.hasShape (T.ty f) = true

theorem hasShape_zero (s : Shape) : s.zero.hasShape s = true := by cases s <;> simp [Shape.zero, Val.hasShape]

theorem zeroRow_shape (T : Typing) (cs : List (Field × Shape)) (hc : T.cols cs) (f : Field)
    (hf : f ∈ cs.map (·.1)) : (zeroRow cs f).hasShape (T.ty f) = true := by
  unfold zeroRow
  split
  · rename_i c h
    have h1 := List.mem_of_find?_eq_some h
    have h2 := List.find?_some h
    simp only [decide_eq_true_eq] at h2
    rw [← h2, ← hc c h1]; exact hasShape_zero _
  · rename_i h
    obtain ⟨c, hcm, e⟩ := List.mem_map.1 hf
    rw [List.find?_eq_none] at h
    exact absurd e (by simpa using h c hcm)

theorem hasShape_set (T : Typing) (r : Row) (g f : Field) (x : Int)
    (hg : g ∈ libEFields ∨ g = .uid ∨ g = .resourceSets)
    (h : (r f).hasShape (T.ty f) = true) : ((r.set g (.s x)) f).hasShape (T.ty f) = true := by
  rw [Row.set_apply]
  split
  · rename_i e; subst e; rw [T.special _ hg]; rfl
  · exact h

theorem freshRow_shape (T : Typing) (cs : List (Field × Shape)) (hc : T.cols cs) (f : Field)
    (hf : f ∈ cs.map (·.1)) : (freshRow cs f).hasShape (T.ty f) = true := by
  have h0 := zeroRow_shape T cs hc f hf
  unfold freshRow freshen INF
  have a1 := hasShape_set T (zeroRow cs) .simId f (-1) (by simp [libEFields]) h0
  split <;> split <;>
  · repeat (apply hasShape_set T _ _ _ _ (by simp [libEFields]))
    exact h0

theorem ShapeInv.of_cells {T : Typing} {h h' : Hist} (H : ShapeInv T h) (hc : h'.cols = h.cols)
    (hcell : ∀ i f x, f ∈ h.fields → cell h'.rows i f = some x →
      cell h.rows i f = some x ∨ x.hasShape (T.ty f) = true) : ShapeInv T h' := by
  refine ⟨by rw [hc]; exact H.cols, ?_⟩
  intro i f x hf hx
  have hf : f ∈ h.fields := by unfold Hist.fields at *; rw [← hc]; exact hf
  rcases hcell i f x hf hx with h1 | h1
  · exact H.cells i f x hf h1
  · exact h1

theorem newCols_mem {old new : List (Field × Shape)} {c} (h : c ∈ newCols old new) : c ∈ new :=
  (List.mem_filter.1 h).1

theorem ShapeInv.extend {T : Typing} {h : Hist} (H : ShapeInv T h) (cs) (hcs : T.cols cs) :
    ShapeInv T (extendCols h cs) := by
  unfold extendCols
  split
  · exact H
  · unfold appendNewFields
    refine ⟨?_, ?_⟩
    · intro c hc
      simp only [List.mem_append] at hc
      rcases hc with hc | hc
      · exact H.cols c hc
      · exact hcs c (newCols_mem hc)
    · intro i f x hf hx
      unfold cell at hx
      simp only [List.getElem?_map, Option.map_map] at hx
      cases hr : h.rows[i]? with
      | none => rw [hr] at hx; simp at hx
      | some r =>
        rw [hr] at hx
        simp only [Option.map_some, Function.comp, Option.some.injEq] at hx
        split at hx
        · rename_i hin
          exact H.cells i f x hin (by simp [cell, hr, hx])
        · rename_i hnin
          subst hx
          apply zeroRow_shape T
          · intro c hc; exact hcs c (newCols_mem hc)
          · simp only [Hist.fields, List.map_append, List.mem_append] at hf hnin
            rcases hf with hf | hf
            · exact absurd hf hnin
            · exact hf

theorem ShapeInv.ensure {T : Typing} {h : Hist} (H : ShapeInv T h) (n) : ShapeInv T (ensureRoom h n) := by
  refine ⟨by simpa using H.cols, ?_⟩
  intro i f x hf hx
  simp at hf
  rcases Nat.lt_or_ge i h.rows.length with h1 | h1
  · rw [cell_ensureRoom_old _ _ _ _ h1] at hx; exact H.cells i f x hf hx
  · have h2 := cell_lt hx
    unfold cell at hx
    rw [get_ensureRoom_new _ _ _ h1 h2] at hx
    simp at hx
    subst hx
    exact freshRow_shape T h.cols H.cols f hf

theorem cell_updAll_cases (g : Row → Row) (rows : List Row) (inds : List Nat) (f : Field) (y : Val)
    (hg : ∀ r, g r f = y ∨ g r f = r f) (i : Nat) (x : Val) (hx : cell (updAll g rows inds) i f = some x) :
    cell rows i f = some x ∨ x = y := by
  unfold updAll at hx
  induction inds generalizing rows with
  | nil => exact Or.inl hx
  | cons j js ih =>
    rcases ih _ hx with h1 | h1
    · unfold cell at h1 ⊢
      rw [List.getElem?_modify] at h1
      cases hr : rows[i]? with
      | none => simp [hr] at h1
      | some r =>
        by_cases hj : j = i
        · simp [hr, hj] at h1
          rcases hg r with h2 | h2
          · right; rw [← h1, h2]
          · left; simp [← h1, h2]
        · simp [hr, hj] at h1; left; simp [h1]
    · exact Or.inr h1

theorem writeCell_shape (f : Field) (old new x : Val) (s : Shape) (h : writeCell f old new = .ok x)
    (ho : old.hasShape s = true) : x.hasShape s = true := by
  unfold writeCell at h
  split at h
  · cases h; cases s <;> simp_all [Val.hasShape]
  · cases h; cases s <;> simp_all [Val.hasShape]
  · split at h
    · cases h
    · split at h
      · cases h
      · cases h
        cases s with
        | scalar => simp [Val.hasShape] at ho
        | vec n =>
          simp only [Val.hasShape, beq_iff_eq] at ho ⊢
          simp only [List.length_append, List.length_drop]
          omega
  · cases h

theorem writeFields_shape (safe : Bool) (src : Row) (fs : List Field) (r : Row) (ty : Field → Shape)
    (g : Field) (h : (r g).hasShape (ty g) = true) :
    ((writeFields safe src fs r).1 g).hasShape (ty g) = true := by
  induction fs generalizing r with
  | nil => exact h
  | cons f fs ih =>
    unfold writeFields
    split
    · exact h
    · split
      · exact h
      · rename_i x hx
        apply ih
        rw [Row.set_apply]
        split
        · rename_i e; subst e; exact writeCell_shape _ _ _ _ _ hx h
        · exact h

theorem simRowWrite_shape (safe : Bool) (d : Option Rec) (j : Nat) (r : Row) (ty : Field → Shape)
    (g : Field) (h : (r g).hasShape (ty g) = true) :
    ((simRowWrite safe d j r).1 g).hasShape (ty g) = true := by
  unfold simRowWrite
  split
  · exact h
  · split
    · exact h
    · split
      · exact h
      · exact writeFields_shape _ _ _ _ _ _ h

theorem ShapeInv.simRows {T : Typing} {h : Hist} (H : ShapeInv T h) (t d j inds) :
    ShapeInv T (simRows t d j inds h).1 := by
  revert H
  apply simRows_rel (fun h h' => ShapeInv T h → ShapeInv T h') (S := inds)
  · exact fun _ h => h
  · exact fun _ _ _ h1 h2 h => h2 (h1 h)
  · intro h j ind r r' e _ hr hw H
    refine H.of_cells rfl ?_
    intro i f x hf hx
    simp only [cell_set] at hx
    split at hx
    · rename_i hc; obtain ⟨rfl, _⟩ := hc
      right
      have := simRowWrite_shape h.safeMode d j r T.ty f (H.cells i f _ hf (by simp [cell, hr]))
      rw [hw] at this
      cases hx
      exact this
    · exact Or.inl hx
  · intro h j ind r r' _ hr hw H
    refine H.of_cells rfl ?_
    intro i f x hf hx
    simp only [cell_set] at hx
    split at hx
    · rename_i hc; obtain ⟨rfl, _⟩ := hc
      right
      have := simRowWrite_shape h.safeMode d j r T.ty f (H.cells i f _ hf (by simp [cell, hr]))
      rw [hw] at this
      cases hx
      exact hasShape_set T _ _ _ _ (by simp [libEFields]) (hasShape_set T _ _ _ _ (by simp [libEFields]) this)
    · exact Or.inl hx
  · exact fun _ h => h

theorem ShapeInv.updAll {T : Typing} {h : Hist} (H : ShapeInv T h) (g : Row → Row) (inds : List Nat)
    (hg : ∀ r f, (r f).hasShape (T.ty f) = true → (g r f).hasShape (T.ty f) = true) :
    ShapeInv T { h with rows := updAll g h.rows inds } := by
  refine ⟨H.cols, ?_⟩
  intro i f x hf hx
  simp only [Verif.History.updAll] at hx
  have hcells : ∀ x, cell h.rows i f = some x → x.hasShape (T.ty f) = true := fun x => H.cells i f x hf
  clear H hf
  generalize h.rows = rows at *
  induction inds generalizing rows with
  | nil => exact hcells x hx
  | cons j js ih =>
    refine ih _ hx ?_
    intro y hy
    unfold cell at hy
    rw [List.getElem?_modify] at hy
    cases hr : rows[i]? with
    | none => simp [hr] at hy
    | some r =>
      by_cases hj : j = i
      · simp [hr, hj] at hy; rw [← hy]; exact hg r f (hcells _ (by simp [cell, hr]))
      · simp [hr, hj] at hy; rw [← hy]; exact hcells _ (by simp [cell, hr])

theorem writeColumn_shape (T : Typing) (c : Field) (rows : List Row) (ps : List (Nat × Row)) (f : Field)
    (hps : ∀ p ∈ ps, (p.2 c).hasShape (T.ty c) = true) (i : Nat)
    (h : ∀ x, cell rows i f = some x → x.hasShape (T.ty f) = true) :
    ∀ x, cell (writeColumn c rows ps) i f = some x → x.hasShape (T.ty f) = true := by
  intro x hx
  by_cases hcf : f = c
  · subst hcf
    by_cases hm : ∃ p ∈ ps, p.1 = i
    · have hl := cell_lt hx
      simp at hl
      obtain ⟨p, hp, _, hv⟩ := cell_writeColumn_mem f rows ps i hl hm
      rw [hv] at hx; cases hx; exact hps p hp
    · have : ∀ p ∈ ps, p.1 ≠ i := fun p hp e => hm ⟨p, hp, e⟩
      unfold cell at hx
      rw [get_writeColumn_not_mem _ _ _ _ this] at hx
      exact h x hx
  · rw [cell_writeColumn_ne _ _ hcf] at hx; exact h x hx

theorem genColumns_shape (T : Typing) (safe : Bool) (ps : List (Nat × Row)) (cs : List (Field × Shape))
    (rows : List Row) (fields : List Field)
    (hps : ∀ p ∈ ps, ∀ c ∈ cs, (p.2 c.1).hasShape (T.ty c.1) = true)
    (h : ∀ i, ∀ f ∈ fields, ∀ x, cell rows i f = some x → x.hasShape (T.ty f) = true) :
    ∀ i, ∀ f ∈ fields, ∀ x, cell (genColumns safe ps cs rows).1 i f = some x → x.hasShape (T.ty f) = true := by
  induction cs generalizing rows with
  | nil => exact h
  | cons c cs ih =>
    unfold genColumns
    split
    · exact h
    · split
      · apply ih
        · intro p hp c' hc'; exact hps p hp c' (List.mem_cons_of_mem _ hc')
        · intro i f hf
          exact writeColumn_shape T c.1 rows ps f (fun p hp => hps p hp c List.mem_cons_self) i (h i f hf)
      · exact h

/-- Typed data for existing rows is accepted by the column loop. -/
theorem genColumns_accept (T : Typing) (safe : Bool) (ps : List (Nat × Row)) (cs : List (Field × Shape))
    (rows : List Row) (hcs : T.cols cs)
    (hps : ∀ p ∈ ps, p.1 < rows.length ∧ ∀ c ∈ cs, (p.2 c.1).hasShape (T.ty c.1) = true)
    (h : ∀ i, ∀ f ∈ cs.map (·.1), ∀ x, cell rows i f = some x → x.hasShape (T.ty f) = true)
    (hprot : safe = true → ∀ c ∈ cs, c.1 ∉ protectedFields) :
    (genColumns safe ps cs rows).2 = none := by
  induction cs generalizing rows with
  | nil => rfl
  | cons c cs ih =>
    unfold genColumns
    split
    · rename_i hp
      simp only [Bool.and_eq_true, decide_eq_true_eq] at hp
      exact absurd hp.2 (hprot hp.1 c List.mem_cons_self)
    · split
      · apply ih
        · intro c' hc'; exact hcs c' (List.mem_cons_of_mem _ hc')
        · intro p hp
          refine ⟨by simpa using (hps p hp).1, fun c' hc' => (hps p hp).2 c' (List.mem_cons_of_mem _ hc')⟩
        · intro i f hf
          apply writeColumn_shape T c.1 rows ps f (fun p hp => (hps p hp).2 c List.mem_cons_self) i
          exact h i f (List.mem_cons_of_mem _ hf)
        · intro hs c' hc'; exact hprot hs c' (List.mem_cons_of_mem _ hc')
      · rename_i hall
        exfalso
        apply hall
        rw [List.all_eq_true]
        intro p hp
        simp only [decide_eq_true_eq]
        have hl := (hps p hp).1
        rw [List.getElem?_eq_getElem hl]
        simp only [Option.map_some, Option.some.injEq]
        rw [hcs c List.mem_cons_self]
        exact h p.1 c.1 (by simp) _ (by simp [cell, List.getElem?_eq_getElem hl])

theorem ShapeInv.genFinish {T : Typing} {h : Hist} (H : ShapeInv T h) (w d ts t inds n)
    (hd : T.typedRec d) : ShapeInv T (genFinish h w d ts t inds n).1 := by
  have hg := genColumns_shape T h.safeMode (inds.zip d.rows) d.cols h.rows h.fields
    (by
      intro p hp c hc
      exact hd.2 p.2 (List.of_mem_zip hp).2 c.1 (List.mem_map.2 ⟨c, hc, rfl⟩))
    (fun i f hf x hx => H.cells i f x hf hx)
  unfold Verif.History.genFinish
  split <;> rename_i heq <;> rw [heq] at hg
  · exact ⟨H.cols, fun i f x hf hx => hg i f hf x hx⟩
  · rename_i rows'
    have H2 : ShapeInv T { h with rows := rows' } := ⟨H.cols, fun i f x hf hx => hg i f hf x hx⟩
    have H3 := H2.updAll (stampRow w ts t) (inds.filter (fun i => decide ((rows'[i]?).map (· .genEndedTime) = some (.s 0))))
      (by
        intro r f hr
        unfold stampRow
        exact hasShape_set T _ _ _ _ (by simp [libEFields])
          (hasShape_set T _ _ _ _ (by simp [libEFields]) (hasShape_set T _ _ _ _ (by simp [libEFields]) hr)))
    exact ⟨H3.cols, H3.cells⟩

theorem numberRows_shape (T : Typing) (rows : List Row) (a n : Nat) (fields : List Field)
    (h : ∀ i, ∀ f ∈ fields, ∀ x, cell rows i f = some x → x.hasShape (T.ty f) = true) :
    ∀ i, ∀ f ∈ fields, ∀ x, cell (numberRows rows a n) i f = some x → x.hasShape (T.ty f) = true := by
  intro i f hf x hx
  by_cases h1 : f = .simId
  · subst h1
    by_cases h2 : a ≤ i ∧ i < a + n
    · have hl := cell_lt hx
      simp at hl
      rw [cell_numberRows_mem _ _ _ _ h2.1 h2.2 hl] at hx
      cases hx
      rw [T.special _ (by simp [libEFields])]; rfl
    · unfold cell at hx
      rw [get_numberRows_lt _ _ _ _ (by omega)] at hx
      exact h i _ hf x hx
  · rw [cell_numberRows_ne _ _ _ _ _ h1] at hx; exact h i f hf x hx

theorem apply_shape {T : Typing} {h : Hist} (H : ShapeInv T h) (op : Op) (hop : T.op op) :
    ShapeInv T (apply h op).1 := by
  cases op with
  | simReturn inds d t k =>
    obtain ⟨e, le, heq, _⟩ := updateF_shape h inds d t k
    simp only [apply]
    rw [heq]
    have H1 : ShapeInv T (preSim h d) := by
      cases d with
      | none => exact H
      | some d => exact H.extend d.cols hop
    have H2 := H1.simRows t d 0 inds
    exact ⟨H2.cols, H2.cells⟩
  | giveSim inds w t k =>
    have H2 := H.updAll (fun r => ((r.set .simStarted (.s 1)).set .simStartedTime (.s t)).set
          .simWorker (.s w)) inds (by
        intro r f hr
        exact hasShape_set T _ _ _ _ (by simp [libEFields])
          (hasShape_set T _ _ _ _ (by simp [libEFields]) (hasShape_set T _ _ _ _ (by simp [libEFields]) hr)))
    simp only [apply]
    unfold updateXOut
    split
    · exact H
    · simp only
      split
      · split
        · exact ⟨H2.cols, H2.cells⟩
        · exact ⟨H2.cols, H2.cells⟩
      · exact ⟨H2.cols, H2.cells⟩
  | giveGen inds t =>
    simp only [apply]
    unfold updateToGen
    split
    · exact H
    · split
      · exact H
      · simp only
        have step : ∀ l, ShapeInv T { h with rows := Verif.History.updAll (·.set .genInformed (.s 1)) h.rows l } :=
          fun l => H.updAll (·.set .genInformed (.s 1)) l (fun r f hr => hasShape_set T _ _ _ _ (by simp [libEFields]) hr)
        have fin : ∀ rows, ShapeInv T { h with rows := rows } →
            ShapeInv T { h with rows := Verif.History.updAll (·.set .genInformedTime (.s t)) rows inds } :=
          fun rows H2 => H2.updAll (·.set .genInformedTime (.s t)) inds
            (fun r f hr => hasShape_set T _ _ _ _ (by simp [libEFields]) hr)
        split
        · have := fin _ (step inds); exact ⟨this.cols, this.cells⟩
        · split
          · have := fin _ (step (inds.filter (fun i => ((h.rows[i]?).map (·.flag .simEnded)).getD false)))
            exact ⟨this.cols, this.cells⟩
          · have := fin _ H; exact ⟨this.cols, this.cells⟩
  | genReturn w d ts t =>
    simp only [apply]
    cases hne : d.rows.isEmpty with
    | true => unfold updateXIn; simpa [hne] using H
    | false =>
      have H1 := H.extend d.cols hop.1
      rcases updateXIn_cases h w d ts t hne with ⟨_, h3, hh3, heq⟩ | ⟨_, heq⟩ | ⟨_, n, heq⟩ | ⟨_, n, inds, _, heq⟩
      · rw [heq]
        apply ShapeInv.genFinish _ _ _ _ _ _ _ hop
        rw [hh3]
        have H2 := H1.ensure d.rows.length
        exact ⟨H2.cols, fun i f x hf hx => numberRows_shape T _ _ _ _ (fun i f hf x hx => H2.cells i f x hf hx) i f hf x hx⟩
      · rw [heq]; exact H1
      · rw [heq]; exact H1.ensure n
      · rw [heq]; exact (H1.ensure n).genFinish _ _ _ _ _ _ hop
  | requestCancel inds =>
    have := H.updAll (·.set .cancelRequested (.s 1)) inds
      (fun r f hr => hasShape_set T _ _ _ _ (by simp [libEFields]) hr)
    exact this
  | markKill inds =>
    have := H.updAll (·.set .killSent (.s 1)) inds
      (fun r f hr => hasShape_set T _ _ _ _ (by simp [libEFields]) hr)
    exact this

theorem run_shape {T : Typing} {h : Hist} (H : ShapeInv T h) (ops : List Op) (hops : ∀ op ∈ ops, T.op op) :
    ShapeInv T (run h ops).1 := by
  induction ops generalizing h with
  | nil => exact H
  | cons op ops ih =>
    have ha := apply_shape H op (hops op List.mem_cons_self)
    unfold run
    split
    · rename_i heq; rw [heq] at ha; exact ha
    · rename_i heq; rw [heq] at ha; exact ih ha (fun o ho => hops o (List.mem_cons_of_mem _ ho))

theorem extend_has (h : Hist) (cs : List (Field × Shape)) : ∀ f ∈ cs.map (·.1), f ∈ (extendCols h cs).fields := by
  intro f hf
  unfold extendCols
  by_cases h1 : f ∈ h.fields
  · split
    · exact h1
    · unfold appendNewFields Hist.fields at *; simp only [List.map_append, List.mem_append]; exact Or.inl h1
  · obtain ⟨c, hc, e⟩ := List.mem_map.1 hf
    have hmem : c ∈ newCols h.cols cs := by
      unfold newCols; rw [List.mem_filter]; refine ⟨hc, ?_⟩; rw [e]; exact decide_eq_true h1
    split
    · rename_i hemp; rw [List.isEmpty_iff] at hemp; rw [hemp] at hmem; simp at hmem
    · unfold appendNewFields Hist.fields
      simp only [List.map_append, List.mem_append]
      right
      rw [List.mem_map]; exact ⟨c, hmem, e⟩

theorem resolve_lt {n : Nat} {x : Int} {i : Nat} (h : resolve n x = some i) : i < n := by
  unfold resolve at h
  split at h <;> split at h <;> simp at h <;> omega

theorem resolveAll_lt (n : Nat) (ids : List Int) (inds : List Nat) (h : resolveAll n ids = some inds) :
    ∀ i ∈ inds, i < n := by
  unfold resolveAll at h
  induction ids generalizing inds with
  | nil => simp at h; subst h; simp
  | cons x xs ih =>
    simp only [List.mapM_cons, Option.bind_eq_bind, Option.bind_eq_some_iff] at h
    obtain ⟨i, hi, is, his, he⟩ := h
    simp at he
    subst he
    intro j hj
    rcases List.mem_cons.1 hj with rfl | hj
    · exact resolve_lt hi
    · exact ih is his j hj

/-- A typed generator return is only ever refused because of a gap in its `sim_id`s. -/
theorem genReturn_accept {T : Typing} {h : Hist} (H : ShapeInv T h) (HI : IdInv h) (w d ts t)
    (hd : T.typedRec d) (hs : IdSafe (.genReturn w d ts t))
    (hprot : h.safeMode = true → ∀ f ∈ d.fields, f ∉ protectedFields) :
    (updateXIn h w d ts t).2 = none ∨
    ((updateXIn h w d ts t).2 = some .gap ∧ Field.simId ∈ d.fields) := by
  cases hne : d.rows.isEmpty with
  | true => left; unfold updateXIn; simp [hne]
  | false =>
    have H1 := H.extend d.cols hd.1
    have hacc : ∀ h3 : Hist, ShapeInv T h3 → h3.safeMode = h.safeMode → (∀ f ∈ d.fields, f ∈ h3.fields) → ∀ inds n,
        (∀ i ∈ inds, i < h3.rows.length) → (genFinish h3 w d ts t inds n).2 = none := by
      intro h3 H3 hs3 hf3 inds n hinds
      have := genColumns_accept T h3.safeMode (inds.zip d.rows) d.cols h3.rows hd.1
        (by
          intro p hp
          refine ⟨hinds _ (List.of_mem_zip hp).1, ?_⟩
          intro c hc
          exact hd.2 p.2 (List.of_mem_zip hp).2 c.1 (List.mem_map.2 ⟨c, hc, rfl⟩))
        (fun i f hf x hx => H3.cells i f x (hf3 f hf) hx)
        (by
          intro hsf c hc
          exact hprot (hs3 ▸ hsf) c.1 (List.mem_map.2 ⟨c, hc, rfl⟩))
      unfold genFinish
      split
      · rename_i heq; rw [heq] at this; simp at this
      · rfl
    have hnoidx := (apply_genReturn_id HI w d ts t hs).2.2
    rcases updateXIn_cases h w d ts t hne with ⟨_, h3, hh3, heq⟩ | ⟨hin, heq⟩ | ⟨_, n, heq⟩ | ⟨_, n, inds, hres, heq⟩
    · left
      rw [heq]
      have H2 := H1.ensure d.rows.length
      have hroom := ensureRoom_room (extendCols h d.cols) d.rows.length (by simpa using HI.room)
      apply hacc
      · rw [hh3]
        exact ⟨H2.cols, fun i f x hf hx => numberRows_shape T _ _ _ _ (fun i f hf x hx => H2.cells i f x hf hx) i f hf x hx⟩
      · rw [hh3]; simp
      · intro f hf
        have := extend_has h d.cols f hf
        rw [← fields_ensureRoom _ d.rows.length] at this
        rw [hh3]; exact this
      · intro i hi
        rw [List.mem_range'_1] at hi
        rw [hh3]; simp at hroom ⊢; omega
    · right; rw [heq]; exact ⟨rfl, hin⟩
    · rw [heq] at hnoidx; exact absurd rfl hnoidx
    · left
      rw [heq]
      apply hacc _ (H1.ensure n) (by simp)
      · intro f hf; simpa using extend_has h d.cols f hf
      · exact resolveAll_lt _ _ _ hres

end Verif.History
