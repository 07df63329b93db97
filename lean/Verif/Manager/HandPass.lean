import Verif.Manager.Informed
/-
What changes while the orders of one answer are handed out, for `only_persistent_gens`.
-/
namespace Verif.Manager
open Verif.History Verif.Res Verif.Sched Verif.Alloc

variable {sp : Specs} {P : St → Reply → Prop} {s0 : St}

/-- Number of orders that start a generator: orders for a generator to a worker at which none runs. -/
def genStarts : List Ev → Nat
  | [] => 0
  | e :: tr => (match e with
    | .order to _ wk => if wk.tag = EVAL_GEN ∧ (view to tr).persis ≠ EVAL_GEN then 1 else 0
    | _ => 0) + genStarts tr

def Ev.isOrder : Ev → Bool
  | .order .. => true
  | _ => false

theorem genStarts_skip {l : List Ev} (tr : List Ev) (h : ∀ e ∈ l, e.isOrder = false) : genStarts (l ++ tr) = genStarts tr := by
  induction l with
  | nil => rfl
  | cons e l ih =>
    have h1 := h e List.mem_cons_self
    have h2 := ih (fun e he => h e (List.mem_cons_of_mem _ he))
    cases e <;> first | exact (Nat.zero_add _).trans h2 | simp [Ev.isOrder] at h1

theorem Micros.genStarts {Q : Ev → Prop} {a b : St} (h : Micros sp Q a b) (hq : ∀ e, Q e → e.isOrder = false) :
    Manager.genStarts b.tr = Manager.genStarts a.tr := by
  obtain ⟨l, hl, hle⟩ := h.tr
  rw [hl, genStarts_skip _ (fun e he => hq e (hle e he))]

/-- In the table: the order starts a generator. -/
def isStart (W : List Wrk) (e : Nat × Work) : Bool :=
  decide (e.2.tag = EVAL_GEN) && W.all fun k => decide (k.id = e.1 → k.persis ≠ EVAL_GEN)

theorem isStart_iff {W : List Wrk} {e : Nat × Work} : isStart W e = (decide (e.2.tag = EVAL_GEN) && !(returning W e)) := by
  simp only [isStart, returning]
  by_cases h : e.2.tag = EVAL_GEN
  · simp only [h, decide_true, Bool.true_and]
    rw [Bool.eq_iff_iff, List.all_eq_true, Bool.not_eq_true', List.any_eq_false]
    refine forall_congr' fun k => forall_congr' fun _ => ?_
    by_cases h1 : k.id = e.1 <;> simp [h1]
  · simp [h]

theorem countP_modify {α : Type} (p : α → Bool) (f : α → α) : ∀ (l : List α) (k : Nat) (x : α), l[k]? = some x →
    (l.modify k f).countP p + (if p x then 1 else 0) = l.countP p + (if p (f x) then 1 else 0) := by
  intro l
  induction l with
  | nil => intro k x h; simp at h
  | cons a l ih =>
    intro k x h
    cases k with
    | zero =>
      simp only [List.getElem?_cons_zero, Option.some.injEq] at h
      subst h
      simp only [List.modify_zero_cons, List.countP_cons]
      omega
    | succ k =>
      simp only [List.getElem?_cons_succ] at h
      have := ih k x h
      simp only [List.modify_succ_cons, List.countP_cons]
      omega

/-- Number of generators that run, in the table. -/
def gensIn (W : List Wrk) : Nat := W.countP fun k => decide (k.persis = EVAL_GEN)

/-- State `s` after handing out the orders `done`, beginning in `sA`. -/
structure Handed (sp : Specs) (sA s : St) (done : List (Nat × Work)) : Prop where
  cells : ∀ f, f ∉ giveFields → ∀ i, cell s.hist.rows i f = cell sA.hist.rows i f
  index : s.hist.index = sA.hist.index
  len : s.hist.rows.length = sA.hist.rows.length
  started : ∀ i, i ∉ workRows done → cell s.hist.rows i .simStarted = cell sA.hist.rows i .simStarted
  informed : ∀ i, cell s.hist.rows i .genInformed = cell sA.hist.rows i .genInformed ∨ cell s.hist.rows i .genInformed = some (.s 1)
  wlen : s.W.length = sA.W.length
  W : ∀ k x, sA.W[k]? = some x → idAt sp k ∉ done.map (·.1) → s.W[k]? = some x
  count : gensIn s.W = gensIn sA.W + done.countP (isStart sA.W)
  starts : genStarts s.tr = genStarts sA.tr + done.countP (isStart sA.W)

theorem Handed.refl (s : St) : Handed sp s s [] :=
  ⟨fun _ _ _ => rfl, rfl, rfl, fun _ _ => rfl, fun _ => .inl rfl, rfl, fun _ _ h _ => h, by simp, by simp⟩

theorem give_struct (h : Hist) {o : Op} (ho : (∃ r w t k, o = .giveSim r w t k) ∨ ∃ r t, o = .giveGen r t) :
    (apply h o).1.index = h.index ∧ (apply h o).1.rows.length = h.rows.length := by
  have hu : ∀ (f : Row → Row) (l : List Row) (is : List Nat), (updAll f l is).length = l.length := by
    intro f l is
    induction is generalizing l with
    | nil => rfl
    | cons i is ih => simp only [updAll, List.foldl_cons] at ih ⊢; rw [ih]; simp
  rcases ho with ⟨inds, w, t, k, rfl⟩ | ⟨inds, t, rfl⟩
  · simp only [apply]
    unfold updateXOut
    split
    · exact ⟨rfl, rfl⟩
    · simp only
      split
      · split <;> exact ⟨rfl, hu _ _ _⟩
      · exact ⟨rfl, hu _ _ _⟩
  · simp only [apply]
    unfold updateToGen
    split
    · exact ⟨rfl, rfl⟩
    · split
      · exact ⟨rfl, rfl⟩
      · refine ⟨rfl, ?_⟩
        simp only
        rw [hu]
        split
        · exact hu _ _ _
        · split
          · exact hu _ _ _
          · rfl

theorem cell_updAll_other (g : Row → Row) (f : Field) (rows : List Row) (inds : List Nat) (i : Nat) (hi : i ∉ inds) :
    cell (updAll g rows inds) i f = cell rows i f := by
  induction inds generalizing rows with
  | nil => rfl
  | cons j js ih =>
    simp only [List.mem_cons, not_or] at hi
    simp only [updAll, List.foldl_cons]
    have := ih (rows.modify j g) hi.2
    simp only [updAll] at this
    rw [this]
    simp only [cell, List.getElem?_modify, if_neg (Ne.symm hi.1)]
    cases rows[i]? <;> rfl

theorem giveSim_started (h : Hist) (rows : List Nat) (w : Nat) (t : Int) (k : Bool) {i : Nat} (hi : i ∉ rows) :
    cell (apply h (.giveSim rows w t k)).1.rows i .simStarted = cell h.rows i .simStarted := by
  simp only [apply]
  unfold updateXOut
  split
  · rfl
  · simp only
    split
    · split <;> exact cell_updAll_other _ _ _ _ _ hi
    · exact cell_updAll_other _ _ _ _ _ hi

theorem giveGen_started (h : Hist) (rows : List Nat) (t : Int) (i : Nat) :
    cell (apply h (.giveGen rows t)).1.rows i .simStarted = cell h.rows i .simStarted := by
  simp only [apply]
  unfold updateToGen
  split
  · rfl
  · split
    · rfl
    · simp only
      rw [cell_updAll_frame _ _ (by intro r; simp [Row.set])]
      split
      · rw [cell_updAll_frame _ _ (by intro r; simp [Row.set])]
      · split
        · rw [cell_updAll_frame _ _ (by intro r; simp [Row.set])]
        · rfl

theorem giveSim_informed (h : Hist) (rows : List Nat) (w : Nat) (t : Int) (k : Bool) (i : Nat) :
    cell (apply h (.giveSim rows w t k)).1.rows i .genInformed = cell h.rows i .genInformed := by
  simp only [apply]
  unfold updateXOut
  split
  · rfl
  · simp only
    split
    · split <;> exact cell_updAll_frame _ _ (by intro r; simp [Row.set]) _ _ _
    · exact cell_updAll_frame _ _ (by intro r; simp [Row.set]) _ _ _

theorem giveGen_informed (h : Hist) (rows : List Nat) (t : Int) (i : Nat) :
    cell (apply h (.giveGen rows t)).1.rows i .genInformed = cell h.rows i .genInformed ∨
    cell (apply h (.giveGen rows t)).1.rows i .genInformed = some (.s 1) := by
  have key : ∀ inds : List Nat, cell (updAll (·.set .genInformed (.s 1)) h.rows inds) i .genInformed = cell h.rows i .genInformed ∨
      cell (updAll (·.set .genInformed (.s 1)) h.rows inds) i .genInformed = some (.s 1) := by
    intro inds
    by_cases hi : i ∈ inds
    · by_cases hl : i < h.rows.length
      · exact .inr (get_updAll_const _ _ _ (by intro r; simp [Row.set]) _ _ _ hl hi)
      · left
        have hu : ∀ (f : Row → Row) (l : List Row) (is : List Nat), (updAll f l is).length = l.length := by
          intro f l is
          induction is generalizing l with
          | nil => rfl
          | cons i is ih => simp only [updAll, List.foldl_cons] at ih ⊢; rw [ih]; simp
        simp only [cell]
        rw [List.getElem?_eq_none (by rw [hu]; omega), List.getElem?_eq_none (by omega)]
    · exact .inl (cell_updAll_other _ _ _ _ _ hi)
  simp only [apply]
  unfold updateToGen
  split
  · exact .inl rfl
  · split
    · exact .inl rfl
    · simp only
      rw [cell_updAll_frame _ _ (by intro r; simp [Row.set])]
      split
      · exact key _
      · split
        · exact key _
        · exact .inl rfl

theorem genStarts_gave {a b : St} {w k : Nat} {t : Int} {wk wk' : Work} {l0 l : List Ev} (hG : Gave sp a b w k t wk wk' l0 l)
    (hv : VI sp a) (hw : w ∈ ids a) : genStarts b.tr = genStarts a.tr + (if isStart a.W (w, wk) then 1 else 0) := by
  have hl0 : ∀ e ∈ l0, e.isOrder = false := by
    rcases hG.before with h | ⟨team, h, _⟩ <;> rw [h] <;> simp [Ev.isOrder]
  have hl : ∀ e ∈ l, e.isOrder = false := by
    rw [hG.after]; split <;> simp [Ev.isOrder]
  have hop : genStarts b.tr = genStarts (.order (idAt sp k) w wk' :: (l0 ++ a.tr)) := by
    rw [hG.tr]
    refine (genStarts_skip _ ?_).trans (genStarts_skip _ hl)
    cases orderOp sp wk w t <;> simp [Ev.isOrder]
  have ht : wk'.tag = wk.tag := by rw [hG.order]
  have hid : idAt sp k = w := wPos_ids hv.tab hw hG.pos
  have hk : k < a.W.length := wPos_lt hG.pos
  have hx : a.W[k]? = some a.W[k] := List.getElem?_eq_getElem hk
  have hview : view (idAt sp k) (l0 ++ a.tr) = view (idAt sp k) a.tr := by
    apply view_neutral
    rcases hG.before with h | ⟨team, h, _⟩ <;> rw [h] <;> simp [neutral]
  have h1 := any_persis hv hx
  rw [hid] at h1
  have h4 : returning a.W (w, wk) = (decide (wk.tag = EVAL_GEN) && decide (a.W[k].persis = EVAL_GEN)) := by
    simp only [returning, h1]
  rw [hop, genStarts, genStarts_skip _ hl0]
  simp only [hview, (hv.agree k _ hx).persis, ht, isStart_iff, h4]
  by_cases h2 : wk.tag = EVAL_GEN <;> by_cases h3 : a.W[k].persis = EVAL_GEN <;> simp [h2, h3] <;> omega

/-- One more order. -/
theorem Handed.give {sA a b : St} {done : List (Nat × Work)} {w k : Nat} {t : Int} {wk wk' : Work} {l0 l : List Ev}
    (h : Handed sp sA a done) (hG : Gave sp a b w k t wk wk' l0 l) (hv : VI sp a) (hvA : VI sp sA) (hw : w ∈ ids a) (hnew : w ∉ done.map (·.1))
    (htag : wk.tag = EVAL_SIM ∨ (wk.tag = EVAL_GEN ∧ wk.persistent = true))
    (hsim : wk.tag = EVAL_SIM → ∀ x ∈ sA.W, x.id = w → x.persis ≠ EVAL_GEN) : Handed sp sA b (done ++ [(w, wk)]) := by
  have hid : idAt sp k = w := wPos_ids hv.tab hw hG.pos
  have hk : k < a.W.length := wPos_lt hG.pos
  have hkA : k < sA.W.length := by rw [← h.wlen]; exact hk
  have hxA : sA.W[k]? = some sA.W[k] := List.getElem?_eq_getElem hkA
  have hx : a.W[k]? = some sA.W[k] := h.W k _ hxA (by rw [hid]; exact hnew)
  obtain ⟨g, hg, hW⟩ := hG.W
  have hgp : ∀ x, (giveEntry wk (g x)).persis = if wk.persistent then wk.tag else x.persis := by
    intro x
    rcases hg with rfl | ⟨t, rfl⟩ <;> (simp only [giveEntry]; split <;> rfl)
  have hisA : isStart sA.W (w, wk) = (decide (wk.tag = EVAL_GEN) && !decide (sA.W[k].persis = EVAL_GEN)) := by
    have h1 := any_persis hvA hxA
    rw [hid] at h1
    rw [isStart_iff, returning, h1]
    by_cases h2 : wk.tag = EVAL_GEN <;> simp [h2]
  have hisa : isStart a.W (w, wk) = isStart sA.W (w, wk) := by
    have h1 := any_persis hv hx
    rw [hid] at h1
    rw [hisA, isStart_iff, returning, h1]
    by_cases h2 : wk.tag = EVAL_GEN <;> simp [h2]
  have hcnt : gensIn b.W + (if sA.W[k].persis = EVAL_GEN then 1 else 0) =
      gensIn a.W + (if (if wk.persistent then wk.tag else sA.W[k].persis) = EVAL_GEN then 1 else 0) := by
    have := countP_modify (fun x : Wrk => decide (x.persis = EVAL_GEN)) (fun x => giveEntry wk (g x)) a.W k _ hx
    simp only [gensIn]
    rw [hW]
    simp only [decide_eq_true_eq, hgp] at this
    exact this
  have hop : ∀ o, orderOp sp wk w t = some o → b.hist = (apply a.hist o).1 := by
    intro o ho; have := hG.hist; rw [ho] at this; exact this
  have hno : orderOp sp wk w t = none → b.hist = a.hist := by
    intro ho; have := hG.hist; rw [ho] at this; exact this
  refine ⟨?_, ?_, ?_, ?_, ?_, ?_, ?_, ?_, ?_⟩
  · intro f hf i; rw [hG.cell hf]; exact h.cells f hf i
  · cases ho : orderOp sp wk w t with
    | none => rw [hno ho]; exact h.index
    | some o => rw [hop o ho, (give_struct _ (orderOp_give ho)).1]; exact h.index
  · cases ho : orderOp sp wk w t with
    | none => rw [hno ho]; exact h.len
    | some o => rw [hop o ho, (give_struct _ (orderOp_give ho)).2]; exact h.len
  · intro i hi
    rw [workRows_append, List.mem_append, not_or] at hi
    rcases htag with ht | ⟨ht, _⟩
    · have ho : orderOp sp wk w t = some (.giveSim wk.rows w t sp.kill) := by simp [orderOp, ht]
      rw [hop _ ho, giveSim_started]
      · exact h.started i hi.1
      · have := hi.2; simp [workRows, ht] at this; exact this
    · have ho : orderOp sp wk w t = some (.giveGen wk.rows t) := by simp [orderOp, ht, EVAL_GEN, EVAL_SIM]
      rw [hop _ ho, giveGen_started]
      exact h.started i hi.1
  · intro i
    rcases htag with ht | ⟨ht, _⟩
    · have ho : orderOp sp wk w t = some (.giveSim wk.rows w t sp.kill) := by simp [orderOp, ht]
      rw [hop _ ho, giveSim_informed]
      exact h.informed i
    · have ho : orderOp sp wk w t = some (.giveGen wk.rows t) := by simp [orderOp, ht, EVAL_GEN, EVAL_SIM]
      rw [hop _ ho]
      rcases giveGen_informed a.hist wk.rows t i with h1 | h1
      · rw [h1]; exact h.informed i
      · exact .inr h1
  · rw [hW, List.length_modify]; exact h.wlen
  · intro j x hj hn
    simp only [List.map_append, List.map_cons, List.map_nil, List.mem_append, List.mem_singleton, not_or] at hn
    rw [hW, getElem?_modify', if_neg (by rintro rfl; exact hn.2 hid)]
    exact h.W j x hj hn.1
  · rw [List.countP_append, ← Nat.add_assoc, ← h.count]
    simp only [List.countP_singleton, hisA]
    rcases htag with ht | ⟨ht, hp⟩
    · have h3 : ¬ sA.W[k].persis = EVAL_GEN := hsim ht _ (List.getElem_mem hkA) (by rw [id_at hvA.tab hxA, hid])
      have h5 : ¬ (EVAL_SIM = EVAL_GEN) := by decide
      rw [if_neg h3] at hcnt
      rw [ht] at hcnt ⊢
      have h4 : ¬ (if wk.persistent = true then EVAL_SIM else sA.W[k].persis) = EVAL_GEN := by split <;> assumption
      rw [if_neg h4] at hcnt
      simp only [h5, decide_false, Bool.false_and, Bool.false_eq_true, if_false]
      omega
    · rw [if_pos hp, if_pos ht] at hcnt
      by_cases h3 : sA.W[k].persis = EVAL_GEN
      · rw [if_pos h3] at hcnt
        simp [h3]; omega
      · rw [if_neg h3] at hcnt
        simp [h3, ht]; omega
  · rw [genStarts_gave hG hv hw, h.starts, List.countP_append, List.countP_singleton, hisa]
    omega

end Verif.Manager
