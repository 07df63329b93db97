import Verif.Manager.Once
/-
Evaluated rows that are returned to running generators: each row at most once during the whole run.
-/
namespace Verif.Manager
open Verif.History Verif.Res Verif.Sched Verif.Alloc

variable {sp : Specs} {P : St → Reply → Prop} {s0 : St}

/-! ### The rows returned -/

/-- Rows that the event returns, when `pre` has happened before: the array that follows an order goes to a generator that runs
already, or it is the array with the remaining results that is sent at the end of the run. -/
def backOf (pre : List Ev) : Ev → List Nat
  | .rows _ idx _ =>
    match pre with
    | .order to _ wk :: old =>
      if (wk.tag = EVAL_GEN ∧ (view to old).persis = EVAL_GEN) ∨ wk.tag = PERSIS_STOP then idx else []
    | _ => []
  | _ => []

/-- All rows returned to running generators. -/
def givenBack : List Ev → List Nat
  | [] => []
  | e :: tr => backOf tr e ++ givenBack tr

def Ev.isRows : Ev → Bool
  | .rows .. => true
  | _ => false

theorem backOf_nil {e : Ev} (pre : List Ev) (h : e.isRows = false) : backOf pre e = [] := by
  cases e <;> first | rfl | simp [Ev.isRows] at h

theorem givenBack_skip {l : List Ev} (tr : List Ev) (h : ∀ e ∈ l, e.isRows = false) : givenBack (l ++ tr) = givenBack tr := by
  induction l with
  | nil => rfl
  | cons e l ih =>
    rw [List.cons_append, givenBack, backOf_nil _ (h e List.mem_cons_self), ih (fun e he => h e (List.mem_cons_of_mem _ he))]; rfl

theorem Micros.givenBack {Q : Ev → Prop} {a b : St} (h : Micros sp Q a b) (hq : ∀ e, Q e → e.isRows = false) :
    Manager.givenBack b.tr = Manager.givenBack a.tr := by
  obtain ⟨l, hl, hle⟩ := h.tr
  rw [hl, givenBack_skip _ (fun e he => hq e (hle e he))]

theorem givenBack_kill (s : St) : givenBack (killCancelled sp s).1.tr = givenBack s.tr :=
  (micros_killCancelled s).givenBack (fun e h => by cases h <;> rfl)

theorem givenBack_msg (s : St) (w : Nat) (m : Msg) (t : Int) : givenBack (handleMsg sp s w m t).1.tr = givenBack s.tr :=
  (micros_handleMsg s w m t).givenBack (fun e h => by cases h <;> rfl)

theorem givenBack_save (s : St) (b : Bool) : givenBack (saveK sp s b).tr = givenBack s.tr :=
  (micros_saveK (Q := fun _ => False) s b).givenBack (fun e h => h.elim)

theorem givenBack_finish (s : St) : givenBack (killWorkers s).tr = givenBack s.tr :=
  (micros_killWorkers (sp := {}) s).givenBack (fun e h => by obtain ⟨w, rfl⟩ := h; rfl)

/-! ### The rows to be returned by the orders at hand -/

/-- The order goes to a generator that runs. -/
def returning (W : List Wrk) (e : Nat × Work) : Bool :=
  decide (e.2.tag = EVAL_GEN) && W.any fun k => decide (k.id = e.1) && decide (k.persis = EVAL_GEN)

def retRows (W : List Wrk) (e : Nat × Work) : List Nat := if returning W e then e.2.rows else []

def pairs (rest : List (Nat × Work × Int)) : List (Nat × Work) := rest.map fun q => (q.1, q.2.1)

theorem pairs_map (work : List (Nat × Work)) (t : Nat → Int) : pairs (work.map fun q => (q.1, q.2, t q.1)) = work := by
  have h : ((fun q : Nat × Work × Int => (q.1, q.2.1)) ∘ fun q : Nat × Work => (q.1, q.2, t q.1)) = id := rfl
  simp only [pairs, List.map_map, h, List.map_id]

def handBack (W : List Wrk) : Ph → List Nat
  | .hand rest => (pairs rest).flatMap (retRows W)
  | _ => []

theorem handBack_cons (W : List Wrk) (w : Nat) (wk : Work) (t : Int) (rest : List (Nat × Work × Int)) :
    handBack W (.hand ((w, wk, t) :: rest)) = retRows W (w, wk) ++ handBack W (.hand rest) := rfl

/-- The point in row `i` is evaluated. -/
def RowEnded (h : Hist) (i : Nat) : Prop := ∃ r, h.rows[i]? = some r ∧ r.flag .simEnded = true

theorem rowEnded_iff {h : Hist} {i : Nat} : RowEnded h i ↔ ∃ v, cell h.rows i .simEnded = some v ∧ v ≠ .s 0 := by
  simp only [RowEnded, cell]
  cases h.rows[i]? with
  | none => simp
  | some r => simp [Row.flag]

/-- What is needed of the orders at hand. -/
structure BackOk (s : St) (work : List (Nat × Work)) : Prop where
  keys : (work.map (·.1)).Nodup
  ids : ∀ e ∈ work, e.1 ∈ ids s
  tags : ∀ e ∈ work, e.2.tag = EVAL_SIM ∨ (e.2.tag = EVAL_GEN ∧ (e.2.persistent = true ∨ e.2.activeRecv = none))
  ended : ∀ i ∈ work.flatMap (retRows s.W), RowEnded s.hist i

/-- The answer returns rows that were not returned before, none twice. -/
structure Frugal (s : St) (work : List (Nat × Work)) : Prop extends BackOk s work where
  once : (work.flatMap (retRows s.W)).Nodup
  fresh : ∀ i ∈ work.flatMap (retRows s.W), cell s.hist.rows i .genInformed ≠ some (.s 1)

theorem wPos_ids {s : St} (ht : Tab sp s) {w k : Nat} (hw : w ∈ ids s) (hk : wPos sp.gom s.W.length w = some k) : idAt sp k = w := by
  obtain ⟨j, hj, rfl⟩ := (mem_ids ht).mp hw
  rw [wPos_idAt hj] at hk
  injection hk with hk
  rw [hk]

/-- In the table: the worker runs a generator. -/
theorem any_persis {s : St} (hv : VI sp s) {k : Nat} {x : Wrk} (hx : s.W[k]? = some x) :
    (s.W.any fun y => decide (y.id = idAt sp k) && decide (y.persis = EVAL_GEN)) = decide (x.persis = EVAL_GEN) := by
  rw [Bool.eq_iff_iff, List.any_eq_true, decide_eq_true_eq]
  constructor
  · rintro ⟨y, hy, h1⟩
    simp only [Bool.and_eq_true, decide_eq_true_eq] at h1
    obtain ⟨j, hj, hyj⟩ := List.getElem_of_mem hy
    have hyj' : s.W[j]? = some y := List.getElem?_eq_some_iff.mpr ⟨hj, hyj⟩
    have h2 := id_at hv.tab hyj'
    rw [h1.1] at h2
    have := idAt_inj h2
    subst this
    rw [hx] at hyj'
    injection hyj' with h3
    rw [h3]; exact h1.2
  · intro h
    exact ⟨x, List.mem_of_getElem? hx, by simp [id_at hv.tab hx, h]⟩

/-- Orders to other workers do not change where an order goes. -/
theorem returning_modify {s : St} (hv : VI sp s) {k : Nat} {f : Wrk → Wrk} (hf : ∀ x, (f x).id = x.id) {e : Nat × Work}
    (he : e.1 ≠ idAt sp k) : returning (s.W.modify k f) e = returning s.W e := by
  simp only [returning]
  congr 1
  rw [Bool.eq_iff_iff, List.any_eq_true, List.any_eq_true]
  constructor
  · rintro ⟨y, hy, h⟩
    obtain ⟨j, hj, hyj⟩ := List.getElem_of_mem hy
    have hyj' : (s.W.modify k f)[j]? = some y := List.getElem?_eq_some_iff.mpr ⟨hj, hyj⟩
    rw [getElem?_modify'] at hyj'
    split at hyj'
    · rename_i hkj; subst hkj
      cases hx : s.W[k]? with
      | none => simp [hx] at hyj'
      | some x =>
        simp only [hx, Option.map_some, Option.some.injEq] at hyj'
        simp only [Bool.and_eq_true, decide_eq_true_eq] at h
        rw [← hyj', hf, id_at hv.tab hx] at h
        exact absurd h.1.symm he
    · exact ⟨y, List.mem_of_getElem? hyj', h⟩
  · rintro ⟨y, hy, h⟩
    obtain ⟨j, hj, hyj⟩ := List.getElem_of_mem hy
    have hyj' : s.W[j]? = some y := List.getElem?_eq_some_iff.mpr ⟨hj, hyj⟩
    refine ⟨y, ?_, h⟩
    refine List.mem_of_getElem? (i := j) ?_
    rw [getElem?_modify']
    split
    · rename_i hkj; subst hkj
      simp only [Bool.and_eq_true, decide_eq_true_eq] at h
      rw [id_at hv.tab hyj'] at h
      exact absurd h.1.symm he
    · exact hyj'

/-! ### What sending an order returns -/

theorem backOf_rows {s : St} (hv : VI sp s) {w k : Nat} {wk wk' : Work} {l0 : List Ev} (hw : w ∈ ids s)
    (hpos : wPos sp.gom s.W.length w = some k) (hwk : wk' = { wk with team := wk'.team })
    (hbef : l0 = [] ∨ ∃ team, l0 = [.assign w team] ∧ wk'.team = some team) (hst : wk.tag ≠ PERSIS_STOP) (vals : List Row) :
    backOf (.order (idAt sp k) w wk' :: (l0 ++ s.tr)) (.rows (idAt sp k) wk.rows vals) = retRows s.W (w, wk) := by
  have ht : wk'.tag = wk.tag := by rw [hwk]
  have hid : idAt sp k = w := wPos_ids hv.tab hw hpos
  have hk : k < s.W.length := wPos_lt hpos
  have hx : s.W[k]? = some s.W[k] := List.getElem?_eq_getElem hk
  have hview : view (idAt sp k) (l0 ++ s.tr) = view (idAt sp k) s.tr := by
    apply view_neutral
    rcases hbef with h | ⟨team, h, _⟩ <;> rw [h] <;> simp [neutral]
  have h1 := any_persis hv hx
  rw [hid] at h1
  have h4 : returning s.W (w, wk) = (decide (wk.tag = EVAL_GEN) && decide (s.W[k].persis = EVAL_GEN)) := by
    simp only [returning, h1]
  simp only [backOf, ht, hview, (hv.agree k _ hx).persis, hst, or_false, retRows, h4]
  by_cases h2 : wk.tag = EVAL_GEN <;> by_cases h3 : s.W[k].persis = EVAL_GEN <;> simp [h2, h3]

theorem givenBack_gave {a b : St} {w k : Nat} {t : Int} {wk wk' : Work} {l0 l : List Ev} (hG : Gave sp a b w k t wk wk' l0 l)
    (hv : VI sp a) (hw : w ∈ ids a) (hst : wk.tag ≠ PERSIS_STOP) : givenBack b.tr = retRows a.W (w, wk) ++ givenBack a.tr := by
  have hl0 : ∀ e ∈ l0, e.isRows = false := by
    rcases hG.before with h | ⟨team, h, _⟩ <;> rw [h] <;> simp [Ev.isRows]
  have hop : givenBack b.tr = givenBack (l ++ .order (idAt sp k) w wk' :: (l0 ++ a.tr)) := by
    rw [hG.tr]
    apply givenBack_skip
    cases orderOp sp wk w t <;> simp [Ev.isRows]
  rw [hop, hG.after]
  have hord : givenBack (.order (idAt sp k) w wk' :: (l0 ++ a.tr)) = givenBack a.tr := by
    rw [givenBack, backOf_nil _ rfl, givenBack_skip _ hl0]; rfl
  split
  · rename_i hr
    rw [List.nil_append, hord]
    simp [retRows, hr]
  · rw [List.cons_append, List.nil_append, givenBack, hord, backOf_rows hv hw hG.pos hG.order hG.before hst]

theorem givenBack_sent_nil {a b : St} {w k : Nat} {wk wk' : Work} {l0 : List Ev} (hS : Sent sp a b w k wk wk' l0 []) :
    givenBack b.tr = givenBack a.tr := by
  have hl0 : ∀ e ∈ l0, e.isRows = false := by
    rcases hS.before with h | ⟨team, h, _⟩ <;> rw [h] <;> simp [Ev.isRows]
  rw [hS.tr, List.nil_append, givenBack, backOf_nil _ rfl, givenBack_skip _ hl0]; rfl

theorem givenBack_sent_sim {a b : St} {w k : Nat} {wk wk' : Work} {l0 l : List Ev} (hS : Sent sp a b w k wk wk' l0 l)
    (ht : wk.tag = EVAL_SIM) : givenBack b.tr = givenBack a.tr := by
  have hl0 : ∀ e ∈ l0, e.isRows = false := by
    rcases hS.before with h | ⟨team, h, _⟩ <;> rw [h] <;> simp [Ev.isRows]
  have ht' : wk'.tag = EVAL_SIM := by rw [hS.order]; exact ht
  have hord : givenBack (.order (idAt sp k) w wk' :: (l0 ++ a.tr)) = givenBack a.tr := by
    rw [givenBack, backOf_nil _ rfl, givenBack_skip _ hl0]; rfl
  rw [hS.tr]
  rcases hS.after with h | ⟨vals, h, _⟩ <;> rw [h]
  · exact hord
  · rw [List.cons_append, List.nil_append, givenBack, hord]
    simp [backOf, ht', EVAL_SIM, EVAL_GEN, PERSIS_STOP]

/-! ### Rows returned are marked -/

/-- Rows returned so far are marked as known to the generator. -/
def Informed (s : St) : Prop := ∀ i ∈ givenBack s.tr, cell s.hist.rows i .genInformed = some (.s 1)

theorem giveGen_cells (h : Hist) (rows : List Nat) (t : Int) (hr : ∀ i ∈ rows, i < h.rows.length) {i : Nat}
    (hi : i ∈ rows) (he : RowEnded h i) :
    cell (apply h (.giveGen rows t)).1.rows i .genInformed = some (.s 1) := by
  have hlt := hr i hi
  have hne : ¬ rows.isEmpty = true := by
    rw [List.isEmpty_iff]; exact List.ne_nil_of_mem hi
  have hf : ¬ (rows.any fun i => decide (h.rows.length ≤ i)) = true := by
    simp only [List.any_eq_true, decide_eq_true_eq, not_exists, not_and]
    intro j hj; have := hr j hj; omega
  simp only [apply]
  unfold updateToGen
  rw [if_neg hne, if_neg hf]
  have hi2 : i ∈ rows.filter (fun i => ((h.rows[i]?).map (·.flag .simEnded)).getD false) := by
    rw [List.mem_filter]
    refine ⟨hi, ?_⟩
    obtain ⟨r, h1, h2⟩ := he
    simp [h1, h2]
  simp only
  rw [cell_updAll_frame _ _ (by intro r; simp [Row.set])]
  split
  · exact get_updAll_const _ _ _ (by intro r; simp [Row.set]) _ _ _ hlt hi
  · split
    · exact get_updAll_const _ _ _ (by intro r; simp [Row.set]) _ _ _ hlt hi2
    · rename_i hz
      have := List.length_pos_of_mem hi2
      omega

/-- Fields written when orders are handed out. -/
def giveFields : List Field := [.simStarted, .simStartedTime, .simWorker, .genInformed, .genInformedTime]

theorem give_cell (h : Hist) {o : Op} (ho : (∃ r w t k, o = .giveSim r w t k) ∨ ∃ r t, o = .giveGen r t) {f : Field}
    (hf : f ∉ giveFields) (i : Nat) : cell (apply h o).1.rows i f = cell h.rows i f := by
  simp only [giveFields, List.mem_cons, List.not_mem_nil, or_false, not_or] at hf
  rcases ho with ⟨inds, w, t, k, rfl⟩ | ⟨inds, t, rfl⟩
  · simp only [apply]
    unfold updateXOut
    split
    · rfl
    · have : cell (updAll (fun r => ((r.set .simStarted (.s 1)).set .simStartedTime (.s t)).set
        .simWorker (.s w)) h.rows inds) i f = cell h.rows i f := by
        apply cell_updAll_frame
        intro r; simp [Row.set, hf]
      simp only
      split
      · split <;> exact this
      · exact this
  · simp only [apply]
    unfold updateToGen
    split
    · rfl
    · split
      · rfl
      · simp only
        rw [cell_updAll_frame _ _ (by intro r; simp [Row.set, hf])]
        split
        · rw [cell_updAll_frame _ _ (by intro r; simp [Row.set, hf])]
        · split
          · rw [cell_updAll_frame _ _ (by intro r; simp [Row.set, hf])]
          · rfl

theorem orderOp_give {wk : Work} {w : Nat} {t : Int} {o : Op} (h : orderOp sp wk w t = some o) :
    (∃ r w t k, o = .giveSim r w t k) ∨ ∃ r t, o = .giveGen r t := by
  simp only [orderOp] at h
  split at h
  · injection h with h; exact .inl ⟨_, _, _, _, h.symm⟩
  · split at h
    · injection h with h; exact .inr ⟨_, _, h.symm⟩
    · simp at h

theorem Gave.cell {a b : St} {w k : Nat} {t : Int} {wk wk' : Work} {l0 l : List Ev} (hG : Gave sp a b w k t wk wk' l0 l) {f : Field}
    (hf : f ∉ giveFields) (i : Nat) : History.cell b.hist.rows i f = History.cell a.hist.rows i f := by
  rw [hG.hist]
  cases ho : orderOp sp wk w t with
  | none => rfl
  | some o => exact give_cell _ (orderOp_give ho) hf i

theorem sticky_reach {c : Start} {p p' : Ph} {s s' : St} (hc : c.Std) (hr : Reach c.sp P c.st p s) (hr' : Reach c.sp P c.st p' s')
    (hprot : c.Protected s'.tr) (hl : ∃ l, s'.tr = l ++ s.tr) {g : Field} (hg : g ∈ stickyFields) {i : Nat}
    (h : cell s.hist.rows i g = some (.s 1)) : cell s'.hist.rows i g = some (.s 1) := by
  obtain ⟨l, hl⟩ := hl
  have hk := start_kept hr' hprot
  rw [start_histAt hr] at h
  rw [start_histAt hr', hl]
  rw [hl] at hk
  exact sticky hc hg hk h

/-- The rows returned and the rows to be returned are all different; the former are marked. -/
structure Back (p : Ph) (s : St) : Prop where
  nodup : (givenBack s.tr ++ handBack s.W p).Nodup
  informed : Informed s
  hand : ∀ rest, p = .hand rest → BackOk s (pairs rest)

theorem Back.gave {c : Start} (hc : c.Std) {a b : St} {w k : Nat} {t : Int} {wk wk' : Work} {l0 l : List Ev}
    {rest : List (Nat × Work × Int)} (hG : Gave c.sp a b w k t wk wk' l0 l) (hv : VI c.sp a)
    (hB : Back (.hand ((w, wk, t) :: rest)) a) {p' : Ph} (hr : Reach c.sp P c.st (.hand ((w, wk, t) :: rest)) a)
    (hr' : Reach c.sp P c.st p' b) (hprot : c.Protected b.tr) (hl : ∃ l, b.tr = l ++ a.tr) (hids : ids b = ids a) : Back (.hand rest) b := by
  have hH := hB.hand _ rfl
  have hH' : BackOk a ((w, wk) :: pairs rest) := hH
  have hw : w ∈ ids a := hH'.ids (w, wk) List.mem_cons_self
  have hst : wk.tag ≠ PERSIS_STOP := by
    rcases hH'.tags (w, wk) List.mem_cons_self with h | ⟨h, _⟩ <;> (simp only at h; rw [h]; decide)
  have hgb := givenBack_gave hG hv hw hst
  have hid : idAt c.sp k = w := wPos_ids hv.tab hw hG.pos
  obtain ⟨hnk, hkeys⟩ := List.nodup_cons.mp hH'.keys
  have hret : ∀ e ∈ pairs rest, retRows b.W e = retRows a.W e := by
    intro e he
    have hne : e.1 ≠ idAt c.sp k := by
      rw [hid]; intro h; exact hnk (List.mem_map.mpr ⟨e, he, h⟩)
    obtain ⟨g, hg, hW⟩ := hG.W
    simp only [retRows]
    rw [hW, returning_modify hv (fun x => ?_) hne]
    rcases hg with rfl | ⟨t, rfl⟩ <;> (simp only [giveEntry]; split <;> rfl)
  have hflat : (pairs rest).flatMap (retRows b.W) = (pairs rest).flatMap (retRows a.W) := by
    revert hret
    generalize pairs rest = q
    intro hret
    induction q with
    | nil => rfl
    | cons e q ih =>
      simp only [List.flatMap_cons]
      rw [hret e List.mem_cons_self, ih (fun e he => hret e (List.mem_cons_of_mem _ he))]
  refine ⟨?_, ?_, ?_⟩
  · have h1 := hB.nodup
    rw [handBack_cons] at h1
    simp only [handBack] at h1 ⊢
    rw [hgb, hflat]
    have : (retRows a.W (w, wk) ++ givenBack a.tr ++ (pairs rest).flatMap (retRows a.W)).Perm
        (givenBack a.tr ++ (retRows a.W (w, wk) ++ (pairs rest).flatMap (retRows a.W))) := by
      rw [← List.append_assoc]
      exact List.perm_append_comm.append_right _
    exact this.symm.nodup h1
  · intro i hi
    rw [hgb, List.mem_append] at hi
    rcases hi with hi | hi
    · have he := hH'.ended i (List.mem_flatMap.mpr ⟨(w, wk), List.mem_cons_self, hi⟩)
      simp only [retRows] at hi
      split at hi
      · rename_i hret
        simp only [returning, Bool.and_eq_true, decide_eq_true_eq] at hret
        rw [hG.hist]
        have h2 : ¬ wk.tag = EVAL_SIM := by rw [hret.1]; decide
        simp only [orderOp, h2, hret.1, if_true, if_false]
        exact giveGen_cells _ _ _ hG.rows hi he
      · simp at hi
    · exact sticky_reach hc hr hr' hprot hl (by simp [stickyFields]) (hB.informed i hi)
  · intro rest' hrest
    injection hrest with hrest
    subst hrest
    refine ⟨hkeys, fun e he => by rw [hids]; exact hH'.ids e (List.mem_cons_of_mem _ he), fun e he => hH'.tags e (List.mem_cons_of_mem _ he), ?_⟩
    intro i hi
    rw [hflat] at hi
    have h1 : RowEnded a.hist i := hH'.ended i (by
      simp only [List.flatMap_cons, List.mem_append]
      exact .inr hi)
    rw [rowEnded_iff] at h1 ⊢
    rw [hG.cell (by simp [giveFields])]
    exact h1

/-- What the end of the run sends to a persistent worker. -/
theorem stopPersis_back (s : St) (w : Nat) (t : Int) :
    givenBack (stopPersis sp s w t).1.tr = givenBack s.tr ∨
    (givenBack (stopPersis sp s w t).1.tr = (lastOrder s).rows ++ givenBack s.tr ∧
      (stopPersis sp s w t).1.hist = (apply s.hist (.giveGen (lastOrder s).rows t)).1) := by
  have hmod : ∀ s' : St, (modW sp s' w (fun x => if x.active = 0 then { x with active := x.persis } else x)).tr = s'.tr := by
    intro s'; simp only [modW]; split <;> rfl
  have key : givenBack (stopSend sp s w t).1.tr = givenBack s.tr ∨
      (givenBack (stopSend sp s w t).1.tr = (lastOrder s).rows ++ givenBack s.tr ∧
        (stopSend sp s w t).1.hist = (apply s.hist (.giveGen (lastOrder s).rows t)).1) := by
    simp only [stopSend]
    split
    · split
      · exact .inl rfl
      · rename_i hc
        obtain ⟨k0, _, hk0, _⟩ := checkOrder_none hc
        rcases sendOrder_cases (sp := sp) s (lastOrder s) w t with ⟨h1, _, _, h4⟩ | ⟨k, wk', l0, l, hS, hok, hbad⟩
        · have : andThen (sendOrder sp s (lastOrder s) w t) (fun s1 => doOp s1 (.giveGen (lastOrder s).rows t)) = sendOrder sp s (lastOrder s) w t := by
            generalize sendOrder sp s (lastOrder s) w t = y at h1
            obtain ⟨y1, y2⟩ := y
            cases y2 with
            | none => exact absurd rfl h1
            | some e => rfl
          rw [this]
          rcases h4 with h4 | h4
          · exact .inl (by rw [h4])
          · rw [hk0] at h4; simp at h4
        · generalize sendOrder sp s (lastOrder s) w t = y at hS hok hbad
          obtain ⟨s1, e⟩ := y
          cases e with
          | some e =>
            obtain rfl := hbad (by simp)
            exact .inl (givenBack_sent_nil hS)
          | none =>
            simp only [andThen]
            obtain ⟨_, h2, h3⟩ := hok rfl
            have hh : s1.hist = s.hist := hS.hist
            have hl0 : ∀ e ∈ l0, e.isRows = false := by
              rcases hS.before with h | ⟨team, h, _⟩ <;> rw [h] <;> simp [Ev.isRows]
            have ht' : wk'.tag = PERSIS_STOP := by rw [hS.order]; rfl
            have hord : givenBack (.order (idAt sp k) w wk' :: (l0 ++ s.tr)) = givenBack s.tr := by
              rw [givenBack, backOf_nil _ rfl, givenBack_skip _ hl0]; rfl
            refine .inr ⟨?_, by simp only [doOp, hh]⟩
            have : givenBack (doOp s1 (.giveGen (lastOrder s).rows t)).1.tr = givenBack s1.tr := by
              simp only [doOp, givenBack, backOf, List.nil_append]
            rw [this, show s1.tr = _ from hS.tr]
            by_cases hr : (lastOrder s).rows = []
            · rw [h3 hr, hr]; exact hord
            · rcases hS.after with h | ⟨vals, h, _⟩
              · exact absurd h (h2 hr).1
              · rw [h, List.cons_append, List.nil_append, givenBack, hord]
                simp [backOf, ht']
    · exact .inl rfl
  simp only [stopPersis]
  generalize stopSend sp s w t = y at key
  obtain ⟨s1, e⟩ := y
  cases e with
  | some e => exact key
  | none =>
    simp only [andThen]
    have h2 : (modW sp s1 w (fun x => if x.active = 0 then { x with active := x.persis } else x)).hist = s1.hist := modW_hist ..
    rw [hmod, h2]
    exact key

theorem Back.quiet {c : Start} (hc : c.Std) {p p' : Ph} {s s' : St} (hB : Back p s) (hr : Reach c.sp P c.st p s)
    (hr' : Reach c.sp P c.st p' s') (hprot : c.Protected s'.tr) (hl : ∃ l, s'.tr = l ++ s.tr) (hg : givenBack s'.tr = givenBack s.tr)
    (hh : ∀ rest, p' ≠ .hand rest) : Back p' s' := by
  have h0 : handBack s'.W p' = [] := by cases p' <;> first | rfl | exact absurd rfl (hh _)
  refine ⟨?_, ?_, fun rest h => absurd h (hh rest)⟩
  · rw [hg, h0, List.append_nil]
    exact (List.sublist_append_left _ _).nodup hB.nodup
  · intro i hi
    rw [hg] at hi
    exact sticky_reach hc hr hr' hprot hl (by simp [stickyFields]) (hB.informed i hi)

theorem Back.drop {p p' : Ph} {s : St} (hB : Back p s) (hh : ∀ rest, p' ≠ .hand rest) : Back p' s := by
  have h0 : handBack s.W p' = [] := by cases p' <;> first | rfl | exact absurd rfl (hh _)
  exact ⟨by rw [h0, List.append_nil]; exact (List.sublist_append_left _ _).nodup hB.nodup, hB.informed, fun rest h => absurd h (hh rest)⟩

theorem Back.stop {c : Start} (hc : c.Std) {p p' : Ph} {s : St} {w : Nat} {t : Int} (hB : Back p s) (hr : Reach c.sp P c.st p s)
    (hr' : Reach c.sp P c.st p' (stopPersis c.sp s w t).1) (hprot : c.Protected (stopPersis c.sp s w t).1.tr)
    (hl : ∃ l, (stopPersis c.sp s w t).1.tr = l ++ s.tr) (hh : ∀ rest, p' ≠ .hand rest) : Back p' (stopPersis c.sp s w t).1 := by
  rcases stopPersis_back (sp := c.sp) s w t with h | ⟨h1, h2⟩
  · exact hB.quiet hc hr hr' hprot hl h hh
  · have h0 : handBack (stopPersis c.sp s w t).1.W p' = [] := by cases p' <;> first | rfl | exact absurd rfl (hh _)
    have hmem : ∀ i ∈ (lastOrder s).rows, i < s.hist.rows.length ∧ (∃ r, s.hist.rows[i]? = some r ∧ r.flag .simEnded = true ∧ r.flag .genInformed = false) := by
      intro i hi
      obtain ⟨r, hr1, hr2⟩ := mem_rowsWhere.mp hi
      refine ⟨(List.getElem?_eq_some_iff.mp hr1).1, r, hr1, ?_⟩
      simpa using hr2
    refine ⟨?_, ?_, fun rest h => absurd h (hh rest)⟩
    · rw [h0, h1, List.append_nil]
      refine List.nodup_append.mpr ⟨rowsWhere_nodup _ _, (List.sublist_append_left _ _).nodup hB.nodup, ?_⟩
      rintro i hi j hj rfl
      obtain ⟨_, r, hr1, _, hr2⟩ := hmem i hi
      have h3 := hB.informed i hj
      simp [cell, hr1] at h3
      simp [Row.flag, h3] at hr2
    · intro i hi
      rw [h1, List.mem_append] at hi
      rcases hi with hi | hi
      · obtain ⟨_, r, hr1, hr2, _⟩ := hmem i hi
        rw [h2]
        exact giveGen_cells _ _ _ (fun j hj => (hmem j hj).1) hi ⟨r, hr1, hr2⟩
      · exact sticky_reach hc hr hr' hprot hl (by simp [stickyFields]) (hB.informed i hi)

/-- Rows are returned at most once, in every run with an allocation function whose answers are frugal. -/
theorem Reach.back {c : Start} (hc : c.Std) {p : Ph} {s : St} (h : Reach c.sp P c.st p s)
    (hA : ∀ s cs work p, Reach c.sp P c.st .alloc s → P s (.ok cs work false p) →
      Frugal { (doOp s (.requestCancel cs)).1 with pinfo := p } work) : c.Protected s.tr → Back p s := by
  have mic : ∀ {a b : St} {Q : Ev → Prop}, Micros c.sp Q a b → ∃ l, b.tr = l ++ a.tr := fun h => by
    obtain ⟨l, hl, _⟩ := h.tr; exact ⟨l, hl⟩
  have sub : ∀ {a b : St}, (∃ l, b.tr = l ++ a.tr) → c.Protected b.tr → c.Protected a.tr := fun ⟨l, hl⟩ h => by
    rw [hl] at h; exact h.suffix
  have q : ∀ {p p' : Ph} {s s' : St}, Reach c.sp P c.st p s → Reach c.sp P c.st p' s' → (c.Protected s.tr → Back p s) → c.Protected s'.tr →
      (∃ l, s'.tr = l ++ s.tr) → givenBack s'.tr = givenBack s.tr → (∀ rest, p' ≠ .hand rest) → Back p' s' :=
    fun hr hr' ih hprot hl hg hh => (ih (sub hl hprot)).quiet hc hr hr' hprot hl hg hh
  have hgive : ∀ {s w wk t rest p'}, Reach c.sp P c.st (.hand ((w, wk, t) :: rest)) s → Reach c.sp P c.st p' (handOut c.sp s wk w t).1 →
      Back (.hand ((w, wk, t) :: rest)) s → c.Protected (handOut c.sp s wk w t).1.tr → (p' = .hand rest ∧ (handOut c.sp s wk w t).2 = none ∨
        ∀ rest, p' ≠ .hand rest) → Back p' (handOut c.sp s wk w t).1 := by
    intro s w wk t rest p' hr hr' hB hprot hcase
    have hv : VI c.sp s := (hr.vi start_vi (by rw [start_tr]; rfl) start_pending rfl).1
    have hl := mic (micros_handOut (sp := c.sp) s wk w t)
    have hids : ids (handOut c.sp s wk w t).1 = ids s := (micros_handOut (sp := c.sp) s wk w t).ids
    have hgb : ∀ k wk' l0 l, Gave c.sp s (handOut c.sp s wk w t).1 w k t wk wk' l0 l → Back p' (handOut c.sp s wk w t).1 := by
      intro k wk' l0 l hG
      have := hB.gave hc hG hv hr hr' hprot hl hids
      rcases hcase with ⟨rfl, _⟩ | hh
      · exact this
      · exact this.drop hh
    rcases handOut_cases (sp := c.sp) s wk w t with ⟨e, h0, he⟩ | ⟨_, h0 | ⟨k, wk', l0, l, h0, h1⟩ | ⟨k, wk', l0, l, hG, _⟩⟩
    · have : givenBack (handOut c.sp s wk w t).1.tr = givenBack s.tr := by rw [he]
      rcases hcase with ⟨_, hn⟩ | hh
      · rw [he] at hn; simp at hn
      · exact hB.quiet hc hr hr' hprot hl this hh
    · rcases hcase with ⟨_, hn⟩ | hh
      · exact absurd hn h0.1
      · exact hB.quiet hc hr hr' hprot hl (by rw [h0.2.2.2]) hh
    · rcases hcase with ⟨_, hn⟩ | hh
      · exact absurd hn h0
      · refine hB.quiet hc hr hr' hprot hl ?_ hh
        rcases h1 with ⟨hS, rfl⟩ | ⟨⟨s1, hS, h1⟩, hp, ha⟩
        · exact givenBack_sent_nil hS
        · rcases (hB.hand _ rfl).tags (w, wk) List.mem_cons_self with ht | ⟨_, ht | ht⟩
          · rw [h1]; exact givenBack_sent_sim (b := s1) hS ht
          · simp only at ht; rw [hp] at ht; simp at ht
          · simp only at ht; rw [ht] at ha; simp at ha
    · exact hgb k wk' l0 l hG
  induction h with
  | init =>
    intro _
    exact ⟨by simp [start_tr, givenBack, handBack], fun i hi => by simp [start_tr, givenBack] at hi, fun rest h => by simp at h⟩
  | test e hr h1 ih => exact fun hp => q hr (.test e hr h1) ih hp ⟨[_], rfl⟩ rfl (by simp)
  | stop e hr h1 ih => exact fun hp => q hr (.stop e hr h1) ih hp ⟨[_], rfl⟩ rfl (by simp)
  | kill hr h1 ih => exact fun hp => q hr (.kill hr h1) ih hp (mic (micros_killCancelled _)) (givenBack_kill _) (by simp)
  | killErr hr h1 ih => exact fun hp => q hr (.killErr hr h1) ih hp (mic (micros_killCancelled _)) (givenBack_kill _) (by simp)
  | mail w m t hr hw h1 ih => exact fun hp => q hr (.mail w m t hr hw h1) ih hp (mic (micros_handleMsg _ w m t)) (givenBack_msg ..) (by simp)
  | mailErr w m t hr hw h1 ih => exact fun hp => q hr (.mailErr w m t hr hw h1) ih hp (mic (micros_handleMsg _ w m t)) (givenBack_msg ..) (by simp)
  | save hr ih => exact fun hp => q hr (.save hr) ih hp (mic (micros_saveK (Q := fun _ => False) _ _)) (givenBack_save _ _) (by simp)
  | allocErr cs hr h1 ih => exact fun hp => q hr (.allocErr cs hr h1) ih hp ⟨[_], rfl⟩ rfl (by simp)
  | allocFlag cs work p hr h1 ih => exact fun hp => q hr (.allocFlag cs work p hr h1) ih hp ⟨[_], rfl⟩ rfl (by simp)
  | @allocOk s cs work p t hr h1 ih =>
    intro hp
    have hB := ih (hp.suffix (l := [.op (.requestCancel cs)]))
    have hF := hA _ cs work p hr h1
    have hI : Informed { (doOp s (.requestCancel cs)).1 with pinfo := p } := by
      intro i hi
      exact sticky_reach hc hr (.allocOk cs work p t hr h1) hp ⟨[_], rfl⟩ (by simp [stickyFields]) (hB.informed i hi)
    refine ⟨?_, hI, ?_⟩
    · simp only [handBack, pairs_map]
      refine List.nodup_append.mpr ⟨(List.sublist_append_left _ _).nodup hB.nodup, hF.once, ?_⟩
      rintro i hi j hj rfl
      exact hF.fresh i hj (hI i hi)
    · intro rest h
      injection h with h
      subst h
      rw [pairs_map]; exact hF.toBackOk
  | give hr hm h1 ih => exact fun hp => hgive hr (.give hr hm h1) (ih (sub (mic (micros_handOut _ _ _ _)) hp)) hp (.inl ⟨rfl, h1⟩)
  | giveErr hr hm h1 ih => exact fun hp => hgive hr (.giveErr hr hm h1) (ih (sub (mic (micros_handOut _ _ _ _)) hp)) hp (.inr (by simp))
  | again hr h1 h2 ih => exact fun hp => q hr (.again hr h1 h2) ih hp ⟨[], rfl⟩ rfl (by simp)
  | noWork hr h1 ih => exact fun hp => q hr (.noWork hr h1) ih hp ⟨[], rfl⟩ rfl (by simp)
  | final hr ih => exact fun hp => q hr (.final hr) ih hp ⟨[_], rfl⟩ rfl (by simp)
  | pstop t hr h1 ih =>
    exact fun hp => (ih (sub (mic (micros_stopPersis _ _ t)) hp)).stop hc hr (.pstop t hr h1) hp (mic (micros_stopPersis _ _ t)) (by simp)
  | pstopErr t hr h1 ih =>
    exact fun hp => (ih (sub (mic (micros_stopPersis _ _ t)) hp)).stop hc hr (.pstopErr t hr h1) hp (mic (micros_stopPersis _ _ t)) (by simp)
  | drain hr ih => exact fun hp => q hr (.drain hr) ih hp ⟨[], rfl⟩ rfl (by simp)
  | dmail w m t hr hw h1 ih => exact fun hp => q hr (.dmail w m t hr hw h1) ih hp (mic (micros_handleMsg _ w m t)) (givenBack_msg ..) (by simp)
  | dmailErr w m t hr hw h1 ih => exact fun hp => q hr (.dmailErr w m t hr hw h1) ih hp (mic (micros_handleMsg _ w m t)) (givenBack_msg ..) (by simp)
  | dsave hr ih => exact fun hp => q hr (.dsave hr) ih hp (mic (micros_saveK (Q := fun _ => False) _ _)) (givenBack_save _ _) (by simp)
  | @done s x p hr ih =>
    intro hp
    have h1 : ∃ l, (Manager.killWorkers (saveK c.sp s c.sp.saveDone)).tr = l ++ s.tr :=
      mic ((micros_saveK s _).trans (micros_killWorkers (sp := c.sp) _))
    have h2 : givenBack (Manager.killWorkers (saveK c.sp s c.sp.saveDone)).tr = givenBack s.tr := by
      rw [givenBack_finish, givenBack_save]
    exact q hr (.done p hr) ih hp h1 h2 (by simp)

end Verif.Manager
