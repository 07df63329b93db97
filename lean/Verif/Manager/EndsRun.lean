import Verif.Manager.Ends
/-!
Runs with the allocation functions that use no persistent functions: a generator is called only when every row has been given or
cancelled.
-/
namespace Verif.Manager
open Verif.History Verif.Res Verif.Sched Verif.Alloc

/-- The bundled functions that give no orders for persistent functions. -/
def Bundled.plain : Bundled → Bool
  | .simFirst _ | .fast _ | .oneGen | .pregen => true
  | _ => false

/-- What the plain functions answer: simulations with rows before generators, nothing persistent; a generator is called only if no
row waits (`give_sim_work_first`) or the pointer has passed the last row. -/
structure PlainAnswer (b : Bundled) (c : Ctx) (work : WorkD) (p : PInfo) : Prop where
  order : ∀ e ∈ work, e.2.persistent = false ∧ ((e.2.tag = EVAL_SIM ∧ e.2.rows ≠ []) ∨ e.2.tag = EVAL_GEN)
  sorted : work.Pairwise (fun x y => x.2.tag = EVAL_GEN → y.2.tag = EVAL_GEN)
  gens : ∀ e ∈ work, e.2.tag = EVAL_GEN → (b.kind = none ∧ waiting c.H = []) ∨ (b.kind ≠ none ∧ c.H.length ≤ p.nextToGive.getD 0)

theorem sim_not_gen : EVAL_SIM ≠ EVAL_GEN := by decide

theorem simsOrd_rows {c : Ctx} {ws : List Nat} {es : WorkD} {n n' : Nat} (h : SimsOrd c ws es n n') : ∀ e ∈ es, e.2.rows ≠ [] := by
  intro e he
  obtain ⟨m, hm⟩ := h.inorder.facts.2.2.1 e.2.rows (List.mem_map_of_mem he)
  rw [hm]; simp

theorem plain_answer {b : Bundled} (hb : b.plain = true) {c : Ctx} (hW : IdsOk c.W) {p : PInfo} {s : Sched} {a : Answer}
    (h : b.call c p s = .ok a) : PlainAnswer b c a.work a.pinfo := by
  have nil : ∀ {a : Answer}, a.work = [] → PlainAnswer b c a.work a.pinfo := by
    intro a h; rw [h]; exact ⟨by simp, .nil, by simp⟩
  have sims : ∀ {es : WorkD} {q : PInfo}, (∀ e ∈ es, SimShape c false e.2 ∧ e.2.rows ≠ []) → PlainAnswer b c es q := by
    intro es q hs
    refine ⟨fun e he => ⟨(hs e he).1.pers, .inl ⟨(hs e he).1.tag, (hs e he).2⟩⟩, ?_, ?_⟩
    · refine List.pairwise_of_forall_mem_list (fun x hx y hy ht => ?_)
      rw [(hs x hx).1.tag] at ht; exact absurd ht sim_not_gen
    · intro e he ht; rw [(hs e he).1.tag] at ht; exact absurd ht sim_not_gen
  cases b with
  | simFirst o =>
    obtain ⟨_, _, _, h1 | ⟨_, ws, pts', hws, hs⟩ | ⟨hw, _, ws, _, _, hg, _⟩⟩ := gswf_spec hW h
    · exact nil h1
    · refine sims (fun e he => ⟨hs.shape e he, ?_⟩)
      exact (hs.greedy.parts (rowsWhere_nodup _ _)).2.2.2 _ (List.mem_map_of_mem he)
    · refine ⟨fun e he => ⟨(hg e he).pers, .inr (hg e he).tag⟩, ?_, fun e he _ => .inl ⟨rfl, hw⟩⟩
      exact List.pairwise_of_forall_mem_list (fun x hx y hy _ => (hg y hy).tag)
  | fast o =>
    obtain ⟨_, _, h1 | ⟨n, n', ws, sims', gens, hn, hn', hwk, hws, hsim, _, _, hlen, _, _, _, hg⟩⟩ := fast_spec hW h
    · exact nil (by rw [h1])
    · rw [hwk]
      have hs := sims (q := a.pinfo) (fun e he => ⟨hsim.shape e he, simsOrd_rows hsim e he⟩)
      refine ⟨?_, ?_, ?_⟩
      · intro e he
        rcases List.mem_append.mp he with he | he
        · exact hs.order e he
        · exact ⟨(hg e he).2.pers, .inr (hg e he).2.tag⟩
      · rw [List.pairwise_append]
        exact ⟨hs.sorted, List.pairwise_of_forall_mem_list (fun x hx y hy _ => (hg y hy).2.tag), fun x hx y hy _ => (hg y hy).2.tag⟩
      · intro e he ht
        rcases List.mem_append.mp he with he | he
        · exact hs.gens e he ht
        · refine .inr ⟨by simp [Bundled.kind], ?_⟩
          rw [hn']; exact (hlen (List.ne_nil_of_mem he)).1
  | oneGen =>
    obtain ⟨_, _, h1 | ⟨n, n', ws, hn, _, hp, hws, hsim, _⟩ | ⟨n, w0, wk0, ws, hn, hge, hwk, hnx, _, _, hws, hw, hg⟩⟩ := oneGen_spec hW h
    · exact nil (by rw [h1])
    · exact sims (fun e he => ⟨hsim.shape e he, simsOrd_rows hsim e he⟩)
    · rw [hwk]
      refine ⟨?_, by simp, ?_⟩
      · intro e he; rw [List.mem_singleton] at he; subst he; exact ⟨hg.pers, .inr hg.tag⟩
      · intro e he ht
        refine .inr ⟨by simp [Bundled.kind], ?_⟩
        rw [hnx]; exact hge
  | pregen =>
    obtain ⟨_, h1 | ⟨h1, _⟩ | ⟨n', ws, _, hp, _, hws, hsim, _⟩⟩ := pregen_spec hW h
    · exact nil (by rw [h1])
    · exact nil (by rw [h1])
    · exact sims (fun e he => ⟨hsim.shape e he, simsOrd_rows hsim e he⟩)
  | _ => simp [Bundled.plain] at hb

/-! ### Orders of a run -/

variable {c : Start} {b : Bundled} {env : AllocEnv}

/-- All orders still to be handed out are of that kind. -/
theorem plain_hand (hb : b.plain = true) {p : Ph} {s : St} (h : Reach c.sp (b.P env c.sp) c.st p s) :
    ∀ l, p = .hand l → ∀ x ∈ l, x.2.1.persistent = false ∧ ((x.2.1.tag = EVAL_SIM ∧ x.2.1.rows ≠ []) ∨ x.2.1.tag = EVAL_GEN) := by
  refine h.handQ (Q := fun _ _ wk => wk.persistent = false ∧ ((wk.tag = EVAL_SIM ∧ wk.rows ≠ []) ∨ wk.tag = EVAL_GEN))
    (fun s cs work p hr hP e he => ?_) (fun _ _ _ _ _ _ h => h)
  obtain ⟨now, ord, hord, rfl, hcall⟩ := hP.ok
  have hW : IdsOk (ctxOf env c.sp ord (b.marked now s)).W := by have h9 := start_idsOk hr; exact h9
  exact (plain_answer hb hW hcall).order e he

/-- In the main loop all orders are of that kind. -/
theorem plain_orders (hb : b.plain = true) {p : Ph} {s : St} (h : Reach c.sp (b.P env c.sp) c.st p s) :
    Always (onOrder fun pre _ _ wk => Manager.hasFinal pre = false →
      wk.persistent = false ∧ ((wk.tag = EVAL_SIM ∧ wk.rows ≠ []) ∨ wk.tag = EVAL_GEN)) s.tr := by
  refine h.orders (by rw [start_tr]; exact .nil) (by rw [start_tr]; rfl) (fun pre to key wk hf h => by rw [hf] at h; simp at h) ?_
  intro s w wk t rest k wk' l0 hr _ _ _ hwk _ _
  rw [hwk]
  exact plain_hand hb hr _ rfl (w, wk, t) List.mem_cons_self

/-- No persistent function is ended before the end of the main loop. -/
theorem Reach.noFinal {sp : Specs} {P : St → Reply → Prop} {s0 : St} {p : Ph} {s : St} (h : Reach sp P s0 p s) (ht0 : s0.tr = [])
    (hp : p.going = true) : ∀ w, .persisStop w ∉ s.tr := by
  have hmic : ∀ {a b : St} {Q : Ev → Prop}, Micros sp Q a b → (∀ w, ¬ Q (.persisStop w)) → (∀ w, .persisStop w ∉ a.tr) → ∀ w, .persisStop w ∉ b.tr := by
    intro a b Q hm hq ha w he
    obtain ⟨l, hl, hle⟩ := hm.tr
    rw [hl] at he
    rcases List.mem_append.mp he with he | he
    · exact hq w (hle _ he)
    · exact ha w he
  induction h with
  | init => rw [ht0]; simp
  | test e _ _ ih => intro w h; simp only [emit, List.mem_cons, reduceCtorEq, false_or] at h; exact ih rfl w h
  | kill _ _ ih => exact hmic (micros_killCancelled _) (fun _ h => by cases h) (ih rfl)
  | mail w m t _ _ _ ih => exact hmic (micros_handleMsg _ w m t) (fun _ h => by cases h) (ih rfl)
  | save _ ih => exact hmic (micros_saveK (Q := fun _ => False) _ _) (fun _ h => h) (ih rfl)
  | allocOk cs work p t _ _ ih => intro w h; simp only [doOp, List.mem_cons, reduceCtorEq, false_or] at h; exact ih rfl w h
  | give hr _ he ih =>
    refine hmic (micros_handOut _ _ _ _) (fun _ h => ?_) (ih rfl)
    cases h with
    | send h => cases h
  | again _ _ _ ih => exact ih rfl
  | _ => simp [Ph.going] at hp

/-- A busy worker owes an answer. -/
theorem busy_owes {tr : List Ev} (ha : Replies tr) (hf : Manager.hasFinal tr = false) (hs : ∀ w, .persisStop w ∉ tr)
    (ho : ∀ to key wk, .order to key wk ∈ tr → (wk.persistent && wk.activeRecv.getD false) = false) (w : Nat) :
    (view w tr).recv = false ∧ (view w tr).stopped = false ∧ ((view w tr).busy = true → (owes w tr).isSome = true) := by
  induction tr with
  | nil => simp [view]
  | cons e tr ih =>
    have hf' : Manager.hasFinal tr = false := by
      rw [show e :: tr = [e] ++ tr from rfl, hasFinal_append, Bool.or_eq_false_iff] at hf; exact hf.2
    obtain ⟨i1, i2, i3⟩ := ih (Replies.suffix (l := [e]) ha) hf' (fun w hm => hs w (List.mem_cons_of_mem _ hm))
      (fun to key wk hm => ho to key wk (List.mem_cons_of_mem _ hm))
    cases e with
    | order to key wk =>
      have hp := ho to key wk List.mem_cons_self
      simp only [view, View.step, owes, hf']
      split
      · simp only [Bool.false_eq_true, if_false, hp, i1, i2, Bool.or_self, Option.isSome_some, implies_true, and_self]
      · exact ⟨i1, i2, i3⟩
    | persisStop to => exact absurd List.mem_cons_self (hs to)
    | recv to m =>
      cases m with
      | data d =>
        obtain ⟨_, a3⟩ := ha [] to d tr rfl
        simp only [view, View.step, owes]
        split
        · split
          · simp [a3]
          · simp [a3, i1, i2]
        · exact ⟨i1, i2, i3⟩
      | err =>
        simp only [view, View.step, owes]
        split
        · exact ⟨i1, i2, by simp⟩
        · exact ⟨i1, i2, i3⟩
      | finished => simp only [view, View.step, owes, ite_self]; exact ⟨i1, i2, i3⟩
      | log => simp only [view, View.step, owes, ite_self]; exact ⟨i1, i2, i3⟩
    | _ => exact ⟨i1, i2, i3⟩

/-- What holds of all orders of the main loop holds of all orders before its end. -/
theorem orders_main {P : St → Reply → Prop} {p : Ph} {s : St} (h : Reach c.sp P c.st p s) (hp : p.main = true) {Q : List Ev → Nat → Nat → Work → Prop}
    (hQ : Always (onOrder fun pre to key wk => Manager.hasFinal pre = false → Q pre to key wk) s.tr) : Always (onOrder Q) s.tr := by
  have hf : Manager.hasFinal s.tr = false := by
    have := h.hasFinal rfl
    rw [hp] at this
    simpa using this
  intro post e pre he
  have h1 := hQ post e pre he
  cases e with
  | order to key wk =>
    refine h1 ?_
    rw [he, show post ++ Ev.order to key wk :: pre = (post ++ [Ev.order to key wk]) ++ pre by simp, hasFinal_append, Bool.or_eq_false_iff] at hf
    exact hf.2
  | _ => trivial

theorem onOrder_mono {Q R : List Ev → Nat → Nat → Work → Prop} {tr : List Ev} (h : Always (onOrder Q) tr)
    (hR : ∀ pre to key wk, Q pre to key wk → R pre to key wk) : Always (onOrder R) tr := by
  intro post e pre he
  have := h post e pre he
  cases e with
  | order to key wk => exact hR _ _ _ _ this
  | _ => trivial

theorem always_mem {Q : List Ev → Nat → Nat → Work → Prop} {R : Work → Prop} {tr : List Ev} (h : Always (onOrder Q) tr)
    (hR : ∀ pre to key wk, Q pre to key wk → R wk) : ∀ to key wk, .order to key wk ∈ tr → R wk := by
  intro to key wk hm
  obtain ⟨post, pre, he⟩ := List.append_of_mem hm
  exact hR _ _ _ _ (h post _ pre he)

/-- If a worker is busy in the main loop, a worker owes an answer. -/
theorem active_owes {P : St → Reply → Prop} {p : Ph} {s : St} (h : Reach c.sp P c.st p s) (hp : p.going = true) (ha : Replies s.tr)
    (ho : ∀ to key wk, .order to key wk ∈ s.tr → (wk.persistent && wk.activeRecv.getD false) = false)
    (hact : anyActive s = true) : ∃ w ∈ c.workers, owes w s.tr ≠ none := by
  obtain ⟨h1, h2, _, _⟩ := Ph.going_main hp
  have hv := (h.vi start_vi rfl rfl h2).1
  have hf : Manager.hasFinal s.tr = false := by
    have := h.hasFinal rfl
    rw [h1] at this
    simpa using this
  simp only [anyActive, List.any_eq_true, decide_eq_true_eq] at hact
  obtain ⟨k, hk, hne⟩ := hact
  obtain ⟨j, hj, rfl⟩ := List.getElem_of_mem hk
  have hb2 : (view (idAt c.sp j) s.tr).busy = true := by
    rw [(hv.agree j s.W[j] (List.getElem?_eq_getElem hj)).busy]; simpa using hne
  refine ⟨idAt c.sp j, ?_, ?_⟩
  · rw [← start_ids, ← h.micros.ids]; exact (mem_ids hv.tab).mpr ⟨j, hj, rfl⟩
  · have := (busy_owes ha hf (h.noFinal start_tr hp) ho (idAt c.sp j)).2.2 hb2
    intro hn; rw [hn] at this; simp at this

/-- Orders go to workers of the run. -/
theorem order_workers {P : St → Reply → Prop} {p : Ph} {s : St} (h : Reach c.sp P c.st p s) (hp : p.main = true) :
    ∀ w key wk, .order w key wk ∈ s.tr → w ∈ c.workers := by
  have h1 : Always (onOrder fun pre to _ _ => Manager.hasFinal pre = false → to ∈ c.workers) s.tr := by
    refine h.orders (by rw [start_tr]; exact .nil) (by rw [start_tr]; rfl) (fun pre to key wk hf h => by rw [hf] at h; simp at h) ?_
    intro s w wk t rest k wk' l0 hr _ _ hpos _ _ _
    rw [← start_ids, ← hr.micros.ids]
    exact (mem_ids (hr.vi start_vi rfl rfl rfl).1.tab).mpr ⟨k, wPos_lt hpos, rfl⟩
  intro w key wk hm
  obtain ⟨post, pre, he⟩ := List.append_of_mem hm
  exact orders_main h hp h1 post _ pre he

/-! ### Rows when a generator is called -/

/-- A row that did not come with the history and is marked as started was given. -/
theorem started_given (hstd : c.Std) {P : St → Reply → Prop} {p : Ph} {s : St} (h : Reach c.sp P c.st p s) (hprot : c.Protected s.tr) {i : Nat}
    (h0 : c.H0.rows.length ≤ i) (hi : flagAt s.hist.rows .simStarted i = true) : i ∈ simGiven s.tr := by
  have hk := start_kept h hprot
  have hz : ∀ x, cell c.hist.rows i .simStarted = some x → x = .s 0 := by
    intro x hx
    simp only [cell, Option.map_eq_some_iff] at hx
    obtain ⟨r, hr, rfl⟩ := hx
    have hlt : i < c.H0.rows.length + c.L := by
      have := (List.getElem?_eq_some_iff.mp hr).1
      rw [show c.hist.rows.length = c.H0.rows.length + c.L from init_length _ _ _ _] at this
      exact this
    have h3 := init_get_fresh c.cols c.L c.H0 c.safe i h0 hlt
    rw [show (init c.cols c.L c.H0 c.safe).rows[i]? = some r from hr] at h3
    cases h3
    exact freshRow_lib _ hstd.lib.scalar _ (by simp [libEFields]) (by simp) (by simp) (by simp)
  rw [start_histAt h, flagAt_cell, Option.any_eq_true] at hi
  obtain ⟨v, hv, hne⟩ := hi
  obtain ⟨po, pr, o, he2, _, hcase⟩ := flag_set hstd hk .simStarted (.inl rfl) hz hv (by simpa using hne)
  rcases hcase with ⟨_, rows, w, t, k, rfl, hir⟩ | ⟨h1, _⟩
  · obtain ⟨q, _, hsent⟩ := giveSim_sent (h.givF (h0 := c.hist) start_tr rfl) (rows := rows) (key := w) (t := t) (k := k) (by rw [he2]; simp) hir
    exact hsent.given
  · cases h1

/-- What holds while generator orders are handed out. -/
def Clear (b : Bundled) (c : Start) (s : St) : Prop :=
  (b.kind = none ∧ ∀ i, c.H0.rows.length ≤ i → i < (trimH s.hist).length → i ∈ simGiven s.tr ∨ CancelledOnce c s.tr i) ∨
  (b.kind ≠ none ∧ (trimH s.hist).length ≤ s.pinfo.nextToGive.getD 0)

theorem handOut_trim {sp : Specs} {s : St} {wk : Work} {w : Nat} {t : Int} (h : (handOut sp s wk w t).2 = none) :
    (trimH (handOut sp s wk w t).1.hist).length = (trimH s.hist).length := by
  obtain ⟨_, k, wk', l0, l, hG, _⟩ := handOut_ok h
  rw [hG.hist]
  cases ho : orderOp sp wk w t with
  | none => rfl
  | some o =>
    have h1 := give_struct s.hist (o := o) (by
      simp only [orderOp] at ho
      split at ho
      · left; injection ho with ho; exact ⟨_, _, _, _, ho.symm⟩
      · split at ho
        · right; injection ho with ho; exact ⟨_, _, ho.symm⟩
        · simp at ho)
    simp only [trimH, List.length_take, h1.1, h1.2]

theorem clear (hb : b.plain = true) (hstd : c.Std) {p : Ph} {s : St} (h : Reach c.sp (b.P env c.sp) c.st p s) (hprot : c.Protected s.tr) :
    ∀ l, p = .hand l → l.Pairwise (fun x y => x.2.1.tag = EVAL_GEN → y.2.1.tag = EVAL_GEN) ∧
      ((∃ x ∈ l, x.2.1.tag = EVAL_GEN) → Clear b c s) := by
  induction h with
  | @allocOk s cs work p t hr hP ih =>
    intro l hl
    injection hl with hl
    subst hl
    have hr' := Reach.allocOk cs work p t hr hP
    obtain ⟨now, ord, hord, rfl, hcall⟩ := hP.ok
    have hW : IdsOk (ctxOf env c.sp ord (b.marked now s)).W := by have h9 := start_idsOk hr; exact h9
    have hA := plain_answer hb hW hcall
    refine ⟨by rw [List.pairwise_map]; exact hA.sorted, ?_⟩
    rintro ⟨x, hx, ht⟩
    simp only [List.mem_map] at hx
    obtain ⟨e, he, rfl⟩ := hx
    rcases hA.gens e he ht with ⟨g1, g2⟩ | ⟨g1, g2⟩
    · refine .inl ⟨g1, fun i h1 h2 => ?_⟩
      have hrow : (trimH (b.marked now s).hist)[i]? = some ((trimH (b.marked now s).hist)[i]'h2) := List.getElem?_eq_getElem h2
      generalize (trimH (b.marked now s).hist)[i]'h2 = r at hrow
      have hrow2 := (trim_get.mp hrow).2
      by_cases hst : r.flag .simStarted = true
      · left
        exact started_given hstd hr' hprot h1 (by
          show flagAt (b.marked now s).hist.rows .simStarted i = true
          simp [flagAt, hrow2, hst])
      · by_cases hcn : r.flag .cancelRequested = true
        · right
          refine ⟨[], _, rfl, ?_⟩
          have h6 := start_histAt hr'
          have h7 : (b.marked now s).hist = histAt c.hist (b.marked now s).tr := h6
          refine (congrArg (fun h : Hist => flagAt h.rows .cancelRequested i) h7).symm.trans ?_
          simp [flagAt, hrow2, hcn]
        · exfalso
          have : i ∈ waiting (trimH (b.marked now s).hist) := mem_waiting.mpr ⟨r, hrow, by simpa using hst, by simpa using hcn⟩
          rw [show waiting (trimH (b.marked now s).hist) = [] from g2] at this; simp at this
    · exact .inr ⟨g1, g2⟩
  | @give s w wk t rest hr hm h1 ih =>
    intro l hl
    injection hl with hl
    subst hl
    obtain ⟨l', hl'⟩ : ∃ l', (handOut c.sp s wk w t).1.tr = l' ++ s.tr := by
      obtain ⟨l, hl, _⟩ := (micros_handOut (sp := c.sp) s wk w t).tr; exact ⟨l, hl⟩
    obtain ⟨i1, i2⟩ := ih (by rw [hl'] at hprot; exact hprot.suffix) _ rfl
    refine ⟨(List.pairwise_cons.mp i1).2, fun ⟨x, hx, ht⟩ => ?_⟩
    rcases i2 ⟨x, List.mem_cons_of_mem _ hx, ht⟩ with ⟨g1, g2⟩ | ⟨g1, g2⟩
    · refine .inl ⟨g1, fun i h3 h4 => ?_⟩
      rw [handOut_trim h1] at h4
      rw [hl', simGiven_append]
      rcases g2 i h3 h4 with h5 | h5
      · exact .inl (List.mem_append_right _ h5)
      · exact .inr (h5.more l')
    · refine .inr ⟨g1, ?_⟩
      rw [handOut_trim h1, (kept_handOut s wk w t).2.2]
      exact g2
  | _ => intro l hl; cases hl

/-- When a generator is called, every row that did not come with the history has been given or was cancelled. -/
theorem gen_called (hb : b.plain = true) (hstd : c.Std) (hptr : c.pinfo.nextToGive.getD 0 ≤ c.H0.rows.length) {s : St} {w : Nat} {wk : Work} {t : Int}
    {rest : List (Nat × Work × Int)} (h : Reach c.sp (b.P env c.sp) c.st (.hand ((w, wk, t) :: rest)) s) (hm : simMaxGiven c.sp s.hist = false)
    (hprot : c.Protected s.tr) (ht : wk.tag = EVAL_GEN) :
    ∀ i, c.H0.rows.length ≤ i → i < (trimH s.hist).length → i ∈ simGiven s.tr ∨ CancelledFirst c s.tr i := by
  obtain ⟨h1, h2⟩ := clear hb hstd h hprot _ rfl
  have first : ∀ i, i ∈ simGiven s.tr ∨ CancelledOnce c s.tr i → i ∈ simGiven s.tr ∨ CancelledFirst c s.tr i := by
    intro i hi
    by_cases hg : i ∈ simGiven s.tr
    · exact .inl hg
    · rcases hi with hi | ⟨post, pre, he, hf⟩
      · exact .inl hi
      · refine .inr ⟨post, pre, he, hf, fun hgi => hg ?_⟩
        rw [he, simGiven_append]; exact List.mem_append_right _ hgi
  intro i h3 h4
  rcases h2 ⟨_, List.mem_cons_self, ht⟩ with ⟨_, g2⟩ | ⟨g1, g2⟩
  · exact first i (g2 i h3 h4)
  · obtain ⟨⟨k, o⟩, hk⟩ := Option.ne_none_iff_exists'.mp g1
    have hpast := past hk h rfl i (by omega) (by omega)
    have hnil : handRows (.hand ((w, wk, t) :: rest)) = [] := by
      have hall : ∀ x ∈ (w, wk, t) :: rest, x.2.1.tag = EVAL_GEN := by
        intro x hx
        rcases List.mem_cons.mp hx with rfl | hx
        · exact ht
        · exact (List.pairwise_cons.mp h1).1 x hx ht
      simp only [handRows, workRows, List.flatMap_eq_nil_iff, List.mem_map]
      rintro e ⟨x, hx, rfl⟩
      simp only [hall x hx]
      rw [if_neg (Ne.symm sim_not_gen)]
    rw [hnil, List.append_nil, hm] at hpast
    rcases hpast with h5 | h5 | h5
    · exact .inl h5
    · exact first i (.inr h5)
    · simp at h5

end Verif.Manager
