import Verif.Manager.PropsEnds
import Verif.Manager.PropsGens
/-!
Runs with `only_persistent_gens`: there are at most as many orders to generators as generators may be started and rows may be evaluated.
-/
namespace Verif.Manager
open Verif.History Verif.Res Verif.Sched Verif.Alloc

/-- What the orders of `only_persistent_gens` look like. -/
def OpgShape (o : UserOpts) (wk : Work) : Prop :=
  (wk.tag = EVAL_SIM ∧ wk.rows ≠ [] ∧ wk.activeRecv = none) ∨ (wk.tag = EVAL_GEN ∧ wk.activeRecv = some o.activeRecvGen)

theorem opg_shape {c : Ctx} {o : UserOpts} {p : PInfo} {s : Sched} {a : Answer} (hW : IdsOk c.W) (hord : ∀ l, (c.ord l).Perm l)
    (h : onlyPersistentGens c o p s = .ok a) : ∀ e ∈ a.work, OpgShape o e.2 := by
  intro e he
  rcases opg_spec hW hord h with h2 | ⟨h2, _⟩ | ⟨rets, sims, gens, wr, wsim, wg, pts', hp⟩
  · rw [h2] at he; simp at he
  · rw [h2] at he; simp at he
  · rw [hp.perm.mem_iff, List.mem_append, List.mem_append] at he
    rcases he with (he | he) | he
    · exact .inr ⟨(hp.ret _ he).1.tag, (hp.ret _ he).1.recv⟩
    · have he := (List.mem_filter.mp he).1
      exact .inl ⟨(hp.sim.shape _ he).tag, (hp.sim.greedy.parts (rowsWhere_nodup _ _)).2.2.2 _ (List.mem_map_of_mem he), (hp.sim.shape _ he).recv⟩
    · exact .inr ⟨(hp.gen _ he).tag, (hp.gen _ he).recv⟩

variable {c : Start} {o : UserOpts} {env : AllocEnv}

theorem opg_hand {p : Ph} {s : St} (h : Reach c.sp ((Bundled.persGens o).P env c.sp) c.st p s) :
    ∀ l, p = .hand l → ∀ x ∈ l, OpgShape o x.2.1 := by
  refine h.handQ (Q := fun _ _ wk => OpgShape o wk) (fun s cs work p hr hP e he => ?_) (fun _ _ _ _ _ _ h => h)
  obtain ⟨now, ord, hord, rfl, hcall⟩ := hP.ok
  have hW : IdsOk (ctxOf env c.sp ord ((Bundled.persGens o).marked now s)).W := by have h9 := start_idsOk hr; exact h9
  exact opg_shape hW hord hcall e he

theorem opg_orders {p : Ph} {s : St} (h : Reach c.sp ((Bundled.persGens o).P env c.sp) c.st p s) :
    Always (onOrder fun pre _ _ wk => Manager.hasFinal pre = false → OpgShape o wk) s.tr := by
  refine h.orders (by rw [start_tr]; exact .nil) (by rw [start_tr]; rfl) (fun pre to key wk hf h => by rw [hf] at h; simp at h) ?_
  intro s w wk t rest k wk' l0 hr _ _ _ hwk _ _
  rw [hwk]
  exact opg_hand hr _ rfl (w, wk, t) List.mem_cons_self

/-! ### Counting orders to generators -/

/-- Number of orders that return results: orders for a generator to a worker at which one runs. -/
def genReturns : List Ev → Nat
  | [] => 0
  | e :: tr => (match e with
    | .order to _ wk => if wk.tag = EVAL_GEN ∧ (view to tr).persis = EVAL_GEN then 1 else 0
    | _ => 0) + genReturns tr

theorem genOrders_sum (tr : List Ev) : tr.countP (isOrder EVAL_GEN) = genStarts tr + genReturns tr := by
  induction tr with
  | nil => rfl
  | cons e tr ih =>
    rw [List.countP_cons, ih]
    cases e with
    | order to key wk =>
      simp only [isOrder, decide_eq_true_eq, genStarts, genReturns]
      by_cases h1 : wk.tag = EVAL_GEN <;> by_cases h2 : (view to tr).persis = EVAL_GEN <;> simp [h1, h2] <;> omega
    | _ => simp only [isOrder, genStarts, genReturns, Bool.false_eq_true, if_false]; omega

theorem genReturns_skip {l : List Ev} (tr : List Ev) (h : ∀ e ∈ l, e.isOrder = false) : genReturns (l ++ tr) = genReturns tr := by
  induction l with
  | nil => rfl
  | cons e l ih =>
    have h1 := h e List.mem_cons_self
    have h2 := ih (fun e he => h e (List.mem_cons_of_mem _ he))
    cases e <;> first | exact (Nat.zero_add _).trans h2 | simp [Ev.isOrder] at h1

theorem Micros.genReturns {sp : Specs} {Q : Ev → Prop} {a b : St} (h : Micros sp Q a b) (hq : ∀ e, Q e → e.isOrder = false) :
    Manager.genReturns b.tr = Manager.genReturns a.tr := by
  obtain ⟨l, hl, hle⟩ := h.tr
  rw [hl, genReturns_skip _ (fun e he => hq e (hle e he))]

/-- At most `num_active_gens` generators are started. -/
theorem starts_le {p : Ph} {s : St} (h : Reach c.sp ((Bundled.persGens o).P env c.sp) c.st p s) (hp : p.main = true) :
    genStarts s.tr ≤ o.numActiveGens.getD 1 := by
  have ha := orders_main h hp (gens_orders h)
  generalize s.tr = tr at ha
  clear h
  induction tr with
  | nil => exact Nat.zero_le _
  | cons e tr ih =>
    obtain ⟨h1, h2⟩ := always_cons.mp ha
    have ih := ih h2
    cases e with
    | order to key wk =>
      simp only [genStarts]
      split
      · rename_i hs
        obtain ⟨_, _, h3, h4⟩ := h1
        rcases h4 with h4 | ⟨_, _, h4 | h4⟩
        · rw [h4] at hs; exact absurd hs.1 sim_not_gen
        · exact absurd h4.running hs.2
        · have := h4.room; omega
      · omega
    | _ => simp only [genStarts]; omega

/-- A row that did not come with the history and is marked as evaluated was given. -/
theorem ended_was_given (hstd : c.Std) {P : St → Reply → Prop} {p : Ph} {s : St} (h : Reach c.sp P c.st p s) (hprot : c.Protected s.tr)
    (hrecv : RecvOk s.tr) (hh : Honest s.tr) {i : Nat} (h0 : c.H0.rows.length ≤ i) (hi : Ended s.hist i) : i ∈ simGiven s.tr := by
  have hk := start_kept h hprot
  have hz : ¬ Ended c.hist i := by
    rintro ⟨r, hr, hf⟩
    have hlt : i < c.H0.rows.length + c.L := by
      have := (List.getElem?_eq_some_iff.mp hr).1
      rw [show c.hist.rows.length = c.H0.rows.length + c.L from init_length _ _ _ _] at this
      exact this
    have h3 := init_get_fresh c.cols c.L c.H0 c.safe i h0 hlt
    rw [show (init c.cols c.L c.H0 c.safe).rows[i]? = some r from hr] at h3
    cases h3
    have h4 : freshRow (init c.cols c.L c.H0 c.safe).cols .simEnded = .s 0 :=
      freshRow_lib _ hstd.lib.scalar .simEnded (by simp [libEFields]) (by simp) (by simp) (by simp)
    simp [Row.flag, h4] at hf
  have key : ∀ post pre, s.tr = post ++ pre → Ended (histAt c.hist pre) i → i ∈ simGiven pre := by
    intro post pre
    induction pre generalizing post with
    | nil => intro _ he; exact absurd he hz
    | cons e pre ih =>
      intro he h1
      rw [show e :: pre = [e] ++ pre from rfl, simGiven_append]
      by_cases h2 : Ended (histAt c.hist pre) i
      · exact List.mem_append_right _ (ih (post ++ [e]) (by rw [he]; simp) h2)
      · obtain ⟨w, d, t, k, pre', _, _, _, ⟨key0, hs⟩, _⟩ := ended_given hstd h hk hrecv hh he h2 h1
        exact List.mem_append_right _ hs.given
  exact key [] s.tr rfl (by rw [start_histAt h] at hi; exact hi)

theorem opg_recvOk {p : Ph} {s : St} (h : Reach c.sp ((Bundled.persGens o).P env c.sp) c.st p s) (hp : p.main = true) : RecvOk s.tr := by
  intro to key wk hm ht
  have := always_mem (orders_main h hp (opg_orders h)) (R := OpgShape o) (fun _ _ _ _ h => h) to key wk hm
  rcases this with h1 | h1
  · exact .inr h1.2.2
  · rw [ht] at h1; exact absurd h1.1 sim_not_gen

/-- Every order that returns results sends a row. -/
theorem returns_back {p : Ph} {s : St} (h : Reach c.sp ((Bundled.persGens o).P env c.sp) c.st p s) (hp : p.going = true) :
    genReturns s.tr ≤ (givenBack s.tr).length := by
  induction h with
  | init => rw [start_tr]; exact Nat.zero_le _
  | @test s e hr h1 ih =>
    rw [show genReturns (emit s (.test 0)).tr = genReturns s.tr from genReturns_skip (l := [_]) _ (by simp [Ev.isOrder]),
      show givenBack (emit s (.test 0)).tr = givenBack s.tr from givenBack_skip (l := [_]) _ (by simp [Ev.isRows])]
    exact ih rfl
  | kill hr h1 ih =>
    rw [givenBack_kill, (micros_killCancelled _).genReturns (fun e h => by cases h <;> rfl)]; exact ih rfl
  | mail w m t hr hw h1 ih =>
    rw [givenBack_msg, (micros_handleMsg _ w m t).genReturns (fun e h => by cases h <;> rfl)]; exact ih rfl
  | save hr ih =>
    rw [givenBack_save, (micros_saveK (Q := fun _ => False) _ _).genReturns (fun e h => h.elim)]; exact ih rfl
  | @allocOk s cs work p t hr h1 ih =>
    have e1 : genReturns (doOp s (.requestCancel cs)).1.tr = genReturns s.tr := genReturns_skip (l := [_]) _ (by simp [Ev.isOrder])
    have e2 : givenBack (doOp s (.requestCancel cs)).1.tr = givenBack s.tr := givenBack_skip (l := [_]) _ (by simp [Ev.isRows])
    show genReturns (doOp s (.requestCancel cs)).1.tr ≤ (givenBack (doOp s (.requestCancel cs)).1.tr).length
    rw [e1, e2]; exact ih rfl
  | @give s w wk t rest hr hm h1 ih =>
    have hr' := Reach.give hr hm h1
    have ho := orders_main hr' rfl (gens_orders hr')
    obtain ⟨_, k, wk', l0, l, hG, _⟩ := handOut_ok h1
    have hv : VI c.sp s := (hr.vi start_vi (by rw [start_tr]; rfl) start_pending rfl).1
    have hsh := opg_hand hr _ rfl (w, wk, t) List.mem_cons_self
    have hst : wk.tag ≠ PERSIS_STOP := by
      rcases hsh with h | h <;> rw [h.1] <;> decide
    have htag : wk'.tag = wk.tag := by rw [hG.order]
    have hrows : wk'.rows = wk.rows := by rw [hG.order]
    obtain ⟨ops, hops, htr⟩ : ∃ ops : List Ev, (∀ e ∈ ops, e.isOrder = false) ∧
        (handOut c.sp s wk w t).1.tr = ops ++ (l ++ .order (idAt c.sp k) w wk' :: (l0 ++ s.tr)) := by
      refine ⟨_, ?_, hG.tr⟩
      cases orderOp c.sp wk w t <;> simp [Ev.isOrder]
    obtain ⟨q1, q2, _, q4⟩ := ho (ops ++ l) (.order (idAt c.sp k) w wk') (l0 ++ s.tr) (by rw [htr]; simp)
    have hw : w ∈ ids s := by rw [hr.micros.ids, start_ids, ← q1]; exact q2
    rw [givenBack_gave hG hv hw hst, List.length_append, htr]
    have hl0 : ∀ e ∈ l0, e.isOrder = false := by
      rcases hG.before with h | ⟨team, h, _⟩ <;> rw [h] <;> simp [Ev.isOrder]
    have e1 : genReturns (ops ++ (l ++ .order (idAt c.sp k) w wk' :: (l0 ++ s.tr))) = genReturns (.order (idAt c.sp k) w wk' :: (l0 ++ s.tr)) := by
      rw [← List.append_assoc]
      refine genReturns_skip _ (fun e he => ?_)
      rcases List.mem_append.mp he with he | he
      · exact hops e he
      · rw [hG.after] at he
        split at he
        · simp at he
        · simp only [List.mem_singleton] at he; subst he; rfl
    rw [e1]
    simp only [genReturns]
    rw [genReturns_skip _ hl0]
    have := ih rfl
    split
    · rename_i hs
      rcases q4 with h | ⟨_, _, h | h⟩
      · rw [h] at hs; exact absurd hs.1 sim_not_gen
      · have hne : retRows s.W (w, wk) ≠ [] := by
          have hb := backOf_rows hv hw hG.pos hG.order hG.before hst []
          rw [← hb]
          simp only [backOf, hs.1, hs.2, and_self, true_or, if_true]
          rw [← hrows]; exact h.nonempty
        have : 0 < (retRows s.W (w, wk)).length := List.length_pos_iff.mpr hne
        omega
      · have := h.idle.2
        rw [hs.2] at this; exact absurd this (by decide)
    · omega
  | again hr h1 h2 ih => exact ih rfl
  | _ => simp [Ph.going] at hp

/-- A row that was returned to a generator came with the history or was given. -/
theorem back_given {p : Ph} {s : St} (hstd : c.Std) (h : Reach c.sp ((Bundled.persGens o).P env c.sp) c.st p s) (hp : p.going = true)
    (hprot : c.Protected s.tr) (hh : Honest s.tr) : ∀ i ∈ givenBack s.tr, i < c.H0.rows.length ∨ i ∈ simGiven s.tr := by
  have same : ∀ {a b : St}, (∃ l, b.tr = l ++ a.tr) → givenBack b.tr = givenBack a.tr → c.Protected b.tr → Honest b.tr →
      (c.Protected a.tr → Honest a.tr → ∀ i ∈ givenBack a.tr, i < c.H0.rows.length ∨ i ∈ simGiven a.tr) →
      ∀ i ∈ givenBack b.tr, i < c.H0.rows.length ∨ i ∈ simGiven b.tr := by
    rintro a b ⟨l, hl⟩ hb hpr hho ih i hi
    rw [hl] at hpr hho
    rw [hb] at hi
    rcases ih hpr.suffix hho.suffix i hi with h | h
    · exact .inl h
    · rw [hl, simGiven_append]; exact .inr (List.mem_append_right _ h)
  have mic : ∀ {a b : St} {Q : Ev → Prop}, Micros c.sp Q a b → ∃ l, b.tr = l ++ a.tr := fun h => by
    obtain ⟨l, hl, _⟩ := h.tr; exact ⟨l, hl⟩
  induction h with
  | init => rw [start_tr]; nofun
  | @test s e hr h1 ih => exact same ⟨[_], rfl⟩ (givenBack_skip (l := [_]) _ (by simp [Ev.isRows])) hprot hh (ih rfl)
  | kill hr h1 ih => exact same (mic (micros_killCancelled _)) (givenBack_kill _) hprot hh (ih rfl)
  | mail w m t hr hw h1 ih => exact same (mic (micros_handleMsg _ w m t)) (givenBack_msg ..) hprot hh (ih rfl)
  | save hr ih => exact same (mic (micros_saveK (Q := fun _ => False) _ _)) (givenBack_save ..) hprot hh (ih rfl)
  | @allocOk s cs work p t hr h1 ih => exact same ⟨[_], rfl⟩ (givenBack_skip (l := [_]) _ (by simp [Ev.isRows])) hprot hh (ih rfl)
  | @give s w wk t rest hr hm h1 ih =>
    have hr' := Reach.give hr hm h1
    have ho := orders_main hr' rfl (gens_orders hr')
    obtain ⟨_, k, wk', l0, l, hG, _⟩ := handOut_ok h1
    have hv : VI c.sp s := (hr.vi start_vi (by rw [start_tr]; rfl) start_pending rfl).1
    have hsh := opg_hand hr _ rfl (w, wk, t) List.mem_cons_self
    have hst : wk.tag ≠ PERSIS_STOP := by
      rcases hsh with h | h <;> rw [h.1] <;> decide
    have hrows : wk'.rows = wk.rows := by rw [hG.order]
    obtain ⟨ops, htr⟩ : ∃ ops : List Ev, (handOut c.sp s wk w t).1.tr = ops ++ (l ++ .order (idAt c.sp k) w wk' :: (l0 ++ s.tr)) := ⟨_, hG.tr⟩
    obtain ⟨q1, q2, _, q4⟩ := ho (ops ++ l) (.order (idAt c.sp k) w wk') (l0 ++ s.tr) (by rw [htr]; simp)
    have hw : w ∈ ids s := by rw [hr.micros.ids, start_ids, ← q1]; exact q2
    have htr' : (handOut c.sp s wk w t).1.tr = (ops ++ l ++ .order (idAt c.sp k) w wk' :: l0) ++ s.tr := by rw [htr]; simp
    rw [htr'] at hprot hh
    intro i hi
    rw [givenBack_gave hG hv hw hst, List.mem_append] at hi
    rw [htr', simGiven_append]
    rcases hi with hi | hi
    · have hb := backOf_rows hv hw hG.pos hG.order hG.before hst []
      rw [← hb] at hi
      simp only [backOf] at hi
      split at hi
      · rename_i hs
        have hs : wk'.tag = EVAL_GEN ∧ (view (idAt c.sp k) (l0 ++ s.tr)).persis = EVAL_GEN := by
          rcases hs with hs | hs
          · exact hs
          · rw [hG.order] at hs; exact absurd hs hst
        rcases q4 with h | ⟨_, _, h | h⟩
        · rw [h] at hs; exact absurd hs.1 sim_not_gen
        · obtain ⟨r, hr1, hr2, _⟩ := h.own i (hrows ▸ hi)
          have hsame : histAt c.hist (l0 ++ s.tr) = s.hist := by
            rw [start_histAt hr]
            rcases hG.before with h | ⟨_, h, _⟩ <;> rw [h] <;> simp [histAt, opsOf]
          rw [hsame] at hr1
          have he : Ended s.hist i := by
            refine ⟨r, ?_, hr2⟩
            simp only [trimH] at hr1
            rw [List.getElem?_take] at hr1
            split at hr1
            · exact hr1
            · simp at hr1
          by_cases h0 : i < c.H0.rows.length
          · exact .inl h0
          · exact .inr (List.mem_append_right _ (ended_was_given hstd hr hprot.suffix (opg_recvOk hr rfl) hh.suffix (by omega) he))
        · have := h.idle.2
          rw [hs.2] at this; exact absurd this (by decide)
      · simp at hi
    · rcases ih rfl hprot.suffix hh.suffix i hi with h | h
      · exact .inl h
      · exact .inr (List.mem_append_right _ h)
  | again hr h1 h2 ih => exact ih rfl hprot hh
  | _ => simp [Ph.going] at hp

/-- At most as many orders return results as rows came with the history or were given. -/
theorem returns_le (hstd : c.Std) {p : Ph} {s : St} (h : Reach c.sp ((Bundled.persGens o).P env c.sp) c.st p s) (hp : p.going = true)
    (hprot : c.Protected s.tr) (hh : Honest s.tr) : genReturns s.tr ≤ c.H0.rows.length + (simGiven s.tr).length := by
  have hB := h.back hstd (fun s cs work p hr hP => opg_frugal hr hP) hprot
  have h1 := returns_back h hp
  have h2 : (givenBack s.tr).length ≤ (List.range c.H0.rows.length ++ simGiven s.tr).length := by
    refine List.Nodup.length_le_of_subset (hB.nodup.sublist (List.sublist_append_left ..)) (fun i hi => ?_)
    rw [List.mem_append, List.mem_range]
    exact back_given hstd h hp hprot hh i hi
  rw [List.length_append, List.length_range] at h2
  omega

/-- The conditions on what workers do: protected fields are safe, every order is answered at most once (`Replies`) and simulations report
on the rows they were given (`Honest`). -/
structure Responding (c : Start) (tr : List Ev) : Prop where
  std : c.Std
  prot : c.Protected tr
  replies : Replies tr
  honest : Honest tr

theorem Responding.suffix {l tr : List Ev} (h : Responding c (l ++ tr)) : Responding c tr :=
  ⟨h.std, h.prot.suffix, h.replies.suffix, h.honest.suffix⟩

/-- At most as many orders return results as rows came with the history and `sim_max`. -/
theorem returns_total {m : Nat} (hm : c.sp.simMax = some m) {p : Ph} {s : St} (h : Reach c.sp ((Bundled.persGens o).P env c.sp) c.st p s)
    (hp : p.main = true) (hok : Responding c s.tr) : genReturns s.tr ≤ c.H0.rows.length + m := by
  have h1 : Always (onOrder fun pre _ _ _ => Manager.hasFinal pre = false → Responding c pre → genReturns pre < c.H0.rows.length + m) s.tr := by
    refine h.orders (by rw [start_tr]; exact .nil) (by rw [start_tr]; rfl) (fun pre to key wk hf h => by rw [hf] at h; simp at h) ?_
    intro s w wk t rest k wk' l0 hr hg _ _ hwk hl0 _ hok
    have hok := hok.suffix
    have h2 := returns_le hok.std hr rfl hok.prot hok.honest
    have h6 : (simGiven s.tr).length < m := by
      have hst := hr.started start_started rfl
      have ho := hr.offsets.1
      simp only [simMaxGiven, hm, decide_eq_false_iff_not, StartedOk] at hg hst
      have ho' : s.hist.simStartedOffset = c.hist.simStartedOffset := ho
      omega
    have hz : genReturns (l0 ++ s.tr) = genReturns s.tr := by
      refine genReturns_skip _ ?_
      rcases hl0 with h | ⟨_, h⟩ <;> rw [h] <;> simp [Ev.isOrder]
    omega
  have h2 := orders_main h hp h1
  generalize s.tr = tr at h2 hok
  clear h h1
  induction tr with
  | nil => exact Nat.zero_le _
  | cons e tr ih =>
    have hok' : Responding c tr := hok.suffix (l := [e])
    obtain ⟨h3, h4⟩ := always_cons.mp h2
    have ih := ih h4 hok'
    cases e with
    | order to key wk =>
      have := h3 hok'
      simp only [genReturns]
      split <;> omega
    | _ => simp only [genReturns]; omega

/-- Only a bounded number of answers reaches the manager: at most `sim_max` from simulations, and from generators at most one for each
generator that may be started, one for each row that came with the history and one for each evaluation. -/
theorem C68_persGens_answers_partial (c : Start) (o : UserOpts) (env : AllocEnv) (its : List Iter)
    (hits : ∀ it ∈ its, it.uses (.persGens o) env c.sp) (m : Nat) (hm : c.sp.simMax = some m) (hok : Responding c (c.loop its).1.tr) :
    answerCount EVAL_SIM (c.loop its).1.tr ≤ m ∧
    answerCount EVAL_GEN (c.loop its).1.tr ≤ o.numActiveGens.getD 1 + c.H0.rows.length + m := by
  obtain ⟨p, hp, hr⟩ := over_main hits
  generalize (c.loop its).1 = s at *
  have hws := order_workers hr hp
  constructor
  · have h1 := answers_orders (k := EVAL_SIM) (workers_nodup (c := c)) s.tr hok.replies hws
    have h2 := simOrders_le s.tr (hr.simMax hm rfl rfl) (onOrder_mono (orders_main hr hp (opg_orders hr)) (by
      intro pre to key wk h ht
      rcases h with h | h
      · exact h.2.1
      · rw [ht] at h; exact absurd h.1 sim_not_gen))
    omega
  · have h1 := answers_orders (k := EVAL_GEN) (workers_nodup (c := c)) s.tr hok.replies hws
    have h2 := genOrders_sum s.tr
    have h3 := starts_le hr hp
    have h4 := returns_total hm hr hp hok
    omega

/-- As long as the main loop goes on, an exit criterion is met or some worker owes an answer.  Partial: without active receive, where a
generator is never counted as busy. -/
theorem C68_persGens_waits_partial (c : Start) (o : UserOpts) (hact : o.activeRecvGen = false) (env : AllocEnv) (its : List Iter) (it : Iter)
    (hits : ∀ x ∈ its ++ [it], x.uses (.persGens o) env c.sp) (hans : Replies (c.loop (its ++ [it])).1.tr)
    (hrun : (c.loop (its ++ [it])).2 = .running) :
    termTest c.sp (c.loop (its ++ [it])).1.hist it.e2 ≠ 0 ∨ ∃ w ∈ c.workers, owes w (c.loop (its ++ [it])).1.tr ≠ none := by
  rcases loop_next its it c.st hrun with h | h
  · exact .inl h
  · right
    have hr := (mainLoop_reach (sp := c.sp) (its ++ [it]) c.st (P := (Bundled.persGens o).P env c.sp) (s0 := c.st)
      (fun x hm s => uses_P (hits x hm) s) .init).1 hrun
    exact active_owes hr rfl hans
      (always_mem (orders_main hr rfl (opg_orders hr)) (R := fun wk => (wk.persistent && wk.activeRecv.getD false) = false) (fun _ _ _ wk h => by
        rcases h with h | h
        · simp [h.2.2]
        · simp [h.2, hact])) h

/-- A run with `sim_max` and `only_persistent_gens` comes to its end: if the clock does not run backwards, workers behave (`Responding`) and
whoever owes an answer sends one (`Fair`), the main loop ends.  Partial: without active receive. -/
theorem C68_persGens_ends_partial (c : Start) (o : UserOpts) (hact : o.activeRecvGen = false) (env : AllocEnv) (f : Nat → Iter)
    (hits : ∀ k, (f k).uses (.persGens o) env c.sp) (m : Nat) (hm : c.sp.simMax = some m)
    (hok : ∀ k, Responding c (c.loop (passes f k)).1.tr) (hclock : ∀ k, (f k).e2 ≤ (f (k + 1)).e1) (hfair : Fair c f) :
    ∃ k, (c.loop (passes f k)).2 ≠ .running := by
  refine ends_of (m + (o.numActiveGens.getD 1 + c.H0.rows.length + m)) (fun k => ?_) (fun k hr => ?_) hclock hfair
  · obtain ⟨h1, h2⟩ := C68_persGens_answers_partial c o env (passes f k) (passes_use hits k) m hm (hok k)
    obtain ⟨p, hp, hr⟩ := over_main (passes_use hits k)
    have h3 := dataCount_le _ (hok k).replies
      (always_mem (orders_main hr hp (opg_orders hr)) (R := fun wk => wk.tag = EVAL_SIM ∨ wk.tag = EVAL_GEN) (fun _ _ _ wk h => h.imp (·.1) (·.1)))
    omega
  · have h1 := passes_use hits (k + 1)
    have h2 := (hok (k + 1)).replies
    rw [passes_succ] at hr h1 h2 ⊢
    exact C68_persGens_waits_partial c o hact env (passes f k) (f k) h1 h2 hr

end Verif.Manager
