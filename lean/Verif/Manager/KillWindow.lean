import Verif.Manager.KillRun
/-
The window of rows in which the manager looks for cancelled simulations.
-/
namespace Verif.Manager
open Verif.History Verif.Res Verif.Sched Verif.Alloc

variable {sp : Specs} {P : St → Reply → Prop} {s0 : St}

theorem Micros.index {Q : Ev → Prop} {a b : St} (h : Micros sp Q a b) : a.hist.index ≤ b.hist.index := by
  refine h.inv (I := fun b => a.hist.index ≤ b.hist.index) (fun x y hxy hx => ?_) (Nat.le_refl _)
  cases hxy with
  | op o hq => exact Nat.le_trans hx (apply_struct _ o).2.2.1
  | mod w f h => rw [modW_hist]; exact hx
  | _ => exact hx

/-- Every order for evaluation names only rows after all rows given before. -/
def Rising (tr : List Ev) : Prop :=
  Always (onOrder fun pre _ _ wk => wk.tag = EVAL_SIM → ∀ j ∈ wk.rows, ∀ i ∈ simGiven pre, i < j) tr

/-- The functions that work through the rows with a pointer, one row per order. -/
def Bundled.steady : Bundled → Bool
  | .fast _ | .oneGen | .pregen => true
  | _ => false

theorem steady_prio {b : Bundled} (h : b.steady = true) : b.byPriority = false := by cases b <;> simp [Bundled.steady, Bundled.byPriority] at h ⊢

theorem steady_answer {b : Bundled} (hb : b.steady = true) {c : Ctx} (hW : IdsOk c.W) {p : PInfo} {s : Sched} {a : Answer}
    (h : b.call c p s = .ok a) : (workRows a.work).Pairwise (· < ·) ∧ ∀ i ∈ workRows a.work, p.nextToGive.getD 0 ≤ i := by
  have key : ∀ k : Alloc.Kind, ∀ o, callOrd k c o p s = .ok a →
      (workRows a.work).Pairwise (· < ·) ∧ ∀ i ∈ workRows a.work, p.nextToGive.getD 0 ≤ i := by
    intro k o hk
    obtain ⟨h1, h2, _, h4, _⟩ := (callOrd_inorder hW hk).facts
    rw [← workRows_eq] at h2 h4
    exact ⟨h2, fun i hi => (h4 i hi).1⟩
  cases b with
  | fast o => exact key .fast o h
  | oneGen => exact key .oneGen {} h
  | pregen => exact key .pregen {} h
  | _ => simp [Bundled.steady] at hb

theorem steady_behind {b : Bundled} (hb : b.steady = true) {p : PInfo} {l : List Nat} (h : b.behind p l) : ∀ i ∈ l, i < p.nextToGive.getD 0 := by
  cases b with
  | fast o => exact h
  | oneGen => exact h
  | pregen => exact h
  | _ => simp [Bundled.steady] at hb

/-- Rows given so far and rows at hand are in order. -/
theorem steady_hand {c : Start} {b : Bundled} (hb : b.steady = true) {env : AllocEnv} {p : Ph} {s : St}
    (h : Reach c.sp (b.P env c.sp) c.st p s) :
    (handRows p).Pairwise (· < ·) ∧ ∀ i ∈ simGiven s.tr, ∀ j ∈ handRows p, i < j := by
  have hbeh : b.behind c.pinfo [] := by
    cases b with
    | aposmm lp n => simp [Bundled.steady] at hb
    | _ => intro i hi; simp at hi
  refine h.sends (I := fun p s => (handRows p).Pairwise (· < ·) ∧ ∀ i ∈ simGiven s.tr, ∀ j ∈ handRows p, i < j) ?_ ?_ ?_ ?_
  · exact ⟨by simp [handRows], by simp [handRows]⟩
  · intro p p' s s' _ _ _ _ _ _ hh
    rw [hh]; exact ⟨by simp, by simp⟩
  · intro s cs work p t hr hP ⟨h1, h2⟩ hr'
    obtain ⟨now, ord, hord, rfl, hcall⟩ := hP.ok
    have hW : IdsOk (ctxOf env c.sp ord (b.marked now s)).W := by have h9 := start_idsOk hr; exact h9
    obtain ⟨g1, g2⟩ := steady_answer hb hW hcall
    have h3 := steady_behind hb ((once_ord (steady_prio hb) hbeh hr).2 rfl)
    rw [handRows_map]
    refine ⟨g1, fun i hi j hj => ?_⟩
    have h4 : i ∈ simGiven s.tr := hi
    have := h3 i (List.mem_append_left _ h4)
    have := g2 j hj
    omega
  · intro s w wk t rest p' hr hcase hr' ⟨h1, h2⟩
    rcases hcase with ⟨rfl, hok⟩ | ⟨_, hn⟩
    · rw [handRows_cons] at h1 h2
      rw [List.pairwise_append] at h1
      refine ⟨h1.2.1, fun i hi j hj => ?_⟩
      rcases simGiven_handOut (sp := c.sp) s wk w t with h3 | h3 <;> rw [h3] at hi
      · exact h2 i hi j (List.mem_append_right _ hj)
      · rcases List.mem_append.mp hi with hi | hi
        · exact h1.2.2 i hi j hj
        · exact h2 i hi j (List.mem_append_right _ hj)
    · rw [hn]; exact ⟨by simp, by simp⟩

theorem steady_rising {c : Start} {b : Bundled} (hb : b.steady = true) {env : AllocEnv} {p : Ph} {s : St}
    (h : Reach c.sp (b.P env c.sp) c.st p s) : Rising s.tr := by
  have h1 : Always (onOrder fun pre _ _ wk => Manager.hasFinal pre = false → wk.tag = EVAL_SIM → ∀ j ∈ wk.rows, ∀ i ∈ simGiven pre, i < j) s.tr := by
    refine h.orders (by rw [start_tr]; exact .nil) (by rw [start_tr]; rfl) (fun pre to key wk hf h => by rw [hf] at h; simp at h) ?_
    intro s w wk t rest k wk' l0 hr _ _ _ hwk hl0 _ ht j hj i hi
    have h2 := (steady_hand hb hr).2
    have ht' : wk.tag = EVAL_SIM := by rw [hwk] at ht; exact ht
    have hj' : j ∈ wk.rows := by rw [hwk] at hj; exact hj
    refine h2 i ?_ j ?_
    · rw [simGiven_append] at hi
      rcases hl0 with rfl | ⟨team, rfl⟩
      · simpa [simGiven] using hi
      · simpa [simGiven, simRowsOf] using hi
    · rw [handRows_cons, simRows, if_pos ht']; exact List.mem_append_left _ hj'
  intro post e pre he
  cases e with
  | order to key wk =>
    intro ht
    cases hf : Manager.hasFinal pre with
    | false => exact h1 post _ pre he hf ht
    | true =>
      have := h.lateOrders start_tr post _ pre he hf
      rw [this] at ht
      simp [PERSIS_STOP, EVAL_SIM] at ht
  | _ => trivial

/-- Orders of these functions name rows that exist. -/
def Bundled.exact : Bundled → Bool
  | .oneGen | .pregen => false
  | _ => true

theorem exact_answer {b : Bundled} (hb : b.exact = true) {c : Ctx} (hW : IdsOk c.W) (hord : ∀ l, (c.ord l).Perm l)
    {p : PInfo} {s : Sched} {a : Answer} (hl : b.behind p []) (h : b.call c p s = .ok a) :
    ∀ i ∈ workRows a.work, i < c.H.length := by
  have prio : b.byPriority = true → ∀ i ∈ workRows a.work, i < c.H.length := by
    intro hp i hi
    obtain ⟨r, h1, _, _⟩ := mem_waiting.mp ((prio_answer hp hW hord h).2 i hi)
    exact (List.getElem?_eq_some_iff.mp h1).1
  cases b with
  | simFirst o => exact prio rfl
  | persGens o => exact prio rfl
  | fd o => exact prio rfl
  | invBayes o like => exact prio rfl
  | localOpt o => exact prio rfl
  | oneGen => simp [Bundled.exact] at hb
  | pregen => simp [Bundled.exact] at hb
  | fast o =>
    intro i hi
    simp only [workRows, List.mem_flatMap] at hi
    obtain ⟨⟨w, wk⟩, h1, h2⟩ := hi
    split at h2
    · rename_i ht
      exact C35_fast_alloc_rows_exist c hW o p s a h w wk h1 ht i h2
    · simp at h2
  | aposmm lp n0 =>
    rcases apo_spec hW (fun hf => (hl.2 hf).1) h with ⟨h1, _⟩ | ⟨h1, _⟩ | ⟨p1, rets, sims, gens, wr, wsim, wg, n, n', hn, hf1, hsame, hfirst, hp⟩
    · rw [h1]; simp [workRows]
    · rw [h1]; simp [workRows]
    · have hperm := workRows_perm hp.perm
      rw [workRows_append, workRows_append, workRows_gens (fun e he => (hp.ret e he).1.tag),
        workRows_gens (fun e he => (hp.gen e he).tag), List.nil_append, List.append_nil] at hperm
      have hsub := workRows_sub (a := sims.filter (fun x => decide (x.1 ∉ keys gens))) (b := sims) List.filter_sublist
      have heq : workRows sims = (rowsOf sims).flatten := by rw [workRows_eq, simChunks_sims hp.sim.shape]
      rw [heq] at hsub
      intro i hi
      obtain ⟨ids, h1, h2⟩ := List.mem_flatten.mp (hsub.subset (hperm.mem_iff.mp hi))
      exact hp.exist ids h1 i h2

/-- Orders of these functions are for visible rows. -/
theorem exact_visible {c : Start} {b : Bundled} (hb : b.exact = true) (hbeh : b.behind c.pinfo []) {env : AllocEnv} {p : Ph} {s : St}
    (h : Reach c.sp (b.P env c.sp) c.st p s) : VisibleOrders c.hist s.tr := by
  have h1 : Always (onOrder fun pre _ _ wk => Manager.hasFinal pre = false → wk.tag = EVAL_SIM → ∀ i ∈ wk.rows, i < (histAt c.hist pre).index) s.tr := by
    refine h.orders (by rw [start_tr]; exact .nil) (by rw [start_tr]; rfl) (fun pre to key wk hf h => by rw [hf] at h; simp at h) ?_
    intro s w wk t rest k wk' l0 hr _ _ _ hwk hl0 _ ht i hi
    have ht' : wk.tag = EVAL_SIM := by rw [hwk] at ht; exact ht
    have hi' : i ∈ wk.rows := by rw [hwk] at hi; exact hi
    have hq := hr.handQ (Q := fun h _ wk => wk.tag = EVAL_SIM → ∀ i ∈ wk.rows, i < h.index) (fun s cs work p hr hP e he ht i hi => ?_) ?_
      _ rfl (w, wk, t) (by simp) ht' i hi'
    · rw [start_histAt hr] at hq
      refine Nat.lt_of_lt_of_le hq ?_
      exact histAt_index _ _ _
    · obtain ⟨now, ord, hord, rfl, hcall⟩ := hP.ok
      have hW : IdsOk (ctxOf env c.sp ord (b.marked now s)).W := by have h9 := start_idsOk hr; exact h9
      have h2 := exact_answer hb hW hord (behind_any hbeh hr rfl) hcall i (by
        simp only [workRows, List.mem_flatMap]
        exact ⟨e, he, by rw [if_pos ht]; exact hi⟩)
      have h3 : (ctxOf env c.sp ord (b.marked now s)).H = trimH (b.marked now s).hist := rfl
      rw [h3] at h2
      simp only [trimH, List.length_take] at h2
      have h4 : (b.marked now s).hist = (doOp s (.requestCancel (b.cancels (trimH s.hist) now))).1.hist := rfl
      rw [← h4]
      omega
    · intro s wk w t w' wk' hq ht i hi
      refine Nat.lt_of_lt_of_le (hq ht i hi) ?_
      exact (micros_handOut s wk w t).index
  intro post e pre he
  cases e with
  | order to key wk =>
    intro ht
    cases hf : Manager.hasFinal pre with
    | false => exact h1 post _ pre he hf ht
    | true =>
      have := h.lateOrders start_tr post _ pre he hf
      rw [this] at ht
      simp [PERSIS_STOP, EVAL_SIM] at ht
  | _ => trivial

/-- Rows before the window are evaluated. -/
theorem below_ended {c : Start} (hc : c.Std) {tr : List Ev} (hk : OpsOk c tr) {i : Nat} (hi : (i : Int) ≤ (histAt c.hist tr).lastEnded) :
    Ended (histAt c.hist tr) i := by
  induction tr with
  | nil =>
    rw [histAt_nil] at hi
    have : c.hist.lastEnded = -1 := rfl
    omega
  | cons e tr ih =>
    have hk' : OpsOk c tr := OpsOk.suffix (l := [e]) hk
    have keep : (i : Int) ≤ (histAt c.hist tr).lastEnded → Ended (histAt c.hist (e :: tr)) i :=
      fun h => ended_keep (l := [e]) hc hk (ih hk' h)
    by_cases ho : ∃ o, e = .op o
    · obtain ⟨o, rfl⟩ := ho
      rw [histAt_op] at hi
      by_cases hs : ∃ r d t k, o = .simReturn r d t k
      · obtain ⟨r, d, t, k, rfl⟩ := hs
        rcases apply_simReturn_last (histAt c.hist tr) r d t k with h1 | ⟨n, h1⟩
        · rw [h1] at hi; exact keep hi
        · by_cases hle : (i : Int) ≤ (histAt c.hist tr).lastEnded
          · exact keep hle
          · rw [h1] at hi
            have hw := (start_win tr (init_win c)).1
            obtain ⟨x, h2, h3⟩ := advanceEnded_ended _ _ _ _ (by omega) i (by omega) hi
            exact ⟨x, by rw [histAt_op]; exact h2, h3⟩
      · rw [(apply_lasts _ o).1 (fun r d t k he => hs ⟨r, d, t, k, he⟩)] at hi
        exact keep hi
    · rw [histAt_skip _ _ (fun o hh => ho ⟨o, hh⟩)] at hi
      exact keep hi

/-- All updates went through. -/
def OpsFine (h0 : Hist) (tr : List Ev) : Prop := Always (fun pre e => ∀ o, e = .op o → (apply (histAt h0 pre) o).2 = none) tr

theorem fine_ops {h0 : Hist} {tr : List Ev} (h : (History.run h0 (opsOf tr)).2 = none) : OpsFine h0 tr := by
  have key : ∀ tr, (History.run h0 (opsOf tr)).2 = none → OpsFine h0 tr ∧ (History.run h0 (opsOf tr)).1 = histAt h0 tr := by
    intro tr
    induction tr with
    | nil => intro _; exact ⟨Always.nil, rfl⟩
    | cons e tr ih =>
      intro h
      by_cases ho : ∃ o, e = .op o
      · obtain ⟨o, rfl⟩ := ho
        rw [opsOf_cons] at h ⊢
        simp only at h ⊢
        rw [hrun_append] at h ⊢
        cases hr : (History.run h0 (opsOf tr)).2 with
        | some e => simp [hr] at h
        | none =>
          obtain ⟨g1, g2⟩ := ih hr
          simp only [hr, g2] at h ⊢
          have h3 : (apply (histAt h0 tr) o).2 = none := by
            simp only [History.run] at h
            generalize apply (histAt h0 tr) o = x at h
            obtain ⟨a, b⟩ := x
            cases b with
            | none => rfl
            | some b => simp at h
          refine ⟨always_cons.mpr ⟨fun o' he => ?_, g1⟩, ?_⟩
          · cases he; exact h3
          · rw [histAt_op]
            simp only [History.run]
            generalize apply (histAt h0 tr) o = x at h3
            obtain ⟨a, b⟩ := x
            simp only at h3
            subst h3
            rfl
      · have h1 : opsOf (e :: tr) = opsOf tr := by
          rw [opsOf_cons]
          cases e with
          | op o => exact absurd ⟨o, rfl⟩ ho
          | _ => simp
        rw [h1] at h ⊢
        obtain ⟨g1, g2⟩ := ih h
        refine ⟨always_cons.mpr ⟨fun o he => absurd ⟨o, he⟩ ho, g1⟩, ?_⟩
        rw [g2, histAt_skip _ _ (fun o hh => ho ⟨o, hh⟩)]
  exact (key tr h).1

/-- Each entry "sent for evaluation" comes right after its order. -/
def GivenAfter (pre : List Ev) : Ev → Prop
  | .op (.giveSim rows w _ k) => k = true ∧ ∃ to wk l pre', pre = l ++ .order to w wk :: pre' ∧ (∀ e ∈ l, ∀ o, e ≠ .op o) ∧
      wk.tag = EVAL_SIM ∧ wk.rows = rows
  | _ => True

/-- All rows given are within the window's upper end. -/
theorem given_below {h0 : Hist} {tr : List Ev} (hr : Rising tr) (hf : OpsFine h0 tr) (hg : Always GivenAfter tr)
    {rows : List Nat} {w : Nat} {t : Int} {k : Bool} (hm : .op (.giveSim rows w t k) ∈ tr) {i : Nat} (hi : i ∈ rows) :
    (i : Int) ≤ (histAt h0 tr).lastStarted := by
  induction tr with
  | nil => simp at hm
  | cons e tr ih =>
    have hr' : Rising tr := Always.suffix (l := [e]) hr
    have hf' : OpsFine h0 tr := Always.suffix (l := [e]) hf
    have hg' : Always GivenAfter tr := Always.suffix (l := [e]) hg
    by_cases ho : ∃ o, e = .op o
    · obtain ⟨o, rfl⟩ := ho
      rw [histAt_op]
      by_cases hs : ∃ r w t k, o = .giveSim r w t k
      · obtain ⟨rows1, w1, t1, k1, rfl⟩ := hs
        obtain ⟨hk, to, wk, l, pre', h1, h2, h3, h4⟩ := (always_cons.mp hg).1
        subst hk
        obtain ⟨g1, g2⟩ := apply_giveSim_last_ok _ rows1 w1 t1 ((always_cons.mp hf).1 _ rfl)
        rw [g1]
        have hmax : i ≤ maxNat rows1 := by
          rcases List.mem_cons.mp hm with hm | hm
          · cases hm; exact maxNat_ge hi
          · obtain ⟨j, hj⟩ := List.exists_mem_of_ne_nil _ g2
            have hm' : Ev.op (.giveSim rows w t k) ∈ pre' := by
              rw [h1] at hm
              rcases List.mem_append.mp hm with hm | hm
              · exact absurd rfl (h2 _ hm _)
              · rcases List.mem_cons.mp hm with hm | hm
                · cases hm
                · exact hm
            obtain ⟨p1, p2, e1⟩ := List.append_of_mem hm'
            obtain ⟨_, to', wk', l', pre'', e2, _, e3, e4⟩ := hg' (l ++ .order to w1 wk :: p1) (.op (.giveSim rows w t k)) p2 (by rw [h1, e1]; simp)
            have hin : i ∈ simGiven pre' := by
              rw [e1, e2]
              simp only [simGiven, List.mem_flatMap]
              exact ⟨.order to' w wk', by simp, by simp only [simRowsOf, e3, if_true, e4]; exact hi⟩
            have := hr' l (.order to w1 wk) pre' h1 h3 j (by rw [h4]; exact hj) i hin
            have := maxNat_ge hj
            omega
        omega
      · rw [(apply_lasts _ o).2 (fun r w t k he => hs ⟨r, w, t, k, he⟩)]
        refine ih hr' hf' hg' ?_
        rcases List.mem_cons.mp hm with hm | hm
        · cases hm; exact absurd ⟨_, _, _, _, rfl⟩ hs
        · exact hm
    · rw [histAt_skip _ _ (fun o hh => ho ⟨o, hh⟩)]
      refine ih hr' hf' hg' ?_
      rcases List.mem_cons.mp hm with hm | hm
      · exact absurd ⟨_, hm.symm⟩ ho
      · exact hm

end Verif.Manager
