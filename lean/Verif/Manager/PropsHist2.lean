import Verif.History.RowFrame
import Verif.Manager.PropsHist
import Verif.Manager.PropsTotals
/-!
What properties C03, C05, C07 and C08 of the history mean for whole runs.
-/
namespace Verif.Manager
open Verif.History Verif.Res Verif.Sched Verif.Alloc

/-! ### Cells that no later update writes -/

/-- A cell keeps its value from one moment to a later one, if no update in between writes it. -/
theorem cell_kept {h0 : Hist} {post pre : List Ev} (hs : ∀ o, .op o ∈ post → IdSafe o) {i : Nat} {f : Field}
    (hi : i < (histAt h0 pre).rows.length) (hf : f ∈ (histAt h0 pre).fields)
    (hno : ∀ post1 o post2, post = post1 ++ .op o :: post2 → o.touches (histAt h0 (post2 ++ pre)) i → f ∉ o.writes) :
    cell (histAt h0 (post ++ pre)).rows i f = cell (histAt h0 pre).rows i f := by
  have hfm : ∀ l : List Ev, f ∈ (histAt h0 (l ++ pre)).fields := by
    intro l
    induction l with
    | nil => exact hf
    | cons e l ih =>
      by_cases ho : ∃ o, e = .op o
      · obtain ⟨o, rfl⟩ := ho
        rw [List.cons_append, histAt_op]; exact (apply_struct _ o).2.2.2 f ih
      · rw [List.cons_append, histAt_skip _ _ (fun o he => ho ⟨o, he⟩)]; exact ih
  induction post with
  | nil => rfl
  | cons e post ih =>
    have ih := ih (fun o ho => hs o (List.mem_cons_of_mem _ ho)) (fun p1 o p2 he => hno (e :: p1) o p2 (by rw [he]; rfl))
    by_cases ho : ∃ o, e = .op o
    · obtain ⟨o, rfl⟩ := ho
      rw [List.cons_append, histAt_op, apply_cell_same (hs o List.mem_cons_self) (hno [] o post rfl)
        (Nat.lt_of_lt_of_le hi (histAt_length h0 post pre)) (hfm post), ih]
    · rw [List.cons_append, histAt_skip _ _ (fun o he => ho ⟨o, he⟩), ih]

theorem index_mono (h0 : Hist) (l tr : List Ev) : (histAt h0 tr).index ≤ (histAt h0 (l ++ tr)).index := by
  induction l with
  | nil => exact Nat.le_refl _
  | cons e l ih =>
    by_cases ho : ∃ o, e = .op o
    · obtain ⟨o, rfl⟩ := ho
      rw [List.cons_append, histAt_op]; exact Nat.le_trans ih (apply_struct _ o).2.2.1
    · rw [List.cons_append, histAt_skip _ _ (fun o he => ho ⟨o, he⟩)]; exact ih

/-- No generator names row `i` by its number (generators may overwrite the fields of points they name). -/
def NotNamed (tr : List Ev) (i : Nat) : Prop :=
  ∀ w D r, .recv w (.data D) ∈ tr → D.isGen = true → D.out = .arr r → Field.simId ∈ r.fields → ∀ x ∈ r.rows, x .simId ≠ .s i

/-- Which recorded update can change row `i`, when it is a row of the history and no generator names it. -/
theorem touch_cases {c : Start} {P : St → Reply → Prop} {p : Ph} {s : St} (hr : Reach c.sp P c.st p s) {i : Nat} (hn : NotNamed s.tr i)
    {post pre : List Ev} {o : Op} (he : s.tr = post ++ .op o :: pre) (hi : i < (histAt c.hist pre).index)
    (ht : o.touches (histAt c.hist pre) i) : ∀ w d ts t, o ≠ .genReturn w d ts t := by
  rintro w d ts t rfl
  obtain ⟨w', m, pre', hpre, hrec, _⟩ := hr.recF start_tr post _ pre he rfl
  rcases ht with ⟨_, h1⟩ | ⟨h1, x, hx, h2⟩
  · omega
  · cases m with
    | data D =>
      obtain ⟨g1, _, g2⟩ := hrec
      have ho : D.out = .arr d := by cases hh : D.out <;> simp [hh, Out.array] at g2; rw [g2]
      exact hn w' D d (by rw [he, hpre]; simp) g1 ho h1 x hx h2
    | _ => exact hrec.elim

/-! ### C03 -/

/-- The number of points that an event brings: those in an array of a generator, of a finished generator only if the
specifications ask for them. -/
def pointsOf (sp : Specs) : Ev → Nat
  | .recv _ (.data D) =>
    match D.out with
    | .arr r => if D.isGen = true ∧ (D.calcStatus = FINISHED_PERSISTENT_GEN → sp.retGen = true) then r.rows.length else 0
    | _ => 0
  | _ => 0

/-- All points that were brought. -/
def pointsIn (sp : Specs) (tr : List Ev) : Nat := (tr.map (pointsOf sp)).sum

/-- Generators do not number their points. -/
def Unnumbered (tr : List Ev) : Prop :=
  ∀ w D r, .recv w (.data D) ∈ tr → D.isGen = true → D.out = .arr r → Field.simId ∉ r.fields

/-- A generator return without numbers adds as many rows as it has points. -/
theorem genReturn_index {h : Hist} {w : Nat} {d : Rec} {ts t : Int} (hno : Field.simId ∉ d.fields)
    (hok : (apply h (.genReturn w d ts t)).2 = none) : (apply h (.genReturn w d ts t)).1.index = h.index + d.rows.length := by
  simp only [apply] at hok ⊢
  cases hne : d.rows.isEmpty with
  | true =>
    have : d.rows = [] := by simpa using hne
    unfold updateXIn; simp [this]
  | false =>
    rcases updateXIn_cases h w d ts t hne with ⟨_, h3, hh3, heq⟩ | ⟨h1, _⟩ | ⟨h1, _⟩ | ⟨h1, _⟩
    · rw [heq] at hok ⊢
      rw [genFinish_index, if_pos hok, hh3]; simp
    all_goals exact absurd h1 hno

theorem other_index (h : Hist) (o : Op) (ho : ∀ w d ts t, o ≠ .genReturn w d ts t) : (apply h o).1.index = h.index := by
  cases o with
  | genReturn w d ts t => exact absurd rfl (ho _ _ _ _)
  | simReturn inds d t k =>
    obtain ⟨e, le, heq, _⟩ := updateF_shape h inds d t k
    simp only [apply]; rw [heq]
    exact (simRows_frame t d 0 inds (preSim h d)).1.trans (index_preSim h d)
  | giveSim inds w t k =>
    simp only [apply, updateXOut]
    split
    · rfl
    · split
      · split <;> rfl
      · rfl
  | giveGen inds t =>
    simp only [apply, updateToGen]
    split
    · rfl
    · split <;> rfl
  | requestCancel => rfl
  | markKill => rfl

theorem gen_not_sim {D : Data} (h : D.isGen = true) : D.isSim = false := by
  cases h1 : D.isSim with
  | false => rfl
  | true =>
    simp only [Data.isGen, Data.isSim, Data.isFinished, Bool.or_eq_true, decide_eq_true_eq, Bool.and_eq_true, Bool.not_eq_true',
      Bool.or_eq_false_iff, decide_eq_false_iff_not] at h h1
    rcases h with h | ⟨⟨h2, h3⟩, h4⟩
    · rcases h1 with h' | ⟨⟨_, h'⟩, _⟩
      · rw [h] at h'; simp [FINISHED_PERSISTENT_GEN, FINISHED_PERSISTENT_SIM] at h'
      · exact absurd h h'
    · rcases h1 with h' | ⟨_, h'⟩
      · exact absurd h' h2
      · rw [h4] at h'; simp [EVAL_SIM, EVAL_GEN] at h'

/-- A message that brings points is recorded. -/
theorem gen_results {sp : Specs} {D : Data} {r : Rec} (hg : D.isGen = true) (ho : D.out = .arr r)
    (hf : D.calcStatus = FINISHED_PERSISTENT_GEN → sp.retGen = true) : (Msg.data D).results sp = true := by
  simp only [Msg.results]
  simp only [Data.isGen, Data.isFinished, Bool.or_eq_true, decide_eq_true_eq, Bool.and_eq_true, Bool.not_eq_true',
    Bool.or_eq_false_iff, decide_eq_false_iff_not] at hg
  rcases hg with h | ⟨⟨h1, h2⟩, h3⟩
  · rw [if_pos h, hf h, ho]; rfl
  · rw [if_neg h2, if_neg h1]; simp [h3, ho, Out.array]

theorem results_gen {sp : Specs} {D : Data} (h : (Msg.data D).results sp = true) :
    D.calcStatus = FINISHED_PERSISTENT_GEN → sp.retGen = true := by
  intro h1
  simp only [Msg.results, if_pos h1, Bool.and_eq_true] at h
  exact h.1

/-- Points that have been received and not yet recorded. -/
def pendOf (sp : Specs) : List Ev → Nat
  | e :: _ => pointsOf sp e
  | [] => 0

/-- The next update records the points. -/
theorem pend_next {sp : Specs} {e : Ev} {post pre : List Ev} (hl : Later (recF sp) (post ++ e :: pre)) (hp : pendOf sp pre ≠ 0) :
    ∃ w r ts t, e = .op (.genReturn w r ts t) := by
  cases pre with
  | nil => simp [pendOf] at hp
  | cons x pre =>
    cases x with
    | recv w m =>
      cases m with
      | data D =>
        cases ho : D.out with
        | arr r =>
          simp only [pendOf, pointsOf, ho] at hp
          split at hp
          · rename_i hg
            obtain ⟨o, post', he, hrec⟩ := hl (post ++ [e]) (.recv w (.data D)) pre (by simp) (gen_results hg.1 ho hg.2)
            obtain ⟨_, h2⟩ := List.append_inj' he rfl
            simp only [List.cons.injEq, and_true] at h2
            subst h2
            cases o with
            | genReturn w r ts t => exact ⟨_, _, _, _, rfl⟩
            | simReturn rows r t k => have := hrec.1; rw [gen_not_sim hg.1] at this; cases this
            | _ => exact hrec.elim
          · exact absurd rfl hp
        | _ => simp [pendOf, pointsOf, ho] at hp
      | _ => simp [pendOf, pointsOf] at hp
    | _ => simp [pendOf, pointsOf] at hp

theorem index_points {c : Start} {s : St} (hf : Fine c.hist s) (hl : Later (recF c.sp) s.tr) (hu : Unnumbered s.tr) :
    ∀ pre post, s.tr = post ++ pre → (histAt c.hist pre).index + pendOf c.sp pre = c.H0.rows.length + pointsIn c.sp pre := by
  intro pre
  induction pre with
  | nil => intro _ _; simp only [histAt_nil, pointsIn, pendOf, List.map_nil, List.sum_nil]; exact congrArg (· + 0) (init_index _ _ _ _)
  | cons e pre ih =>
    intro post he
    have ih := ih (post ++ [e]) (by rw [he]; simp)
    have hpt : pointsIn c.sp (e :: pre) = pointsOf c.sp e + pointsIn c.sp pre := by simp [pointsIn]
    by_cases hg : ∃ w r ts t, e = .op (.genReturn w r ts t)
    · obtain ⟨w, r, ts, t, rfl⟩ := hg
      obtain ⟨w', m, pre', hpre, hrec, hres⟩ := hl post _ pre he rfl
      cases m with
      | data D =>
        obtain ⟨g1, rfl, g2⟩ := hrec
        have ho : D.out = .arr r := by cases hh : D.out <;> simp [hh, Out.array] at g2; rw [g2]
        have hpd : pendOf c.sp pre = r.rows.length := by
          rw [hpre]; simp only [pendOf, pointsOf, ho]
          rw [if_pos ⟨g1, results_gen hres⟩]
        obtain ⟨_, f2, f3⟩ := fine_split hf he
        have hok : (apply (histAt c.hist pre) (.genReturn w r ts t)).2 = none := by
          rw [hrun_append, f2] at f3
          simp only [History.run] at f3
          cases hx : apply (histAt c.hist pre) (.genReturn w r ts t) with
          | mk h' er => rw [hx] at f3; cases er with
            | none => rfl
            | some er => simp at f3
        rw [histAt_op, genReturn_index (hu w D r (by rw [he, hpre]; simp) g1 ho) hok, hpt]
        simp only [pendOf, pointsOf]
        omega
      | _ => exact hrec.elim
    · have hp0 : pendOf c.sp pre = 0 := Decidable.byContradiction fun h => hg (pend_next (by rw [← he]; exact hl) h)
      have hix : (histAt c.hist (e :: pre)).index = (histAt c.hist pre).index := by
        by_cases ho : ∃ o, e = .op o
        · obtain ⟨o, rfl⟩ := ho
          rw [histAt_op]; exact other_index _ _ (fun w d ts t h => hg ⟨w, d, ts, t, by rw [h]⟩)
        · rw [histAt_skip _ _ (fun o he => ho ⟨o, he⟩)]
      rw [hix, hpt]
      simp only [pendOf]
      omega

/-- The history at the end of a run without error has the prepended rows and one row for every point that a message of a
generator brought, no other, if generators do not number their points themselves; they are all allocated. -/
theorem C03_run (c : Start) (its : List Iter) (t : Nat → Int) (rounds : List Round)
    (hg : (c.run its t rounds).2.good = true) (hk : HistOk c (c.run its t rounds).1.tr) (hu : Unnumbered (c.run its t rounds).1.tr) :
    (trimH (c.run its t rounds).1.hist).length = c.H0.rows.length + pointsIn c.sp (c.run its t rounds).1.tr := by
  obtain ⟨p, hpf, hr⟩ := good_reach c its t rounds hg
  have hfine : Fine c.hist (c.run its t rounds).1 := hr.fine start_tr hpf
  generalize (c.run its t rounds).1 = s at *
  have hl := hr.recF start_tr
  have h1 := index_points hfine hl hu s.tr [] rfl
  have h2 : pendOf c.sp s.tr = 0 := by
    refine Decidable.byContradiction fun h => ?_
    cases hs : s.tr with
    | nil => rw [hs] at h; simp [pendOf] at h
    | cons x pre =>
      rw [hs] at h hl
      cases x with
      | recv w m =>
        cases m with
        | data D =>
          cases ho : D.out with
          | arr r =>
            simp only [pendOf, pointsOf, ho] at h
            split at h
            · rename_i hgg
              obtain ⟨o, post', he, _⟩ := hl [] (.recv w (.data D)) pre rfl (gen_results hgg.1 ho hgg.2)
              simp at he
            · exact h rfl
          | _ => simp [pendOf, pointsOf, ho] at h
        | _ => simp [pendOf, pointsOf] at h
      | _ => simp [pendOf, pointsOf] at h
  have h3 := (C03_capacity_partial c.cols c.L c.H0 c.safe (opsOf s.tr) hk.std.has hk.room hk.ids
    (fun o ho => start_idSafe hr hk.keeps o (mem_opsOf.mp ho))).2.1
  have h4 : History.run (History.init c.cols c.L c.H0 c.safe) (opsOf s.tr) = (s.hist, none) := hfine
  rw [h4] at h3
  rw [start_histAt hr] at h3 ⊢
  rw [h3]
  simp only at h1 ⊢
  omega

/-! ### C05 -/

theorem informed_step {h : Hist} (HL : LibInv h) {op : Op} (hg : Guarded h op)
    (H : ∀ i, flagAt h.rows .genInformed i = true → flagAt h.rows .simEnded i = true) :
    ∀ i, flagAt (apply h op).1.rows .genInformed i = true → flagAt (apply h op).1.rows .simEnded i = true := by
  intro i hinf
  rcases Nat.lt_or_ge i h.rows.length with hlt | hge
  · have hne : flagAt h.rows .simEnded i = true → flagAt (apply h op).1.rows .simEnded i = true := by
      intro h0
      rcases apply_protected' h op hg .simEnded (by simp [protectedFields]) HL.has i hlt with p2 | p2
      · rw [flagAt_cell, p2, ← flagAt_cell]; exact h0
      · cases op <;> simp [ProtectedChange] at p2
        rw [flagAt_cell, p2.2]; rfl
    rcases apply_protected' h op hg .genInformed (by simp [protectedFields]) HL.has i hlt with p1 | p1
    · rw [flagAt_cell, p1, ← flagAt_cell] at hinf; exact hne (H i hinf)
    · cases op <;> simp [ProtectedChange] at p1
      refine hne ?_
      obtain ⟨x, hx⟩ := cell_some .simEnded hlt
      rw [flagAt_cell, hx]
      have := p1.2.1
      rw [hx] at this
      simpa using this
  · exfalso
    have hlt := flagAt_lt hinf
    rw [flagAt_cell, apply_new_flag HL op hg .genInformed (.inr (.inr (.inr rfl))) i hge hlt] at hinf
    simp at hinf

/-- At every moment of every run, also one that raises: rows that were given back to a generator are evaluated.  In safe
mode, or when user functions return no protected fields. -/
theorem C05_run (c : Start) (hc : c.Std) (its : List Iter) (t : Nat → Int) (rounds : List Round)
    (hprot : c.safe = true ∨ Polite (c.run its t rounds).1.tr)
    (h0 : ∀ r ∈ c.hist.rows, r.flag .genInformed = true → r.flag .simEnded = true)
    (post pre : List Ev) (he : (c.run its t rounds).1.tr = post ++ pre) :
    ∀ r ∈ (histAt c.hist pre).rows, r.flag .genInformed = true → r.flag .simEnded = true := by
  obtain ⟨p, _, hr⟩ := c.reach its t rounds
  have hk := start_kept hr hprot
  have key : ∀ tr, OpsOk c tr → ∀ i, flagAt (histAt c.hist tr).rows .genInformed i = true → flagAt (histAt c.hist tr).rows .simEnded i = true := by
    intro tr
    induction tr with
    | nil =>
      intro _ i hi
      simp only [histAt_nil, flagAt, Option.any_eq_true] at hi ⊢
      obtain ⟨r, hr1, hr2⟩ := hi
      exact ⟨r, hr1, h0 r (List.mem_of_getElem? hr1) hr2⟩
    | cons e tr ih =>
      intro hk
      have ih := ih (OpsOk.suffix (l := [e]) hk)
      by_cases ho : ∃ o, e = .op o
      · obtain ⟨o, rfl⟩ := ho
        rw [histAt_op]
        exact informed_step (histAt_lib hc tr) (guarded_at hk) ih
      · rw [histAt_skip _ _ (fun o he => ho ⟨o, he⟩)]; exact ih
  intro r hr1 hr2
  obtain ⟨i, hi⟩ := List.mem_iff_getElem?.1 hr1
  have := key pre (OpsOk.suffix (l := post) (by rw [← he]; exact hk)) i (by simp [flagAt, hi, hr2])
  simpa [flagAt, hi] using this

/-! ### C07 -/

/-- The result of a simulation is recorded next. -/
theorem sim_recorded {c : Start} {P : St → Reply → Prop} {p : Ph} {s : St} (hr : Reach c.sp P c.st p s) {post pre : List Ev} {w : Nat} {D : Data}
    {d : Rec} (he : s.tr = post ++ .recv w (.data D) :: pre) (hsim : D.isSim = true) (ho : D.out = .arr d)
    (hfin : D.calcStatus = FINISHED_PERSISTENT_SIM → c.sp.retSim = true) :
    ∃ post' tt kill, post = post' ++ [.op (.simReturn D.rows (some d) tt kill)] := by
  have hres : (Msg.data D).results c.sp = true := by
    simp only [Msg.results]
    simp only [Data.isSim, Data.isFinished, Bool.or_eq_true, decide_eq_true_eq, Bool.and_eq_true, Bool.not_eq_true',
      Bool.or_eq_false_iff, decide_eq_false_iff_not] at hsim
    rcases hsim with h | ⟨⟨h1, h2⟩, h3⟩
    · rw [if_neg (by rw [h]; simp [FINISHED_PERSISTENT_GEN, FINISHED_PERSISTENT_SIM]), if_pos h, hfin h, ho]; rfl
    · rw [if_neg h2, if_neg h1]; simp [h3, ho, Data.broken]
  obtain ⟨o, post', rfl, hrec⟩ := hr.recF start_tr post _ pre he hres
  cases o with
  | genReturn w' r ts tt => have := gen_not_sim hrec.1; rw [this] at hsim; cases hsim
  | simReturn rows r tt k =>
    obtain ⟨_, rfl, h3⟩ := hrec
    simp only [ho, Out.array] at h3
    subst h3
    exact ⟨post', tt, k, rfl⟩
  | _ => exact hrec.elim

/-- A message with the result of a simulation, in a run without error: the next thing the manager does is to write the
k-th record of the array into the k-th row that the message names, and to mark these rows as evaluated, at the time of the
recording; no other cell changes. -/
theorem C07_run (c : Start) (its : List Iter) (t : Nat → Int) (rounds : List Round)
    (hg : (c.run its t rounds).2.good = true) {post pre : List Ev} {w : Nat} {D : Data} {d : Rec}
    (he : (c.run its t rounds).1.tr = post ++ .recv w (.data D) :: pre) (hsim : D.isSim = true) (ho : D.out = .arr d)
    (hfin : D.calcStatus = FINISHED_PERSISTENT_SIM → c.sp.retSim = true)
    (hnd : D.rows.Nodup) (hdn : d.fields.Nodup) :
    ∃ post' tt kill, post = post' ++ [.op (.simReturn D.rows (some d) tt kill)] ∧
      ∀ h h', histAt c.hist pre = h → histAt c.hist (.op (.simReturn D.rows (some d) tt kill) :: .recv w (.data D) :: pre) = h' →
        (∀ i, i ∉ D.rows → ∀ f ∈ h.fields, cell h'.rows i f = cell h.rows i f) ∧
        (∀ k i : Nat, D.rows[k]? = some i →
          cell h'.rows i .simEnded = some (.s 1) ∧ cell h'.rows i .simEndedTime = some (.s tt) ∧
          (∀ f ∈ h.fields, f ∉ d.fields → f ≠ .simEnded → f ≠ .simEndedTime → cell h'.rows i f = cell h.rows i f) ∧
          (∀ f ∈ d.fields, f ≠ .simEnded → f ≠ .simEndedTime →
            ∃ src old, d.rows[k]? = some src ∧ (f ∈ h.fields → cell h.rows i f = some old) ∧
              (f ∉ h.fields → old = zeroRow d.cols f) ∧ cell h'.rows i f = some (stored old (src f)))) ∧
        h'.simEndedCount = h.simEndedCount + D.rows.length := by
  obtain ⟨p, hpf, hr⟩ := good_reach c its t rounds hg
  have hfine : Fine c.hist (c.run its t rounds).1 := hr.fine start_tr hpf
  generalize (c.run its t rounds).1 = s at *
  obtain ⟨post', tt, k, rfl⟩ := sim_recorded hr he hsim ho hfin
  refine ⟨post', tt, k, rfl, ?_⟩
  rintro h h' rfl rfl
  have hev : s.tr = post' ++ .op (.simReturn D.rows (some d) tt k) :: (.recv w (.data D) :: pre) := by rw [he]; simp
  obtain ⟨_, f2, f3⟩ := fine_split hfine hev
  have e5 : histAt c.hist (.recv w (.data D) :: pre) = histAt c.hist pre := histAt_skip _ _ (by simp)
  have hok : apply (histAt c.hist pre) (.simReturn D.rows (some d) tt k) =
      (histAt c.hist (.op (.simReturn D.rows (some d) tt k) :: .recv w (.data D) :: pre), none) := by
    rw [hrun_append, f2, e5] at f3
    simp only [History.run] at f3
    cases hx : apply (histAt c.hist pre) (.simReturn D.rows (some d) tt k) with
    | mk h' er => rw [hx] at f3; cases er with
      | none => exact f3
      | some er => simp at f3
  obtain ⟨g1, g2, g3⟩ := C07_exact_rows _ _ _ _ _ _ hnd hdn hok
  refine ⟨g1, fun k i hki => ?_, g3⟩
  obtain ⟨a1, a2, a3, a4, a5⟩ := g2 k i hki
  refine ⟨a1, a2, a3, fun f hf hf1 hf2 => ?_⟩
  by_cases hm : f ∈ (histAt c.hist pre).fields
  · obtain ⟨src, old, b1, b2, b3⟩ := a4 f hf hm hf1 hf2
    exact ⟨src, old, b1, fun _ => b2, fun h => absurd hm h, b3⟩
  · obtain ⟨src, b1, b2⟩ := a5 f hf hm hf1 hf2
    exact ⟨src, _, b1, fun h => absurd h hm, fun _ => rfl, b2⟩

theorem simReturn_has (h : Hist) (rows : List Nat) (d : Rec) (t : Int) (k : Bool) {f : Field} (hf : f ∈ d.fields) :
    f ∈ (apply h (.simReturn rows (some d) t k)).1.fields := by
  obtain ⟨e, le, heq, _⟩ := updateF_shape h rows (some d) t k
  simp only [apply]
  rw [heq]
  simp only [Hist.fields, (simRows_frame t (some d) 0 rows (preSim h (some d))).2.1]
  exact extend_has h d.cols f hf

/-- The value that a simulation returned is in the history at the end of the run: for columns that are not libEnsemble's,
in a row that is returned once and that no generator names. -/
theorem C07_run_final (c : Start) (its : List Iter) (t : Nat → Int) (rounds : List Round)
    (hg : (c.run its t rounds).2.good = true) (hids : KeepsIds (c.run its t rounds).1.tr)
    (hback : (simBack (c.run its t rounds).1.tr).Nodup) {post pre : List Ev} {w : Nat} {D : Data} {d : Rec}
    (he : (c.run its t rounds).1.tr = post ++ .recv w (.data D) :: pre) (hsim : D.isSim = true) (ho : D.out = .arr d)
    (hfin : D.calcStatus = FINISHED_PERSISTENT_SIM → c.sp.retSim = true) (hdn : d.fields.Nodup)
    {k i : Nat} (hki : D.rows[k]? = some i) (hvis : i < (histAt c.hist pre).index) (hn : NotNamed (c.run its t rounds).1.tr i)
    {f : Field} (hf : f ∈ d.fields) (hp : f ∉ protectedFields) (hcr : f ≠ .cancelRequested) :
    ∃ src old, d.rows[k]? = some src ∧ (f ∈ (histAt c.hist pre).fields → cell (histAt c.hist pre).rows i f = some old) ∧
      (f ∉ (histAt c.hist pre).fields → old = zeroRow d.cols f) ∧
      cell (c.run its t rounds).1.hist.rows i f = some (stored old (src f)) := by
  have hnd : D.rows.Nodup ∧ ∀ post' tt kill, post = post' ++ [.op (.simReturn D.rows (some d) tt kill)] →
      ∀ x ∈ simBack post', x ∉ D.rows := by
    obtain ⟨p, _, hr⟩ := good_reach c its t rounds hg
    obtain ⟨post', tt, kill, hpost⟩ := sim_recorded hr he hsim ho hfin
    have key : ∀ post' tt kill, post = post' ++ [.op (.simReturn D.rows (some d) tt kill)] →
        (simBack post' ++ (D.rows ++ simBack (.recv w (.data D) :: pre))).Nodup := by
      intro post' tt kill hpost
      rw [he, hpost] at hback
      simpa [simBack, simBackOf] using hback
    refine ⟨(List.nodup_append.mp (List.nodup_append.mp (key _ _ _ hpost)).2.1).1, fun post' tt kill hpost x hx hxd => ?_⟩
    exact (List.nodup_append.mp (key _ _ _ hpost)).2.2 x hx x (List.mem_append_left _ hxd) rfl
  obtain ⟨post', tt, kill, hpost, hall⟩ := C07_run c its t rounds hg he hsim ho hfin hnd.1 hdn
  obtain ⟨_, hrow, _⟩ := hall _ _ rfl rfl
  have hnp : ∀ x ∈ protectedFields, f ≠ x := fun x hx h => hp (h ▸ hx)
  obtain ⟨src, old, b1, b2, b3, b4⟩ := (hrow k i hki).2.2.2 f hf (hnp _ (by simp [protectedFields])) (hnp _ (by simp [protectedFields]))
  refine ⟨src, old, b1, b2, b3, ?_⟩
  obtain ⟨p, hpf, hr⟩ := good_reach c its t rounds hg
  have hnotback := hnd.2 post' tt kill hpost
  generalize (c.run its t rounds).1 = s at *
  have hev : s.tr = post' ++ (.op (.simReturn D.rows (some d) tt kill) :: .recv w (.data D) :: pre) := by rw [he, hpost]; simp
  rw [start_histAt hr, hev, cell_kept (fun o ho => start_idSafe hr hids o (by rw [hev]; simp [ho])) (cell_lt b4) ?_ ?_, b4]
  · rw [histAt_op]
    exact simReturn_has _ _ _ _ _ hf
  · intro p1 o p2 hp2 htouch hwr
    have hidx : i < (histAt c.hist (p2 ++ (.op (.simReturn D.rows (some d) tt kill) :: .recv w (.data D) :: pre))).index := by
      have := index_mono c.hist (p2 ++ [.op (.simReturn D.rows (some d) tt kill), .recv w (.data D)]) pre
      simp only [List.append_assoc, List.cons_append, List.nil_append] at this
      omega
    have hng := touch_cases hr hn (post := p1) (o := o) (by rw [hev, hp2]; simp) hidx htouch
    cases o with
    | genReturn w' r ts tt => exact hng _ _ _ _ rfl
    | simReturn rows r tt' k' =>
      refine hnotback i ?_ (List.mem_of_getElem? hki)
      rw [hp2]; simp only [simBack, List.flatMap_append, List.flatMap_cons, simBackOf]
      have : i ∈ rows := htouch
      simp [this]
    | giveSim rows w t k =>
      simp only [Op.writes, List.mem_cons, List.not_mem_nil, or_false] at hwr
      rcases hwr with h | h | h <;> exact hnp _ (by simp [protectedFields]) h
    | giveGen rows t =>
      simp only [Op.writes, List.mem_cons, List.not_mem_nil, or_false] at hwr
      rcases hwr with h | h <;> exact hnp _ (by simp [protectedFields]) h
    | requestCancel rows => simp [Op.writes] at hwr; exact hcr hwr
    | markKill rows => simp [Op.writes] at hwr; exact hnp _ (by simp [protectedFields]) hwr

/-! ### C08 -/

theorem init_has (cols : List (Field × Shape)) (L : Nat) (H0 : Rec) (safe : Bool) (hne : H0.rows ≠ []) {f : Field} (hf : f ∈ H0.fields) :
    f ∈ (History.init cols L H0 safe).fields := by
  simp only [History.init, Hist.fields]
  rw [if_neg (by simpa using hne)]
  rw [List.map_append]
  exact List.mem_append_left _ hf

/-- A prepended row that counts as started is at the end of the run what it was at the beginning, in all its columns but
those that say whether it was given back to a generator, cancelled or killed; whatever becomes of the run.  Partial: with an
allocation function that chooses among the waiting rows (see the witness), in safe mode or without protected fields in the
returned arrays, when workers return results only of rows they were given, for rows that no generator names by their
number; `sim_max > 0`. -/
theorem C08_run_partial (c : Start) (hL : 0 < c.L) (b : Bundled) (hb : b.byPriority = true) (env : AllocEnv) (its : List Iter)
    (hits : ∀ it ∈ its, it.uses b env c.sp) (t : Nat → Int) (rounds : List Round)
    (hc : c.Std) (hids : KeepsIds (c.run its t rounds).1.tr)
    (hprot : c.safe = true ∨ Polite (c.run its t rounds).1.tr) (hh : Honest (c.run its t rounds).1.tr)
    (i : Nat) (r0 : Row) (hi : c.H0.rows[i]? = some r0) (hn : NotNamed (c.run its t rounds).1.tr i)
    (hst : Field.simStarted ∉ c.H0.fields ∨ r0 .simStarted ≠ .s 0)
    (f : Field) (hf : f ∈ c.H0.fields) (hse : f = .simEnded → Field.simStarted ∈ c.H0.fields)
    (h1 : f ∉ [Field.genInformed, .genInformedTime, .cancelRequested, .killSent]) :
    cell (trimH (c.run its t rounds).1.hist) i f = some (r0 f) := by
  obtain ⟨p, _, hr⟩ := c.reachB its t rounds hits
  have hk := start_kept hr hprot
  generalize (c.run its t rounds).1 = s at *
  have hlt : i < c.H0.rows.length := by
    rcases Nat.lt_or_ge i c.H0.rows.length with h | h
    · exact h
    · rw [List.getElem?_eq_none h] at hi; cases hi
  obtain ⟨_, g2, _⟩ := C08_prepended_partial c.cols c.L c.H0 c.safe hL
  obtain ⟨r, g3, g4, g5, _⟩ := g2 i r0 hi
  have g6 : c.hist.rows[i]? = some r := by
    simp only [trimH, List.getElem?_take] at g3
    split at g3
    · exact g3
    · cases g3
  have hflag : flagAt c.hist.rows .simStarted i = true := by
    simp only [flagAt, g6, Option.any_some, Row.flag, decide_eq_true_eq]
    by_cases hm : Field.simStarted ∈ c.H0.fields
    · rw [g4 _ hm (by simp)]
      rcases hst with h | h
      · exact absurd hm h
      · simpa using h
    · simp [(g5 hm).1]
  have hnot : i ∉ simGiven s.tr := by
    intro hm
    rw [prio_fresh hb hc hr hprot i (List.mem_append_left _ hm)] at hflag
    cases hflag
  have hidx : ∀ l, i < (histAt c.hist l).index := by
    intro l
    have := index_mono c.hist l []
    rw [List.append_nil, histAt_nil] at this
    exact Nat.lt_of_lt_of_le (by rw [show c.hist.index = c.H0.rows.length from init_index _ _ _ _]; exact hlt) this
  have hc0 : cell c.hist.rows i f = some (r0 f) := by simp only [cell, g6, Option.map_some, g4 f hf hse]
  have hcell : cell s.hist.rows i f = some (r0 f) := by
    rw [start_histAt hr, ← hc0]
    have := cell_kept (h0 := c.hist) (post := s.tr) (pre := []) (i := i) (f := f) (fun o ho => start_idSafe hr hids o ho) (cell_lt hc0) ?_ ?_
    · rw [List.append_nil] at this; exact this
    · exact init_has _ _ _ _ (List.ne_nil_of_length_pos (Nat.zero_lt_of_lt hlt)) hf
    · intro p1 o p2 hp2 htouch hwr
      rw [List.append_nil] at htouch
      have hng := touch_cases hr hn (post := p1) (o := o) (pre := p2) hp2 (hidx p2) htouch
      cases o with
      | genReturn w' r ts tt => exact hng _ _ _ _ rfl
      | simReturn rows d tt' k' =>
        obtain ⟨w, m, pre', hpre, hrec, _⟩ := hr.recF start_tr p1 _ p2 hp2 rfl
        cases m with
        | data dd =>
          have hd : dd.isSim = true ∧ dd.rows = rows := ⟨hrec.1, hrec.2.1.symm⟩
          obtain ⟨key, hsent⟩ := hh (p1 ++ [.op (.simReturn rows d tt' k')]) w dd pre' (by rw [hp2, hpre]; simp) hd.1 i (by rw [hd.2]; exact htouch)
          refine hnot ?_
          have := (hsent.append (l := p1 ++ [.op (.simReturn rows d tt' k'), .recv w (.data dd)])).given
          rw [hp2, hpre]; simpa using this
        | _ => exact hrec.elim
      | giveSim rows w t k =>
        obtain ⟨q, _, hq⟩ := giveSim_sent (hr.givF start_tr rfl) (rows := rows) (key := w) (t := t) (k := k) (by rw [hp2]; simp) htouch
        exact hnot hq.given
      | giveGen rows t =>
        simp only [Op.writes, List.mem_cons, List.not_mem_nil, or_false] at hwr h1
        rcases hwr with h | h <;> exact h1 (by simp [h])
      | requestCancel rows => simp [Op.writes] at hwr; exact h1 (by simp [hwr])
      | markKill rows => simp [Op.writes] at hwr; exact h1 (by simp [hwr])
  have h9 := hidx s.tr
  rw [← start_histAt hr] at h9
  simp only [cell, trimH, List.getElem?_take, h9, if_true] at hcell ⊢
  exact hcell

/-- A prepended row with its value; the generator adds two points, one of them is evaluated. -/
def keptDemo : Start := { bdemo with safe := true, H0 := ⟨[(.user 1, .vec 2), (.user 0, .scalar), (.simId, .scalar), (.simStarted, .scalar), (.simEnded, .scalar)],
  [mkRow [(.user 1, .v [3, 4]), (.user 0, .s 9), (.simId, .s 0), (.simStarted, .s 1), (.simEnded, .s 1)]]⟩ }

theorem keptDemo_std : keptDemo.Std := ⟨bdemo_std.has, bdemo_std.sc, by unfold LibScalar; decide⟩

def keptIts (b : Bundled) : List Iter :=
  [bpass b demoEnv keptDemo.sp [], bpass b demoEnv keptDemo.sp [points 1 [10, 20]], bpass b demoEnv keptDemo.sp [value 2 [1] [6]]]

theorem keptIts_uses (b : Bundled) : ∀ it ∈ keptIts b, it.uses b demoEnv keptDemo.sp := by
  intro it hit
  simp only [keptIts, List.mem_cons, List.not_mem_nil, or_false] at hit
  rcases hit with rfl | rfl | rfl <;> exact bpass_uses _ _ _ _ _

example : (keptDemo.run (keptIts (.simFirst {})) (fun _ => 0) []).2 = .running ∧
    (trimH (keptDemo.run (keptIts (.simFirst {})) (fun _ => 0) []).1.hist).map (fun r => (r.sid, r (.user 1), r (.user 0), r.flag .simEnded)) =
      [(0, .v [3, 4], .s 9, true), (1, .v [10, 11], .s 6, true), (2, .v [20, 21], .s 0, false)] := by decide +kernel

def unnumberedB (tr : List Ev) : Bool := tr.all fun e =>
  match e with
  | .recv _ (.data D) => (match D.out with | .arr r => !D.isGen || decide (Field.simId ∉ r.fields) | _ => true)
  | _ => true

theorem unnumberedB_sound {tr : List Ev} (h : unnumberedB tr = true) : Unnumbered tr := by
  intro w D r hm hg ho
  have := List.all_eq_true.mp h _ hm
  simpa [ho, hg] using this

theorem Unnumbered.notNamed {tr : List Ev} (h : Unnumbered tr) (i : Nat) : NotNamed tr i :=
  fun w D r hm hg ho hs => absurd hs (h w D r hm hg ho)

theorem keptDemo_run : (keptDemo.run (keptIts (.simFirst {})) (fun _ => 0) []).2.good = true ∧
    HistOk keptDemo (keptDemo.run (keptIts (.simFirst {})) (fun _ => 0) []).1.tr ∧
    Unnumbered (keptDemo.run (keptIts (.simFirst {})) (fun _ => 0) []).1.tr ∧
    Honest (keptDemo.run (keptIts (.simFirst {})) (fun _ => 0) []).1.tr ∧
    (simBack (keptDemo.run (keptIts (.simFirst {})) (fun _ => 0) []).1.tr).Nodup := by
  refine ⟨by decide +kernel, ⟨keptDemo_std, .inl (by decide), fun _ => ?_, keepsIdsB_sound (by decide +kernel)⟩,
    unnumberedB_sound (by decide +kernel), honestB_sound (by decide +kernel), by decide +kernel⟩
  intro k r hk
  match k, hk with
  | 0, hk => injection hk with hk; subst hk; rfl

/-- The theorems applied to this run. -/
example : cell (trimH (keptDemo.run (keptIts (.simFirst {})) (fun _ => 0) []).1.hist) 0 (.user 0) = some (.s 9) :=
  C08_run_partial keptDemo (by decide) (.simFirst {}) rfl demoEnv _ (keptIts_uses _) _ _ keptDemo_std keptDemo_run.2.1.keeps (.inl rfl)
    keptDemo_run.2.2.2.1 0 _ rfl (keptDemo_run.2.2.1.notNamed 0) (.inr (by decide)) (.user 0) (by decide) (by decide) (by decide)

example : (trimH (keptDemo.run (keptIts (.simFirst {})) (fun _ => 0) []).1.hist).length =
    1 + pointsIn keptDemo.sp (keptDemo.run (keptIts (.simFirst {})) (fun _ => 0) []).1.tr :=
  C03_run keptDemo _ _ _ keptDemo_run.1 keptDemo_run.2.1 keptDemo_run.2.2.1

/-- The message at a place of the trace. -/
def msgAt (tr : List Ev) (n : Nat) : Option (Nat × Data) := match tr[n]? with | some (.recv w (.data D)) => some (w, D) | _ => none

theorem msgAt_split {tr : List Ev} {n w : Nat} {D : Data} (h : msgAt tr n = some (w, D)) :
    tr = tr.take n ++ .recv w (.data D) :: tr.drop (n + 1) := by
  unfold msgAt at h
  split at h
  · rename_i w' D' hn
    simp only [Option.some.injEq, Prod.mk.injEq] at h
    obtain ⟨rfl, rfl⟩ := h
    obtain ⟨hlt, hget⟩ := List.getElem?_eq_some_iff.mp hn
    rw [← hget, List.getElem_cons_drop, List.take_append_drop]
  · cases h

/-- The value 6 for row 1 came in a message; the conditions of `C07_run_final` hold for it. -/
example : ∃ post w D pre d, (keptDemo.run (keptIts (.simFirst {})) (fun _ => 0) []).1.tr = post ++ .recv w (.data D) :: pre ∧
    D.isSim = true ∧ D.out = .arr d ∧ D.calcStatus ≠ FINISHED_PERSISTENT_SIM ∧ D.rows[0]? = some 1 ∧ 1 < (histAt keptDemo.hist pre).index ∧
    Field.user 0 ∈ d.fields ∧ d.rows.map (· (.user 0)) = [.s 6] ∧ d.fields.Nodup := by
  have key : ∃ n < (keptDemo.run (keptIts (.simFirst {})) (fun _ => 0) []).1.tr.length,
      (msgAt (keptDemo.run (keptIts (.simFirst {})) (fun _ => 0) []).1.tr n).any (fun q => q.2.isSim && decide (q.2.calcStatus ≠ FINISHED_PERSISTENT_SIM) &&
        decide (q.2.rows[0]? = some 1) && decide (1 < (histAt keptDemo.hist ((keptDemo.run (keptIts (.simFirst {})) (fun _ => 0) []).1.tr.drop (n + 1))).index) &&
        match q.2.out with
        | .arr d => decide (Field.user 0 ∈ d.fields) && decide (d.rows.map (· (.user 0)) = [.s 6]) && decide d.fields.Nodup
        | _ => false) = true := by decide +kernel
  obtain ⟨n, _, hn⟩ := key
  obtain ⟨⟨w, D⟩, h1, h2⟩ := (Option.any_eq_true _ _).mp hn
  simp only [Bool.and_eq_true, decide_eq_true_eq] at h2
  obtain ⟨⟨⟨⟨a1, a2⟩, a3⟩, a4⟩, a5⟩ := h2
  cases ho : D.out with
  | arr d =>
    simp only [ho, Bool.and_eq_true, decide_eq_true_eq] at a5
    exact ⟨_, w, D, _, d, msgAt_split h1, a1, ho, a2, a3, a4, a5.1.1, a5.1.2, a5.2⟩
  | _ => simp [ho] at a5

example : pointsIn keptDemo.sp (keptDemo.run (keptIts (.simFirst {})) (fun _ => 0) []).1.tr = 2 := by decide +kernel

/-- Witness: `fast_alloc`, which works through the rows from row 0, gives the prepended row again and overwrites its
value. -/
theorem C08_again_witness : (∀ it ∈ againIts, it.uses (.fast {}) demoEnv keptDemo.sp) ∧
    Honest (keptDemo.run againIts (fun _ => 0) []).1.tr ∧ Unnumbered (keptDemo.run againIts (fun _ => 0) []).1.tr ∧
    (keptDemo.run againIts (fun _ => 0) []).2 = .running ∧ cell keptDemo.hist.rows 0 (.user 0) = some (.s 9) ∧
    cell keptDemo.hist.rows 0 .simEnded = some (.s 1) ∧
    cell (keptDemo.run againIts (fun _ => 0) []).1.hist.rows 0 (.user 0) = some (.s 6) := by
  refine ⟨?_, honestB_sound ?_, unnumberedB_sound ?_, ?_, ?_, ?_, ?_⟩
  · intro it hit
    simp only [againIts, List.mem_cons, List.not_mem_nil, or_false] at hit
    rcases hit with rfl | rfl <;> exact bpass_uses _ _ _ _ _
  all_goals decide +kernel

end Verif.Manager
