import Verif.Manager.GenStart
import Verif.Manager.PropsKill
/-!
What properties C01, C02 and C06 of the history mean for whole runs: the updates are those that the manager makes, the
arrays those that the workers have sent.
-/
namespace Verif.Manager
open Verif.History Verif.Res Verif.Sched Verif.Alloc

/-- Nothing was raised: the run is in the main loop or has returned. -/
def Outcome.good : Outcome → Bool
  | .running | .returned _ => true
  | _ => false

theorem good_reach (c : Start) (its : List Iter) (t : Nat → Int) (rounds : List Round) (h : (c.run its t rounds).2.good = true) :
    ∃ p, p.fine = true ∧ Reach c.sp (fun _ _ => True) c.st p (c.run its t rounds).1 := by
  obtain ⟨p, hp, hr⟩ := c.reach its t rounds
  refine ⟨p, ?_, hr⟩
  generalize (c.run its t rounds).2 = o at h hp
  cases o with
  | running => rw [show p = _ from hp]; rfl
  | returned f => rcases hp with hp | ⟨r, hp⟩ <;> rw [hp] <;> rfl
  | _ => simp [Outcome.good] at h

theorem hrun_applyAll (ops : List Op) : ∀ h0 : Hist, (History.run h0 ops).2 = none → History.run h0 ops = (applyAll h0 ops, none) := by
  induction ops with
  | nil => intro h0 _; rfl
  | cons o ops ih =>
    intro h0 h
    rw [History.run] at h ⊢
    cases hx : apply h0 o with
    | mk h' e =>
      cases e with
      | some e => simp [hx] at h
      | none =>
        simp only [hx] at h ⊢
        rw [ih h' h]
        simp [applyAll, hx]

/-- The updates up to a point of a run without error. -/
theorem fine_split {h0 : Hist} {s : St} (h : Fine h0 s) {post pre : List Ev} {o : Op} (he : s.tr = post ++ .op o :: pre) :
    opsOf s.tr = opsOf pre ++ o :: opsOf post ∧ History.run h0 (opsOf pre) = (histAt h0 pre, none) ∧
    History.run h0 (opsOf pre ++ [o]) = (histAt h0 (.op o :: pre), none) := by
  have h1 : opsOf s.tr = opsOf pre ++ o :: opsOf post := by
    rw [he, opsOf_append, opsOf_cons]; simp
  have hn : ∀ a b : List Op, (History.run h0 (a ++ b)).2 = none → (History.run h0 a).2 = none := by
    intro a b hab
    rw [hrun_append] at hab
    split at hab
    · assumption
    · exact hab
  have h2 : (History.run h0 (opsOf pre ++ [o])).2 = none := by
    refine hn _ (opsOf post) ?_
    simp only [Fine, h1] at h
    rw [List.append_assoc, List.singleton_append, h]
  refine ⟨h1, hrun_applyAll _ _ (hn _ _ h2), ?_⟩
  rw [hrun_applyAll _ _ h2]
  simp [histAt, opsOf_cons]

theorem mem_opsOf {o : Op} {tr : List Ev} : o ∈ opsOf tr ↔ .op o ∈ tr := by
  simp only [opsOf, List.mem_filterMap, List.mem_reverse]
  constructor
  · rintro ⟨e, he, h2⟩
    cases e with
    | op o' => simp only [Option.some.injEq] at h2; rw [← h2]; exact he
    | _ => simp at h2
  · exact fun h => ⟨_, h, rfl⟩

/-- The conditions on a run: the history has libEnsemble's columns, prepended rows are numbered and there is room
(`sim_max` is not 0), simulations do not return `sim_id` and generators return no negative one. -/
structure HistOk (c : Start) (tr : List Ev) : Prop where
  std : c.Std
  room : 0 < c.L ∨ c.H0.rows = []
  ids : Field.simId ∈ c.H0.fields → NumberedFromZero c.H0.rows
  keeps : KeepsIds tr

/-! ### C01 -/

/-- In every run the visible rows are numbered 0, 1, 2, …, as long as nothing has been raised. -/
theorem C01_run_partial (c : Start) (its : List Iter) (t : Nat → Int) (rounds : List Round)
    (hg : (c.run its t rounds).2.good = true) (hk : HistOk c (c.run its t rounds).1.tr) :
    NumberedFromZero (trimH (c.run its t rounds).1.hist) := by
  obtain ⟨p, hp, hr⟩ := good_reach c its t rounds hg
  have hf : Fine c.hist (c.run its t rounds).1 := hr.fine start_tr hp
  have := C01_row_ids_partial c.cols c.L c.H0 c.safe (opsOf (c.run its t rounds).1.tr) hk.std.has hk.room hk.ids
    (fun o ho => start_idSafe hr hk.keeps o (mem_opsOf.mp ho))
  simp only [Fine, Start.hist] at hf
  rw [hf] at this
  exact this

/-! ### C02 -/

/-- The columns that the arrays received in `l` contain. -/
def sentFields (l : List Ev) : List Field := l.flatMap fun
  | .recv _ (.data d) => (match d.out with | .arr r => r.fields | _ => [])
  | _ => []

/-- Points in a message of a generator, without `sim_id`: after the run they are in the history, in the order in which
they were sent, directly behind the rows that were there when the message came.  A column keeps the value sent unless
it is one of libEnsemble's own or a later message contains the column. -/
theorem C02_run (c : Start) (its : List Iter) (t : Nat → Int) (rounds : List Round)
    (hg : (c.run its t rounds).2.good = true) (hk : HistOk c (c.run its t rounds).1.tr)
    {post pre : List Ev} {w : Nat} {D : Data} {d : Rec}
    (he : (c.run its t rounds).1.tr = post ++ .recv w (.data D) :: pre) (hgen : D.isGen = true) (ho : D.out = .arr d)
    (hfin : D.calcStatus = FINISHED_PERSISTENT_GEN → c.sp.retGen = true)
    (hno : Field.simId ∉ d.fields) (f : Field) (hf : f ∈ d.fields) (hp : f ∉ protectedFields) (hcr : f ≠ .cancelRequested)
    (hlater : f ∉ sentFields post) (j : Nat) (src : Row) (hj : d.rows[j]? = some src) :
    cell (trimH (c.run its t rounds).1.hist) ((histAt c.hist pre).index + j) f = some (src f) := by
  obtain ⟨p, hpf, hr⟩ := good_reach c its t rounds hg
  have hfine : Fine c.hist (c.run its t rounds).1 := hr.fine start_tr hpf
  generalize hs : (c.run its t rounds).1 = s at *
  have hres : (Msg.data D).results c.sp = true := by
    simp only [Msg.results]
    simp only [Data.isGen, Data.isFinished, Bool.or_eq_true, decide_eq_true_eq, Bool.and_eq_true, Bool.not_eq_true',
      Bool.or_eq_false_iff, decide_eq_false_iff_not] at hgen
    rcases hgen with h | ⟨⟨h1, h2⟩, h3⟩
    · rw [if_pos h, hfin h, ho]; rfl
    · rw [if_neg h2, if_neg h1]; simp [h3, ho, Out.array]
  obtain ⟨o, post', rfl, hrec⟩ := hr.recF start_tr post _ pre he hres
  have hrec' := hrec
  cases o with
  | simReturn rows r _ _ =>
    exfalso
    obtain ⟨h1, _⟩ := hrec
    simp only [Data.isGen, Data.isSim, Data.isFinished, Bool.or_eq_true, decide_eq_true_eq, Bool.and_eq_true, Bool.not_eq_true',
      Bool.or_eq_false_iff, decide_eq_false_iff_not] at hgen h1
    rcases hgen with h | ⟨⟨h1', h2⟩, h3⟩
    · rcases h1 with h' | ⟨⟨_, h'⟩, _⟩
      · rw [h] at h'; simp [FINISHED_PERSISTENT_GEN, FINISHED_PERSISTENT_SIM] at h'
      · exact h' h
    · rcases h1 with h' | ⟨_, h'⟩
      · exact h1' h'
      · rw [h3] at h'; simp [EVAL_SIM, EVAL_GEN] at h'
  | genReturn w' r ts tt =>
    obtain ⟨_, rfl, h3⟩ := hrec
    simp only [ho, Out.array, Option.some.injEq] at h3
    subst h3
    have hev : s.tr = post' ++ .op (.genReturn w' r ts tt) :: (.recv w' (.data D) :: pre) := by rw [he]; simp
    obtain ⟨e1, e2, e3⟩ := fine_split hfine hev
    have e4 : opsOf (.recv w' (.data D) :: pre) = opsOf pre := opsOf_none (l := [.recv w' (.data D)]) (by simp)
    rw [e4] at e1 e2 e3
    have hnd : r.fields.Nodup := ((hk.keeps w' D r (by rw [he]; simp) ho).2 hgen).1
    have hall : ∀ o, .op o ∈ s.tr → IdSafe o := start_idSafe hr hk.keeps
    have hsafe : ∀ o ∈ opsOf pre, IdSafe o := fun o ho => hall o (by
      have := mem_opsOf.mp ho
      rw [hev]; simp [this])
    have hwr : ∀ op ∈ opsOf post', f ∉ op.writes := by
      intro op hop hw
      have hop' := mem_opsOf.mp hop
      have hnsim : f ≠ .simId := fun h => hno (h ▸ hf)
      have harr : ∀ r', isResult op = true → (match op with | .simReturn _ (some r) _ _ => r = r' | .genReturn _ r _ _ => r = r' | _ => False) →
          f ∈ r'.fields → False := by
        intro r' hres hmatch hfr
        obtain ⟨q1, q2, hq⟩ := List.append_of_mem hop'
        have hsplit : s.tr = q1 ++ .op op :: (q2 ++ .op (.genReturn w' r ts tt) :: .recv w' (.data D) :: pre) := by
          rw [hev, hq]; simp
        obtain ⟨w2, m2, pre2, hpre2, hrec2, _⟩ := hr.recF start_tr _ _ _ hsplit hres
        cases q2 with
        | nil => simp at hpre2
        | cons e q2 =>
          simp only [List.cons_append, List.cons.injEq] at hpre2
          obtain ⟨rfl, _⟩ := hpre2
          refine hlater ?_
          have hm2 : Ev.recv w2 m2 ∈ post' ++ [.op (.genReturn w' r ts tt)] := by rw [hq]; simp
          simp only [sentFields, List.mem_flatMap]
          refine ⟨_, hm2, ?_⟩
          cases m2 with
          | data d2 =>
            have h4 : d2.out.array = some r' := by
              cases op with
              | simReturn rows x _ _ =>
                cases x with
                | none => simp at hmatch
                | some x => simp only at hmatch; subst hmatch; exact hrec2.2.2.symm
              | genReturn _ x _ _ => simp only at hmatch; subst hmatch; exact hrec2.2.2.symm
              | _ => simp [isResult] at hres
            cases ho2 : d2.out with
            | arr x => simp only [ho2, Out.array, Option.some.injEq] at h4; subst h4; simp only [ho2]; exact hfr
            | _ => simp [ho2, Out.array] at h4
          | _ => exact absurd hrec2 (by cases op <;> simp [Records])
      cases op with
      | simReturn rows x tt' k =>
        simp only [Op.writes, List.mem_append] at hw
        rcases hw with hw | hw
        · cases x with
          | none => simp at hw
          | some x => exact harr x rfl rfl hw
        · refine hp ?_
          simp only [List.mem_cons, List.not_mem_nil, or_false] at hw
          rcases hw with rfl | rfl <;> simp [protectedFields]
      | giveSim rows w tt' k =>
        refine hp ?_
        simp only [Op.writes, List.mem_cons, List.not_mem_nil, or_false] at hw
        rcases hw with rfl | rfl | rfl <;> simp [protectedFields]
      | giveGen rows tt' =>
        refine hp ?_
        simp only [Op.writes, List.mem_cons, List.not_mem_nil, or_false] at hw
        rcases hw with rfl | rfl <;> simp [protectedFields]
      | genReturn w2 x ts' tt' =>
        simp only [Op.writes, List.mem_append] at hw
        rcases hw with hw | hw
        · exact harr x rfl rfl hw
        · simp only [List.mem_cons, List.not_mem_nil, or_false] at hw
          rcases hw with h | rfl | rfl | rfl
          · exact hnsim h
          all_goals exact hp (by simp [protectedFields])
      | requestCancel rows => simp [Op.writes] at hw; exact hcr hw
      | markKill rows => simp [Op.writes] at hw; exact hp (by rw [hw]; simp [protectedFields])
    have := C02_kept c.cols c.L c.H0 c.safe (opsOf pre) (opsOf post') hk.std.has hk.room hk.ids hsafe w' r ts tt hno hnd
      (by show (History.run c.hist _).2 = none; rw [e2]) (by show (History.run c.hist _).2 = none; rw [e3]) f hf hp hwr j src hj
    rw [← e1] at this
    have hfin2 : History.run (History.init c.cols c.L c.H0 c.safe) (opsOf s.tr) = (s.hist, none) := hfine
    rw [hfin2] at this
    have e2' : History.run (History.init c.cols c.L c.H0 c.safe) (opsOf pre) = (histAt c.hist (.recv w' (.data D) :: pre), none) := e2
    rw [e2'] at this
    have e5 : histAt c.hist (.recv w' (.data D) :: pre) = histAt c.hist pre := histAt_skip _ _ (by simp)
    rw [e5] at this
    exact this
  | _ => exact hrec.elim

/-! ### C06 -/

/-- The start time recorded with the points of a generator is the time of the last order for a generator that was sent
to that worker; 0 if there was none.  (In a run in which an order failed half-way this may be the time of the failed
order, see `StartOf`.) -/
theorem C06_started (c : Start) (its : List Iter) (t : Nat → Int) (rounds : List Round) {post pre : List Ev}
    {w : Nat} {r : Rec} {ts tt : Int} (he : (c.run its t rounds).1.tr = post ++ .op (.genReturn w r ts tt) :: pre) :
    StartOf false false pre w ts ∧ ((c.run its t rounds).2.good = true → StartTime pre w ts) := by
  constructor
  · obtain ⟨p, _, hr⟩ := c.reach its t rounds
    exact genAt_weaken (start_genAt hr) post (.op (.genReturn w r ts tt)) pre he
  · intro hg
    obtain ⟨p, hp, hr⟩ := good_reach c its t rounds hg
    have := start_genAt hr
    rw [hp] at this
    exact (this post (.op (.genReturn w r ts tt)) pre he : StartOf true false pre w ts).time

/-- In safe mode every visible row that was not prepended came in a message of a generator, and its stamp is, at the end
of the run, that of this message: the worker that sent it, the time of the last order for a generator to that worker,
and the time at which the message was recorded. -/
theorem C06_run (c : Start) (its : List Iter) (t : Nat → Int) (rounds : List Round)
    (hg : (c.run its t rounds).2.good = true) (hk : HistOk c (c.run its t rounds).1.tr) (hsafe : c.safe = true)
    (ht : ∀ w r ts tt, .op (.genReturn w r ts tt) ∈ (c.run its t rounds).1.tr → tt ≠ 0)
    (i : Nat) (h1 : c.H0.rows.length ≤ i) (h2 : i < (c.run its t rounds).1.hist.index) :
    ∃ post pre w D r ts tt, (c.run its t rounds).1.tr = post ++ .op (.genReturn w r ts tt) :: .recv w (.data D) :: pre ∧
      D.isGen = true ∧ D.out = .arr r ∧ StartTime pre w ts ∧
      (histAt c.hist pre).index ≤ i ∧ i < (histAt c.hist (.op (.genReturn w r ts tt) :: pre)).index ∧
      cell (c.run its t rounds).1.hist.rows i .genWorker = some (.s w) ∧
      cell (c.run its t rounds).1.hist.rows i .genStartedTime = some (.s ts) ∧
      cell (c.run its t rounds).1.hist.rows i .genEndedTime = some (.s tt) := by
  obtain ⟨p, hpf, hr⟩ := good_reach c its t rounds hg
  have hfine : Fine c.hist (c.run its t rounds).1 := hr.fine start_tr hpf
  have hstart := fun {post pre w r ts tt} he => (C06_started c its t rounds (post := post) (pre := pre) (w := w) (r := r) (ts := ts) (tt := tt) he).2 hg
  generalize (c.run its t rounds).1 = s at *
  have hini : c.hist = History.init c.cols c.L c.H0 true := by simp only [Start.hist, hsafe]
  have hrun : History.run (History.init c.cols c.L c.H0 true) (opsOf s.tr) = (s.hist, none) := by rw [← hini]; exact hfine
  obtain ⟨opre, w, d, ts, tt, opost, e1, e2, e3, e4, e5, e6, e7⟩ := C06_stamp_of_first_return c.cols c.L c.H0 (opsOf s.tr) hk.std.has hk.std.sc
    hk.std.sc0 hk.room hk.ids (fun o ho => start_idSafe hr hk.keeps o (mem_opsOf.mp ho))
    (fun o ho w d ts t h => ht w d ts t (mem_opsOf.mp (h ▸ ho))) i h1 (by rw [hrun]; exact h2)
  rw [hrun] at e5 e6 e7
  rw [← hini] at e2 e3 e4
  -- the event
  have hsplit : ∀ (tr : List Ev) (a : List Op) (o : Op) (b : List Op), opsOf tr = a ++ o :: b →
      ∃ post pre, tr = post ++ .op o :: pre ∧ opsOf pre = a := by
    intro tr
    induction tr with
    | nil => intro a o b h; simp [opsOf] at h
    | cons e tr ih =>
      intro a o b h
      rw [opsOf_cons] at h
      by_cases hb : b = []
      · subst hb
        by_cases heo : ∃ o', e = .op o'
        · obtain ⟨o', rfl⟩ := heo
          simp only at h
          obtain ⟨ha, hoo⟩ := List.append_inj' h rfl
          simp only [List.cons.injEq, and_true] at hoo
          subst hoo
          exact ⟨[], tr, rfl, ha⟩
        · have : opsOf tr = a ++ [o] := by
            cases e with
            | op o' => exact absurd ⟨o', rfl⟩ heo
            | _ => simpa using h
          obtain ⟨post, pre, rfl, h'⟩ := ih a o [] this
          exact ⟨e :: post, pre, rfl, h'⟩
      · by_cases heo : ∃ o', e = .op o'
        · obtain ⟨o', rfl⟩ := heo
          simp only at h
          obtain ⟨b', x, rfl⟩ : ∃ b' x, b = b' ++ [x] := by
            rcases List.eq_nil_or_concat b with hh | ⟨b', x, hh⟩
            · exact absurd hh hb
            · exact ⟨b', x, by simpa using hh⟩
          have h' : opsOf tr ++ [o'] = (a ++ o :: b') ++ [x] := by rw [h]; simp
          obtain ⟨ha, _⟩ := List.append_inj' h' rfl
          obtain ⟨post, pre, rfl, h''⟩ := ih a o b' ha
          exact ⟨.op o' :: post, pre, rfl, h''⟩
        · have : opsOf tr = a ++ o :: b := by
            cases e with
            | op o' => exact absurd ⟨o', rfl⟩ heo
            | _ => simpa using h
          obtain ⟨post, pre, rfl, h'⟩ := ih a o b this
          exact ⟨e :: post, pre, rfl, h'⟩
  obtain ⟨post, pre0, hev, hops⟩ := hsplit _ _ _ _ e1
  obtain ⟨_, f2, f3⟩ := fine_split hfine hev
  obtain ⟨w', m, pre, rfl, hrec, _⟩ := hr.recF start_tr _ _ _ hev rfl
  cases m with
  | data D =>
    obtain ⟨g1, rfl, g2⟩ := hrec
    have ho : D.out = .arr d := by cases hh : D.out <;> simp [hh, Out.array] at g2; rw [g2]
    have hst := hstart hev
    rw [hops] at f2 f3
    rw [f2] at e2
    rw [f3] at e4
    have e8 : ∀ x, histAt c.hist (.recv w (.data D) :: x) = histAt c.hist x := fun x => histAt_skip _ _ (by simp)
    refine ⟨post, pre, w, D, d, ts, tt, hev, g1, ho, ?_, by rw [e8] at e2; exact e2, ?_, e5, e6, e7⟩
    · simp only [StartTime, sinceGen, isGenOrder, Bool.false_eq_true, if_false] at hst ⊢
      cases hs : sinceGen w pre with
      | none => simp only [hs, Option.map_none] at hst; exact hst
      | some l =>
        simp only [hs, Option.map_some] at hst
        obtain ⟨rows, hrows⟩ := hst
        refine ⟨rows, ?_⟩
        have hne : ∀ {x : List Ev}, firstEntry (Ev.recv w (.data D) :: x) = some (.op (.giveGen rows ts)) → firstEntry x = some (.op (.giveGen rows ts)) := by
          intro x hx
          cases hfx : firstEntry x with
          | none =>
            rw [firstEntry_nil hfx rfl] at hx
            simp at hx
          | some e =>
            have := firstEntry_append (l := [Ev.recv w (.data D)]) hfx
            rw [List.singleton_append, hx] at this
            rw [this]
        exact hne hrows
    · simp only [histAt_op] at e4 ⊢
      rw [e8] at e4; exact e4
  | _ => exact hrec.elim

/-! ### Examples -/

/-- Worker 1 generates three points at time 4; they are recorded at time 5. -/
def histDemo : Start := { cols := demoCols, L := 4, H0 := noH0, n := 2, safe := true }

theorem histDemo_std : histDemo.Std where
  has := by unfold HasLibCols; decide
  sc := by unfold LibScalar; decide
  sc0 := by intro c h; simp [histDemo, noH0] at h

theorem histDemo_ok : (histDemo.run demoIts (fun _ => 0) []).2.good = true ∧ HistOk histDemo (histDemo.run demoIts (fun _ => 0) []).1.tr :=
  ⟨by decide +kernel, histDemo_std, by decide, fun h => by simp [histDemo, noH0, Rec.fields] at h, keepsIdsB_sound (by decide +kernel)⟩

example : (trimH (histDemo.run demoIts (fun _ => 0) []).1.hist).map
    (fun r => (r.sid, r .genWorker, r .genStartedTime, r .genEndedTime, r (.user 1))) =
    [(0, .s 1, .s 4, .s 5, .v [10, 11]), (1, .s 1, .s 4, .s 5, .v [20, 21]), (2, .s 1, .s 4, .s 5, .v [30, 31])] := by
  decide +kernel

example : NumberedFromZero (trimH (histDemo.run demoIts (fun _ => 0) []).1.hist) :=
  C01_run_partial histDemo demoIts _ _ histDemo_ok.1 histDemo_ok.2

end Verif.Manager
