import Verif.Manager.StallRes
import Verif.Manager.StallOrder
import Verif.Manager.PropsTotals
import Verif.Manager.GensPass
/-!
Property C67: the manager does not give up a run while something can be done.

After the orders of an answer have been handed out, the manager raises an AssertionError if all workers are idle and no
exit criterion holds (manager.py:721-723, `noWork` in the model).  The theorems say for which reasons that can happen.

`Complete tr`: workers answer orders for evaluation completely; `c.Protected tr`: safe mode, or nobody returns protected fields;
`c.SimWorker`: not all workers are reserved for generators.
-/
namespace Verif.Manager
open Verif.History Verif.Res Verif.Sched Verif.Alloc

/-- Orders are not put off for lack of resource sets: the allocation function does not schedule sets, or every node carries
the same number of sets and no persistent function holds any. -/
inductive Roomy (c : Start) (env : AllocEnv) (s : St) : Prop
  | unmanaged (h : env.manage = false)
  | even (n : Nat) (nodes : List String) (gpn : Nat) (rm0 : RM) (hnd : nodes.Nodup) (hmk : mkRM n nodes gpn none = some rm0)
      (heven : n % nodes.length = 0 ∨ n ≤ nodes.length) (hman : env.manage = true) (h0 : c.rm = some rm0)
      (hfgs : c.sp.finalGenSend = false) (hs : Sane s.tr) (hp : anyPersis s = false)

/-- The rows that came with the history and had been started have their results. -/
def Start.Tidy (c : Start) : Prop := ∀ r ∈ c.hist.rows, r.flag .simStarted = true → r.flag .simEnded = true

/-! ## Any allocation function -/

/-- The manager gives up only if all workers are idle, no exit criterion holds, and the last answer of the allocation function
has no orders, or as many rows as `sim_max` allows have been given and the orders are left out. -/
theorem C67_gives_up (c : Start) (its : List Iter) (hn : (c.loop its).2 = .raised .noWork) :
    ∃ it ∈ its, ∃ s cs work p, it.alloc s = .ok cs work false p ∧
      (c.loop its).1.tr = .op (.requestCancel cs) :: s.tr ∧ (∀ k ∈ (c.loop its).1.W, k.active = 0) ∧
      termTest c.sp (c.loop its).1.hist it.e2 = 0 ∧ (work = [] ∨ simMaxGiven c.sp (c.loop its).1.hist = true) := by
  obtain ⟨it, hm, s, cs, work, p, _, h1, h2, h3, h4, h5⟩ :=
    mainLoop_noWork (P := fun _ _ => True) (s0 := c.st) its (fun _ _ _ => trivial) .init hn
  have h2' : (c.loop its).1 = { (doOp s (.requestCancel cs)).1 with pinfo := p } := h2
  exact ⟨it, hm, s, cs, work, p, h1, by rw [h2']; rfl, allIdle_of h3, h4, h5⟩

/-! ## The shipped functions -/

theorem roomy_served {c : Start} {b : Bundled} {env : AllocEnv}
    (h0 : ∀ lp n, b = .aposmm lp n → c.pinfo.firstCall = false → c.pinfo.nextToGive ≠ none) {now : Int} {ord : List Nat → List Nat} {s s2 : St} {p : PInfo}
    (hord : ∀ l : List Nat, (ord l).Perm l) (hr : Reach c.sp (b.P env c.sp) c.st (.hand []) s2) (he : s2 = { b.marked now s with pinfo := p })
    (ha : anyActive s2 = false) (hroom : Roomy c env s2) : Served (ctxOf env c.sp ord (b.marked now s)) (schedOf env s) := by
  cases hroom with
  | unmanaged h => exact served_unmanaged h _
  | even n nodes gpn rm0 hnd hmk heven hman hrm hfgs hs hp =>
    obtain ⟨ops, h1, h2, h3⟩ := idle_free hnd (by simp) hmk hrm hfgs (fun s cs work p hr' hP => by
      obtain ⟨now, ord, hord, _, hcall⟩ := hP.ok
      refine answer_scheduled hman hord ?_ hcall
      intro lp k hb hf
      subst hb
      exact (((once_ord (b := .aposmm lp k) rfl ⟨fun _ => rfl, fun hf => ⟨h0 lp k rfl hf, by simp⟩⟩ hr').2 rfl).2 hf).1) hr rfl hs ha hp
    have h4 : s.rm = some (rmRun rm0 ops) := by rw [← h1, he]; rfl
    have h5 : schedOf env s = mkSched (rmRun rm0 ops) env.split2fit env.matchSlots := by simp only [schedOf, h4]
    rw [h5]
    exact served_free hnd hmk heven h2 h3 h4 hord _ _

/-- With `give_sim_work_first` the manager never gives up.  Partial: `num_active_gens` is not 0, not all workers are reserved for
generators, in batch mode no row of the prepended history is left without result, sets are not wanting (`Roomy`), workers
answer completely and protected fields are safe; each of the first four is needed (witnesses below). -/
theorem C67_simFirst_partial (c : Start) (hstd : c.Std) (o : UserOpts) (env : AllocEnv) (its : List Iter)
    (hits : ∀ it ∈ its, it.uses (.simFirst o) env c.sp) (hw : c.SimWorker) (hgens : o.numActiveGens ≠ some 0)
    (htidy : o.batchMode = true → c.Tidy) (hprot : c.Protected (c.loop its).1.tr) (hcomp : Complete (c.loop its).1.tr)
    (hroom : Roomy c env (c.loop its).1) : (c.loop its).2 ≠ .raised .noWork := by
  intro hn
  obtain ⟨now, ord, s, p, hord, hr, he, ha, hcall, hmax⟩ := stalled hstd (by intro _ _ h; cases h) hits hprot hcomp hn
  have hsv := roomy_served (by intro _ _ h; cases h) hord hr he ha hroom
  have hx : ∀ s2 : St, s2 = { Bundled.marked (.simFirst o) now s with pinfo := p } → anyActive s2 = false → HasSimWorker s2.W →
      simMaxGiven c.sp s2.hist = false → (waiting (trimH s2.hist) = [] → o.batchMode = true → allSimEnded (trimH s2.hist) (fun _ => true) = true) →
      False := by
    intro s2 he ha hw hmax hb
    subst he
    rcases gswf_idle hsv (allIdle_of ha) hw (anyIdle_of (c := c) (env := env) (ord := ord) (s := Bundled.marked (.simFirst o) now s) ha hw) hcall rfl with
      h | h | ⟨h1, h2, h3⟩
    · rw [show (ctxOf env c.sp ord (Bundled.marked (.simFirst o) now s)).simMaxGiven = false from hmax] at h; simp at h
    · exact hgens h
    · rw [show allSimEnded (ctxOf env c.sp ord (Bundled.marked (.simFirst o) now s)).H (fun _ => true) = true from hb h1 h2] at h3; simp at h3
  exact hx _ he ha (hasSim_of hr hw) hmax (fun h1 h2 => idle_allEnded hstd hr rfl hcomp hprot (htidy h2) ha h1 _)

/-- The same for `fast_alloc`. -/
theorem C67_fast_partial (c : Start) (hstd : c.Std) (o : UserOpts) (env : AllocEnv) (its : List Iter)
    (hits : ∀ it ∈ its, it.uses (.fast o) env c.sp) (hw : c.SimWorker) (hgens : o.numActiveGens ≠ some 0)
    (hprot : c.Protected (c.loop its).1.tr) (hcomp : Complete (c.loop its).1.tr)
    (hroom : Roomy c env (c.loop its).1) : (c.loop its).2 ≠ .raised .noWork := by
  intro hn
  obtain ⟨now, ord, s, p, hord, hr, he, ha, hcall, hmax⟩ := stalled hstd (by intro _ _ h; cases h) hits hprot hcomp hn
  have hsv := roomy_served (by intro _ _ h; cases h) hord hr he ha hroom
  have hx : ∀ s2 : St, s2 = { Bundled.marked (.fast o) now s with pinfo := p } → anyActive s2 = false → HasSimWorker s2.W →
      simMaxGiven c.sp s2.hist = false → False := by
    intro s2 he ha hw hmax
    subst he
    rcases fast_idle hsv (allIdle_of ha) hw (anyIdle_of (c := c) (env := env) (ord := ord) (s := Bundled.marked (.fast o) now s) ha hw) hcall rfl with
      h | h
    · rw [show (ctxOf env c.sp ord (Bundled.marked (.fast o) now s)).simMaxGiven = false from hmax] at h; simp at h
    · exact hgens h
  exact hx _ he ha (hasSim_of hr hw) hmax

/-- The same for `give_pregenerated_sim_work`: when all rows are given it asks for the shutdown. -/
theorem C67_pregen_partial (c : Start) (hstd : c.Std) (env : AllocEnv) (its : List Iter)
    (hits : ∀ it ∈ its, it.uses .pregen env c.sp) (hw : c.SimWorker)
    (hprot : c.Protected (c.loop its).1.tr) (hcomp : Complete (c.loop its).1.tr)
    (hroom : Roomy c env (c.loop its).1) : (c.loop its).2 ≠ .raised .noWork := by
  intro hn
  obtain ⟨now, ord, s, p, hord, hr, he, ha, hcall, hmax⟩ := stalled hstd (by intro _ _ h; cases h) hits hprot hcomp hn
  have hsv := roomy_served (by intro _ _ h; cases h) hord hr he ha hroom
  have hx : ∀ s2 : St, s2 = { Bundled.marked .pregen now s with pinfo := p } → anyActive s2 = false → HasSimWorker s2.W →
      simMaxGiven c.sp s2.hist = false → False := by
    intro s2 he ha hw hmax
    subst he
    rcases pregen_idle hsv (allIdle_of ha) hw (anyIdle_of (c := c) (env := env) (ord := ord) (s := Bundled.marked .pregen now s) ha hw) hcall rfl with
      h | h
    · rw [show (ctxOf env c.sp ord (Bundled.marked .pregen now s)).simMaxGiven = false from hmax] at h; simp at h
    · simp at h
  exact hx _ he ha (hasSim_of hr hw) hmax

/-- The same for `ensure_one_active_gen`, if moreover the rows before the pointer had been started and nobody takes back a request
for cancellation (a row that was passed over is never given). -/
theorem C67_oneGen_partial (c : Start) (hstd : c.Std) (env : AllocEnv) (its : List Iter)
    (hits : ∀ it ∈ its, it.uses .oneGen env c.sp) (hw : c.SimWorker) (htidy : c.Tidy)
    (hptr : ∀ i, i < c.pinfo.nextToGive.getD 0 → flagAt c.hist.rows .simStarted i = true) (hsteady : c.Steady (c.loop its).1.tr)
    (hprot : c.Protected (c.loop its).1.tr) (hcomp : Complete (c.loop its).1.tr)
    (hroom : Roomy c env (c.loop its).1) : (c.loop its).2 ≠ .raised .noWork := by
  intro hn
  obtain ⟨now, ord, s, p, hord, hr, he, ha, hcall, hmax⟩ := stalled hstd (by intro _ _ h; cases h) hits hprot hcomp hn
  have hsv := roomy_served (by intro _ _ h; cases h) hord hr he ha hroom
  have hpast := past (k := .oneGen) (o := {}) rfl hr rfl
  have hsim := hasSim_of hr hw
  have hend : ∀ i, i < (c.loop its).1.pinfo.nextToGive.getD 0 → flagAt (c.loop its).1.hist.rows .simEnded i = true ∨
      (flagAt (c.loop its).1.hist.rows .cancelRequested i = true ∧ flagAt (c.loop its).1.hist.rows .simStarted i = false) := by
    intro i hi
    have hst : flagAt (c.loop its).1.hist.rows .simStarted i = true → flagAt (c.loop its).1.hist.rows .simEnded i = true :=
      fun h => idle_ended hstd hr rfl hcomp hprot htidy ha h
    by_cases hp0 : i < c.pinfo.nextToGive.getD 0
    · left
      refine hst ?_
      have := flag_stays hstd (.inl rfl) (tr := []) (l := (c.loop its).1.tr) (by simpa using start_kept hr hprot) (hptr i hp0)
      rw [List.append_nil, ← start_histAt hr] at this
      exact this
    · rcases hpast i (by omega) hi with h | h | h
      · left
        simp only [handRows, List.map_nil, workRows, List.flatMap_nil, List.append_nil] at h
        exact given_ended hstd hr rfl hcomp hprot ha h
      · have hc := hsteady i h
        rw [← start_histAt hr] at hc
        cases hs : flagAt (c.loop its).1.hist.rows .simStarted i with
        | true => exact .inl (hst hs)
        | false => exact .inr ⟨hc, rfl⟩
      · rw [hmax] at h; simp at h
  have hx : ∀ s2 : St, s2 = { Bundled.marked .oneGen now s with pinfo := p } → anyActive s2 = false → HasSimWorker s2.W →
      simMaxGiven c.sp s2.hist = false → (∀ i, i < s2.pinfo.nextToGive.getD 0 → flagAt s2.hist.rows .simEnded i = true ∨
      (flagAt s2.hist.rows .cancelRequested i = true ∧ flagAt s2.hist.rows .simStarted i = false)) → False := by
    intro s2 he ha hw hmax hend
    subst he
    have hpi : p.nextToGive = s.pinfo.nextToGive := by
      have hW : IdsOk (ctxOf env c.sp ord (Bundled.marked .oneGen now s)).W := by
        have h9 := start_idsOk hr; rw [he] at h9; exact h9
      rcases (oneGen_spec hW hcall).2.2 with h | ⟨n, n', ws, h1, h2, h3, h4, h5, _⟩ | ⟨n, w, wk, ws, _, _, h3, _⟩
      · injection h with _ h; rw [h]
      · exfalso
        have := oneGen_idle hsv (allIdle_of ha) hw (anyIdle_of (c := c) (env := env) (ord := ord) (s := Bundled.marked .oneGen now s) ha hw) hcall rfl
        rcases this with h | ⟨n2, h6, h7, _⟩
        · rw [show (ctxOf env c.sp ord (Bundled.marked .oneGen now s)).simMaxGiven = false from hmax] at h; simp at h
        · rw [h1] at h6; cases h6; omega
      · simp at h3
    rcases oneGen_idle hsv (allIdle_of ha) hw (anyIdle_of (c := c) (env := env) (ord := ord) (s := Bundled.marked .oneGen now s) ha hw) hcall rfl with
      h | ⟨n, h1, h2, h3⟩
    · rw [show (ctxOf env c.sp ord (Bundled.marked .oneGen now s)).simMaxGiven = false from hmax] at h; simp at h
    · rw [← hpi] at h1
      simp only [h1, Option.getD_some] at hend
      simp only [allSimEnded, List.all_eq_false] at h3
      obtain ⟨r, hrm, hr3⟩ := h3
      obtain ⟨i, hi, rfl⟩ := List.getElem_of_mem hrm
      have hrow : (trimH (Bundled.marked .oneGen now s).hist)[i]? = some (trimH (Bundled.marked .oneGen now s).hist)[i] := List.getElem?_eq_getElem hi
      have hrow2 : (Bundled.marked .oneGen now s).hist.rows[i]? = some (trimH (Bundled.marked .oneGen now s).hist)[i] := by
        rw [← hrow]; simp only [trimH, List.getElem?_take]
        have : i < (Bundled.marked .oneGen now s).hist.index := by
          have : i < (trimH (Bundled.marked .oneGen now s).hist).length := hi
          simp only [trimH, List.length_take] at this; omega
        rw [if_pos this]
      have hi' : i < n := Nat.lt_of_lt_of_le hi h2
      have h4 := hend i hi'
      simp only [flagAt, hrow2, Option.any_some] at h4
      apply hr3
      show (!(true && !((trimH (Bundled.marked .oneGen now s).hist)[i].flag .cancelRequested &&
        !(trimH (Bundled.marked .oneGen now s).hist)[i].flag .simStarted)) || (trimH (Bundled.marked .oneGen now s).hist)[i].flag .simEnded) = true
      rcases h4 with h4 | ⟨h4, h5⟩
      · rw [h4]; simp
      · rw [h4, h5]; simp
  exact hx _ he ha hsim hmax hend

/-! ## Persistent generators -/

theorem rowsWhere_nil {H : List Row} {q : Row → Bool} (h : rowsWhere H q = []) : ∀ (i : Nat) (r : Row), H[i]? = some r → q r = false := by
  intro i r hr
  have h1 : i ∉ rowsWhere H q := by rw [h]; simp
  simp only [rowsWhere, List.mem_filter, List.mem_range, hr, Option.map_some, Option.getD_some, not_and] at h1
  have := h1 (List.getElem?_eq_some_iff.mp hr).1
  simpa using this

theorem rowsWhere_some {H : List Row} {q : Row → Bool} (h : rowsWhere H q ≠ []) : ∃ (i : Nat) (r : Row), H[i]? = some r ∧ q r = true := by
  obtain ⟨i, hi⟩ := List.exists_mem_of_ne_nil _ h
  simp only [rowsWhere, List.mem_filter, List.mem_range] at hi
  refine ⟨i, H[i], List.getElem?_eq_getElem hi.1, ?_⟩
  have := hi.2
  rw [List.getElem?_eq_getElem hi.1] at this
  simpa using this

theorem availIds_nil {W : List Wrk} {p : Nat} {z g : Option Bool} (h : availIds W (some p) false z g = .ok []) :
    ∀ k ∈ W, k.active = 0 → ((∀ b, z = some b → k.zrw = b) ∨ W.any (·.zrw) = false) →
      ((∀ b, g = some b → k.genWorker = b) ∨ W.any (·.genWorker) = false) → k.persis ≠ p := by
  intro k hk ha hz hg hp
  simp only [availIds, Bool.false_eq_true, false_and, if_false, Except.ok.injEq, List.map_eq_nil_iff, List.filter_eq_nil_iff] at h
  apply h k hk
  simp only [ha, hp, decide_true, Bool.true_and, Bool.and_eq_true, Bool.or_eq_true, Bool.not_eq_true']
  constructor
  · rcases hz with hz | hz
    · right; cases z with
      | none => rfl
      | some b => simpa using hz b rfl
    · exact .inl hz
  · rcases hg with hg | hg
    · right; cases g with
      | none => rfl
      | some b => simpa using hg b rfl
    · exact .inl hg

/-- With `only_persistent_gens` the manager gives up only in one of two situations: rows wait, but every worker that may simulate
runs a persistent function; or no row waits, every persistent generator has been told all results of its points, and as many
persistent generators run as `num_active_gens` allows, or every worker that may run a generator is taken.  Partial: no row of the prepended
history is left without result, sets are not wanting, workers answer completely and protected fields are safe. -/
theorem C67_persGens_partial (c : Start) (hstd : c.Std) (o : UserOpts) (env : AllocEnv) (its : List Iter)
    (hits : ∀ it ∈ its, it.uses (.persGens o) env c.sp) (hw : c.SimWorker) (htidy : c.Tidy)
    (hprot : c.Protected (c.loop its).1.tr) (hcomp : Complete (c.loop its).1.tr)
    (hroom : Roomy c env (c.loop its).1) (hn : (c.loop its).2 = .raised .noWork) :
    ((∃ i r, i < (c.loop its).1.hist.index ∧ (c.loop its).1.hist.rows[i]? = some r ∧ r.flag .simStarted = false ∧ r.flag .cancelRequested = false) ∧
      ∀ k ∈ (c.loop its).1.W, k.zrw = false → (o.altType = true ∨ k.genWorker = false) →
        k.persis ≠ 0 ∧ (o.altType = true → k.persis ≠ EVAL_SIM)) ∨
    ((∀ i r, i < (c.loop its).1.hist.index → (c.loop its).1.hist.rows[i]? = some r → r.flag .simStarted = true ∨ r.flag .cancelRequested = true) ∧
      (∀ k ∈ (c.loop its).1.W, k.persis = EVAL_GEN → o.activeRecvGen = false → ∀ i r, i < (c.loop its).1.hist.index →
        (c.loop its).1.hist.rows[i]? = some r → r .genWorker = .s k.id → r.flag .simEnded = true → r.flag .genInformed = true) ∧
      (o.numActiveGens.getD 1 ≤ (c.loop its).1.W.countP (fun k => decide (k.persis = EVAL_GEN)) ∨
        ∀ k ∈ (c.loop its).1.W, (k.zrw = true ∨ ∀ k' ∈ (c.loop its).1.W, k'.zrw = false) →
          (k.genWorker = true ∨ ∀ k' ∈ (c.loop its).1.W, k'.genWorker = false) → k.persis ≠ 0)) := by
  obtain ⟨now, ord, s, p, hord, hr, he, ha, hcall, hmax⟩ := stalled hstd (by intro _ _ h; cases h) hits hprot hcomp hn
  have hsv := roomy_served (by intro _ _ h; cases h) hord hr he ha hroom
  have hall := fun h1 q => idle_allEnded hstd hr rfl hcomp hprot htidy ha h1 q
  have hsim := hasSim_of hr hw
  generalize (c.loop its).1 = s2 at he ha hall hsim hmax ⊢
  have hidle := allIdle_of ha
  have e1 : (ctxOf env c.sp ord (Bundled.marked (.persGens o) now s)).W = s2.W := by rw [he]; rfl
  have e2 : (ctxOf env c.sp ord (Bundled.marked (.persGens o) now s)).H = trimH s2.hist := by rw [he]; rfl
  have e3 : (ctxOf env c.sp ord (Bundled.marked (.persGens o) now s)).simMaxGiven = false := by rw [← hmax, he]; rfl
  have e4 : (ctxOf env c.sp ord (Bundled.marked (.persGens o) now s)).anyIdle = true := by
    rw [show (Bundled.marked (.persGens o) now s) = { Bundled.marked (.persGens o) now s with pinfo := s.pinfo } from rfl]
    exact anyIdle_of (by rw [he] at ha; exact ha) (by rw [he] at hsim; exact hsim)
  have e5 : (ctxOf env c.sp ord (Bundled.marked (.persGens o) now s)).ord = ord := rfl
  rcases opg_idle hsv e4 hcall rfl rfl with h | ⟨h1, h2⟩ | ⟨h1, h2, h3⟩
  · rw [e3] at h; simp at h
  · rw [e2] at h1
    left
    obtain ⟨i, r, h3, h4⟩ := rowsWhere_some h1
    rw [trim_get] at h3
    simp only [Bool.and_eq_true, Bool.not_eq_true'] at h4
    refine ⟨⟨i, r, h3.1, h3.2, h4.1, h4.2⟩, ?_⟩
    intro k hk hz hg
    unfold opgSimWorkers at h2
    rw [e1, e5] at h2
    split at h2
    · rename_i halt
      obtain ⟨a, ha1⟩ := availIds_noRecv s2.W (some 0) (some false) none
      obtain ⟨b, hb1⟩ := availIds_noRecv s2.W (some EVAL_SIM) (some false) none
      rw [ha1, hb1] at h2
      simp only [Except.ok.injEq, unionIds] at h2
      have hp := (hord (a ++ b).eraseDups)
      rw [h2] at hp
      have hnil := hp.symm.eq_nil
      have hab : a ++ b = [] := by
        cases hq : a ++ b with
        | nil => rfl
        | cons x xs => rw [hq, List.eraseDups_cons] at hnil; simp at hnil
      have h5 := List.append_eq_nil_iff.mp hab
      rw [h5.1] at ha1; rw [h5.2] at hb1
      exact ⟨availIds_nil ha1 k hk (hidle k hk) (.inl (by intro b hb; cases hb; exact hz)) (.inl (by intro b hb; cases hb)),
        fun _ => availIds_nil hb1 k hk (hidle k hk) (.inl (by intro b hb; cases hb; exact hz)) (.inl (by intro b hb; cases hb))⟩
    · rename_i halt
      refine ⟨availIds_nil h2 k hk (hidle k hk) (.inl (by intro b hb; cases hb; exact hz)) (.inl (by intro b hb; cases hb; exact hg.resolve_left halt)),
        fun h => absurd h halt⟩
  · rw [e2] at h1
    rw [e1, e2] at h2
    rw [e1] at h3
    right
    refine ⟨?_, ?_, ?_⟩
    · intro i r hi hrow
      have := rowsWhere_nil h1 i r (trim_get.mpr ⟨hi, hrow⟩)
      simp only [Bool.and_eq_false_iff, Bool.not_eq_false'] at this
      exact this
    · intro k hk hp har i r hi hrow hgw hend
      rw [har] at h2
      obtain ⟨ws, hws⟩ := availIds_noRecv s2.W (some EVAL_GEN) none none
      have hkm : k.id ∈ ws := by
        simp only [availIds, Bool.false_eq_true, false_and, if_false, Except.ok.injEq] at hws
        rw [← hws, List.mem_map]
        refine ⟨k, List.mem_filter.mpr ⟨hk, ?_⟩, rfl⟩
        simp [hidle k hk, hp]
      rcases h2 ws hws k.id hkm with h | h
      · have := rowsWhere_nil h i r (trim_get.mpr ⟨hi, hrow⟩)
        simp only [hend, ofGen, hgw, decide_true, Bool.true_and, Bool.and_true, Bool.not_eq_false'] at this
        exact this
      · rw [hall h1] at h; simp at h
    · rcases h3 with h3 | h3
      · right
        intro k hk hz hg
        refine availIds_nil h3 k hk (hidle k hk) ?_ ?_
        · rcases hz with h | h
          · exact .inl (by intro b hb; cases hb; exact h)
          · exact .inr (by simpa using h)
        · rcases hg with h | h
          · exact .inl (by intro b hb; cases hb; exact h)
          · exact .inr (by simpa using h)
      · exact .inl h3

end Verif.Manager
