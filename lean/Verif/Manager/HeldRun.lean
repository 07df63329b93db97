import Verif.Manager.Held
/-
Resource table and holders in the course of a run with a bundled allocation function.
-/
namespace Verif.Manager
open Verif.History Verif.Res Verif.Sched Verif.Alloc

variable {sp : Specs} {P : St → Reply → Prop} {s0 : St}

/-! ### Teams in the answers of the allocation functions -/

/-- The orders of an answer are among those for which teams were found, one per worker of the table. -/
structure Teams (c : Ctx) (s : Sched) (work full : WorkD) : Prop where
  steps : ∃ s', Steps c s full s'
  sub : ∃ l, work.Perm l ∧ l.Sublist full
  nodup : (keys work).Nodup
  mem : ∀ w ∈ keys work, ∃ k ∈ c.W, k.id = w

theorem Teams.nil (c : Ctx) (s : Sched) : Teams c s [] [] :=
  ⟨⟨s, .nil s⟩, ⟨[], .refl _, List.Sublist.refl _⟩, List.nodup_nil, by simp [keys]⟩

theorem Teams.same {c : Ctx} {s : Sched} {work : WorkD} (h : ∃ s', Steps c s work s') {ws : List Nat} (hk : (keys work).Sublist ws)
    (hnd : ws.Nodup) (hm : ∀ w ∈ ws, ∃ k ∈ c.W, k.id = w) : Teams c s work work :=
  ⟨h, ⟨work, .refl _, List.Sublist.refl _⟩, hk.nodup hnd, fun w hw => hm w (hk.subset hw)⟩

theorem availIds_mem {W : List Wrk} {p : Option Nat} {ar : Bool} {z g : Option Bool} {l : List Nat}
    (h : availIds W p ar z g = .ok l) {w : Nat} (hw : w ∈ l) : ∃ k ∈ W, k.id = w := by
  rw [(availIds_ok h).2, List.mem_map] at hw
  obtain ⟨k, hk, e⟩ := hw
  exact ⟨k, (List.mem_filter.mp hk).1, e⟩

theorem answer_teams {b : Bundled} {c : Ctx} (hW : IdsOk c.W) (hord : ∀ l, (c.ord l).Perm l) {p : PInfo} {s : Sched} {a : Answer}
    (hn : ∀ lp n, b = .aposmm lp n → p.firstCall = false → p.nextToGive ≠ none) (h : b.call c p s = .ok a) :
    ∃ full, Teams c s a.work full := by
  have more : b.more = true → ∃ full, Teams c s a.work full := by
    intro hb
    rcases more_answer hb h with h1 | ⟨_, _, _, _, _, _, _, _, _, _, hp⟩
    · rw [h1]; exact ⟨_, .nil c s⟩
    · refine ⟨_, hp.steps, hp.sub, hp.nodup, ?_⟩
      intro w hw
      obtain ⟨e, he, rfl⟩ := List.mem_map.mp hw
      obtain ⟨k, k1, k2, _⟩ := hp.idle he
      exact ⟨k, k1, k2⟩
  cases b with
  | simFirst o =>
    obtain ⟨_, _, hst, h1 | ⟨_, ws, pts', hws, hp⟩ | ⟨_, _, ws, hws, hk, _, _⟩⟩ := gswf_spec hW h
    · rw [h1]; exact ⟨_, .nil c s⟩
    · exact ⟨_, .same hst hp.keys (availIds_nodup hW hws) (fun w hw => availIds_mem hws hw)⟩
    · exact ⟨_, .same hst hk (availIds_nodup hW hws) (fun w hw => availIds_mem hws hw)⟩
  | fast o =>
    obtain ⟨_, hst, h1 | ⟨n, n', ws, sims, gens, _, _, hwk, hws, hsim, _, _, _, ws2, hws2, hk2, hg⟩⟩ := fast_spec hW h
    · rw [h1]; exact ⟨_, .nil c s⟩
    · refine ⟨a.work, hst, ⟨a.work, .refl _, List.Sublist.refl _⟩, ?_, ?_⟩
      · rw [hwk, keys, List.map_append, List.nodup_append]
        refine ⟨hsim.keys.nodup (availIds_nodup hW hws), hk2.nodup (availIds_nodup hW hws2), ?_⟩
        intro x hx y hy e
        subst e
        obtain ⟨e, he, rfl⟩ := List.mem_map.mp hy
        exact (hg e he).1 hx
      · intro w hw
        rw [hwk, keys, List.map_append] at hw
        rcases List.mem_append.mp hw with hw | hw
        · exact availIds_mem hws (hsim.keys.subset hw)
        · exact availIds_mem hws2 (hk2.subset hw)
  | oneGen =>
    obtain ⟨_, hst, h1 | ⟨n, n', ws, _, _, _, hws, hsim, _⟩ | ⟨n, w0, wk0, ws, _, _, hwk, _, _, _, hws, hw, _⟩⟩ := oneGen_spec hW h
    · rw [h1]; exact ⟨_, .nil c s⟩
    · exact ⟨_, .same hst hsim.keys (availIds_nodup hW hws) (fun w hw => availIds_mem hws hw)⟩
    · refine ⟨_, .same hst (ws := [w0]) (by rw [hwk]; exact List.Sublist.refl _) (by simp) ?_⟩
      intro w hw'
      simp only [List.mem_singleton] at hw'; subst hw'
      exact availIds_mem hws hw
  | pregen =>
    obtain ⟨hst, h1 | ⟨h1, _⟩ | ⟨n', ws, _, _, _, hws, hsim, _⟩⟩ := pregen_spec hW h
    · rw [h1]; exact ⟨_, .nil c s⟩
    · rw [h1]; exact ⟨_, .nil c s⟩
    · exact ⟨_, .same hst hsim.keys (availIds_nodup hW hws) (fun w hw => availIds_mem hws hw)⟩
  | persGens o =>
    rcases opg_spec hW hord h with h1 | ⟨h1, _⟩ | ⟨rets, sims, gens, wr, wsim, wg, pts', hp⟩
    · rw [h1]; exact ⟨_, .nil c s⟩
    · rw [h1]; exact ⟨_, .nil c s⟩
    · refine ⟨_, hp.steps, ⟨_, hp.perm, ((List.Sublist.refl _).append List.filter_sublist).append (List.Sublist.refl _)⟩, hp.nodup, ?_⟩
      intro w hw
      obtain ⟨e, he, rfl⟩ := List.mem_map.mp hw
      rw [hp.perm.mem_iff, List.mem_append, List.mem_append] at he
      rcases he with (he | he) | he
      · exact availIds_mem hp.retw (hp.retk.subset (List.mem_map.mpr ⟨_, he, rfl⟩))
      · obtain ⟨k, k1, k2, _⟩ := (opgSimWorkers_facts hW hord hp.simw).2 _
          (hp.sim.keys.subset (List.mem_map.mpr ⟨_, (List.mem_filter.mp he).1, rfl⟩))
        exact ⟨k, k1, k2⟩
      · exact availIds_mem hp.genw (hp.genk.subset (List.mem_map.mpr ⟨_, he, rfl⟩))
  | aposmm lp n0 =>
    rcases apo_spec hW (hn lp n0 rfl) h with ⟨h1, _⟩ | ⟨h1, _⟩ | ⟨p1, rets, sims, gens, wr, wsim, wg, n, n', _, _, _, _, hp⟩
    · rw [h1]; exact ⟨_, .nil c s⟩
    · rw [h1]; exact ⟨_, .nil c s⟩
    · refine ⟨_, hp.steps, ⟨_, hp.perm, ((List.Sublist.refl _).append List.filter_sublist).append (List.Sublist.refl _)⟩, hp.nodup, ?_⟩
      intro w hw
      obtain ⟨e, he, rfl⟩ := List.mem_map.mp hw
      rw [hp.perm.mem_iff, List.mem_append, List.mem_append] at he
      rcases he with (he | he) | he
      · exact availIds_mem hp.retw (hp.retk.subset (List.mem_map.mpr ⟨_, he, rfl⟩))
      · exact availIds_mem hp.simw (hp.sim.keys.subset (List.mem_map.mpr ⟨_, (List.mem_filter.mp he).1, rfl⟩))
      · exact availIds_mem hp.genw (hp.genk.subset (List.mem_map.mpr ⟨_, he, rfl⟩))
  | fd o => exact more rfl
  | invBayes o like => exact more rfl
  | localOpt o => exact more rfl

theorem assignResources_some {c : Ctx} {rm : RM} (hrm : c.rm = some rm) {s s' : Sched} {n : Nat} {g : Option Bool} {ps : List Nat}
    {T : Option (List Nat)} (h : assignResources c s n g ps = (s', .ok T)) : ∃ T', T = some T' := by
  simp only [assignResources, hrm] at h
  repeat' split at h
  all_goals first | (injection h with _ h; injection h with h; exact ⟨_, h.symm⟩) | (injection h with _ h; cases h; done) | skip

/-- With resource management every order names its team, which is empty for a running persistent function. -/
theorem steps_team {c : Ctx} {rm : RM} (hm : c.manage = true) (hrm : c.rm = some rm) {s s' : Sched} {es : WorkD} (h : Steps c s es s') :
    ∀ e ∈ es, ∃ T, e.2.team = some T ∧ (T = [] ∨ ∃ k, wPos c.gom c.W.length e.1 = some k ∧ ((c.W[k]?).map (·.persis)).getD 0 = 0) := by
  induction h with
  | nil => simp
  | fail p w rows e he _ ih => exact ih
  | cons p w rows wk he _ ih =>
    intro e hem
    rcases List.mem_cons.mp hem with rfl | hem
    · simp only [updateTeam, hm, true_or, and_self, if_true] at he
      split at he
      · injection he with _ he; cases he
      · rename_i k hk
        split at he
        · injection he with _ he
          injection he with he
          exact ⟨[], he.symm, .inl rfl⟩
        · rename_i hp
          split at he
          · injection he with _ he; cases he
          · obtain ⟨T', hT'⟩ := assignResources_some hrm he
            exact ⟨T', hT', .inr ⟨k, hk, Decidable.not_not.mp hp⟩⟩
    · exact ih e hem
  | free w wk hm' ht _ ih => rw [hm] at hm'; cases hm'

theorem NewSets.sub {rm : RM} {P T T' : List Nat} (h : NewSets rm P T) (hs : ∃ l, T'.Perm l ∧ l.Sublist T) : NewSets rm P T' := by
  obtain ⟨l, hp, hs⟩ := hs
  have hm : ∀ i ∈ T', i ∈ T := fun i hi => hs.subset (hp.mem_iff.mp hi)
  exact ⟨hp.symm.nodup (hs.nodup h.nodup), fun i hi => h.ex i (hm i hi), fun i hi => h.free i (hm i hi), fun i hi => h.new i (hm i hi)⟩

theorem flatMap_sub {α β} {f : α → List β} {a b : List α} (h : a.Sublist b) : (a.flatMap f).Sublist (b.flatMap f) := by
  induction h with
  | slnil => exact .slnil
  | cons x _ ih => exact ih.trans (by rw [List.flatMap_cons]; exact List.sublist_append_right _ _)
  | cons_cons x _ ih => rw [List.flatMap_cons, List.flatMap_cons]; exact (List.Sublist.refl _).append ih

/-! ### Orders at hand -/

/-- The orders still to be handed out: one per worker of the table, with teams of free sets that do not overlap, and
without sets for running persistent functions. -/
structure HandOk (rm : RM) (s : St) (rest : List (Nat × Work × Int)) : Prop where
  nodup : (rest.map (·.1)).Nodup
  mem : ∀ x ∈ rest, x.1 ∈ ids s
  team : ∀ x ∈ rest, ∃ T, x.2.1.team = some T ∧ (T = [] ∨ (view x.1 s.tr).persis = 0)
  new : NewSets rm [] (rest.flatMap fun x => tm x.2.1)

/-- The answer `work` takes its resource sets from the scheduler: its orders come from calls of the functions of
`AllocSupport` that make work orders (among those of `full`; some may have been dropped), at most one for each worker. -/
def Scheduled (sp : Specs) (s : St) (work : WorkD) : Prop :=
  ∀ rm, s.rm = some rm → IdsOk s.W → ∃ (c : Ctx) (sf ms : Bool) (full : WorkD), c.manage = true ∧ c.rm = some rm ∧ c.W = s.W ∧ c.gom = sp.gom ∧
    (∀ l, (c.ord l).Perm l) ∧ Teams c (mkSched rm sf ms) work full

theorem answer_scheduled {b : Bundled} {env : AllocEnv} {s : St} {p : PInfo} {work : WorkD} {flag : Bool} {now : Int}
    {ord : List Nat → List Nat} (hman : env.manage = true)
    (hord : ∀ l, (ord l).Perm l) (hn : ∀ lp n, b = .aposmm lp n → s.pinfo.firstCall = false → s.pinfo.nextToGive ≠ none)
    (h : b.call (ctxOf env sp ord (b.marked now s)) s.pinfo (schedOf env s) = .ok ⟨work, p, flag⟩) : Scheduled sp s work := by
  intro rm hrm hW
  obtain ⟨full, ht⟩ := answer_teams (c := ctxOf env sp ord (b.marked now s)) hW hord hn h
  have hsched : schedOf env s = mkSched rm env.split2fit env.matchSlots := by simp only [schedOf, hrm]
  rw [hsched] at ht
  exact ⟨_, _, _, full, hman, hrm, rfl, rfl, hord, ht⟩

theorem answer_handOk {rm : RM} {s : St} {work : WorkD} (hrm : s.rm = some rm) (hw : LWF rm) (hvi : VI sp s) (hW : IdsOk s.W)
    (h : Scheduled sp s work) (t : Nat → Int) : HandOk rm s (work.map fun q => (q.1, q.2, t q.1)) := by
  obtain ⟨c, sf, ms, full, hman, hrm', hcW, hgom, hord, ht⟩ := h rm hrm hW
  obtain ⟨s', hst⟩ := ht.steps
  obtain ⟨l, hperm, hsub⟩ := ht.sub
  have hnew := (steps_new hrm' hw hord hst (mkSched_inv rm sf ms)).2
  have hteam := steps_team hman hrm' hst
  have hmem : ∀ e ∈ work, e.1 ∈ ids s := by
    intro e he
    obtain ⟨k, hk, hid⟩ := ht.mem e.1 (List.mem_map.mpr ⟨e, he, rfl⟩)
    rw [hcW] at hk
    exact List.mem_map.mpr ⟨k, hk, hid⟩
  refine ⟨?_, ?_, ?_, ?_⟩
  · rw [List.map_map]; exact ht.nodup
  · intro x hx
    obtain ⟨e, he, rfl⟩ := List.mem_map.mp hx
    exact hmem e he
  · intro x hx
    obtain ⟨e, he, rfl⟩ := List.mem_map.mp hx
    obtain ⟨T, hT, h1⟩ := hteam e (hsub.subset (hperm.mem_iff.mp he))
    refine ⟨T, hT, h1.imp id (fun ⟨k, hk, hp⟩ => ?_)⟩
    obtain ⟨k', hk', hid⟩ := (mem_ids hvi.tab).mp (hmem e he)
    rw [hcW, hgom, ← hid, wPos_idAt hk'] at hk
    obtain rfl : k' = k := by simpa using hk
    have hx : s.W[k']? = some s.W[k'] := List.getElem?_eq_getElem hk'
    rw [hcW, hx] at hp
    have := (hvi.agree k' _ hx).persis
    rw [hid] at this
    rw [this]; exact hp
  · have h1 : (work.map fun q => (q.1, q.2, t q.1)).flatMap (fun x => tm x.2.1) = work.flatMap fun e => tm e.2 := by
      simp [List.flatMap_map]
    rw [h1]
    exact NewSets.sub hnew ⟨_, hperm.flatMap_right _, flatMap_sub hsub⟩

/-! ### Handing out an order -/

theorem view_order_other {w to key : Nat} (h : to ≠ w) (wk : Work) (tr : List Ev) : view w (.order to key wk :: tr) = view w tr := by
  simp [view, View.step, h]

theorem view_order_self (w key : Nat) (wk : Work) {tr : List Ev} (hf : hasFinal tr = false) :
    view w (.order w key wk :: tr) = { view w tr with
      busy := true, recv := (view w tr).recv || (wk.persistent && wk.activeRecv.getD false),
      persis := if wk.persistent then wk.tag else (view w tr).persis } := by
  simp [view, View.step, hf]

/-- An order with new sets for a worker that holds nothing (or no sets for a persistent function). -/
theorem settled_order {rm0 : RM} {tr : List Ev} {w key : Nat} {T : List Nat} {wk : Work} (hs : Settled rm0 tr) (hT : wk.team = some T)
    (hfree : ∀ i ∈ T, (rmAt rm0 tr).assigned[i]? = some none) (hne : T = [] ∨ (view w tr).persis = 0)
    (hidle : (view w tr).persis = 0 → holds w tr = []) : Settled rm0 (.order w key wk :: .assign w T :: tr) := by
  intro i w'
  have h1 : (rmAt rm0 (.order w key wk :: .assign w T :: tr)).assigned[i]? =
      if i ∈ T then some (some w) else (rmAt rm0 tr).assigned[i]? := Settled.assign w hfree i
  have hv : ∀ w', view w' (.assign w T :: tr) = view w' tr := fun w' => view_neutral w' [.assign w T] tr (by simp [neutral])
  have h2 : holds w' (.order w key wk :: .assign w T :: tr) = if w = w' ∧ (view w' tr).persis = 0 then T else holds w' tr := by
    simp only [holds, hv, hT, Option.getD_some]
  rw [h1]
  by_cases hw : w = w'
  · subst hw
    by_cases hp : (view w tr).persis = 0
    · rw [h2, show (if w = w ∧ (view w tr).persis = 0 then T else holds w tr) = T from if_pos ⟨rfl, hp⟩]
      by_cases hi : i ∈ T
      · simp [hi]
      · rw [if_neg hi, hs i w, hidle hp]
        simp [hi]
    · have hT0 : T = [] := hne.resolve_right hp
      subst hT0
      rw [h2, show (if w = w ∧ (view w tr).persis = 0 then [] else holds w tr) = holds w tr from if_neg (fun h => hp h.2)]
      simp only [List.not_mem_nil, if_false]
      exact hs i w
  · rw [h2, show (if w = w' ∧ (view w' tr).persis = 0 then T else holds w' tr) = holds w' tr from if_neg (fun h => hw h.1)]
    by_cases hi : i ∈ T
    · rw [if_pos hi]
      constructor
      · intro h; simp only [Option.some.injEq] at h; exact absurd h hw
      · intro h; exact absurd h (hs.nobody (hfree i hi) w')
    · rw [if_neg hi]; exact hs i w'

/-- What is to be shown about events: new sets are held by nobody; in the main loop the table agrees with the
holders whenever a message is taken, the loop condition is evaluated or an order has been sent. -/
def HeldAt (rm0 : RM) (pre : List Ev) : Ev → Prop
  | .assign _ T => T.Nodup ∧ ∀ i ∈ T, i < rm0.rsets.length ∧ ∀ w, i ∉ holds w pre
  | .order to key wk => hasFinal pre = false ∧ to = key ∧ wk.team ≠ none ∧ Settled rm0 (.order to key wk :: pre)
  | .recv _ _ | .test _ => hasFinal pre = false → Settled rm0 pre
  | _ => True

/-- Places of runs that have not failed. -/
def Ph.fine : Ph → Bool
  | .loop | .kill | .recv | .alloc | .hand _ => true
  | .over e | .fin e _ | .drain e | .done e => match e with | .stopped _ | .flagged => true | _ => false
  | .aborted _ => false

/-- The invariant. -/
structure Held (rm0 : RM) (p : Ph) (s : St) : Prop where
  settled : p.fine = true → Settled rm0 s.tr
  idle : p.going = true → IdleOk s.tr
  hand : ∀ rest, p = .hand rest → HandOk (rmAt rm0 s.tr) s rest
  events : Always (HeldAt rm0) s.tr

theorem Ph.fine_clean {p : Ph} (h : p.fine = true) : p.clean = true := by
  cases p with
  | over e => cases e <;> simp_all [Ph.fine, Ph.clean, MainEnd.clean]
  | fin e ws => cases e <;> simp_all [Ph.fine, Ph.clean, MainEnd.clean]
  | drain e => cases e <;> simp_all [Ph.fine, Ph.clean, MainEnd.clean]
  | done e => cases e <;> simp_all [Ph.fine, Ph.clean, MainEnd.clean]
  | aborted e => simp [Ph.fine] at h
  | _ => rfl

/-- Steps that record only events without any effect on holders and table. -/
theorem Held.quiet {rm0 : RM} {p p' : Ph} {s s' : St} (h : Held rm0 p s) {l : List Ev} (hl : s'.tr = l ++ s.tr)
    (hst : ∀ e ∈ l, still e = true) (hne : p'.going = true → ∀ e ∈ l, neutral e = true)
    (hev : ∀ e ∈ l, ∀ pre, HeldAt rm0 pre e) (hf : p'.fine = true → p.fine = true) (hg : p'.going = true → p.going = true)
    (hh : ∀ rest, p' ≠ .hand rest) : Held rm0 p' s' where
  settled hp := by rw [hl]; exact (h.settled (hf hp)).still hst
  idle hp := by rw [hl]; exact (h.idle (hg hp)).still (fun e he => ⟨hst e he, hne hp e he⟩)
  hand rest hp := absurd hp (hh rest)
  events := by rw [hl]; exact h.events.append hev

/-- One order handed out. -/
theorem Held.give {rm0 : RM} {s : St} {w : Nat} {wk : Work} {t : Int} {rest : List (Nat × Work × Int)}
    (h : Held rm0 (.hand ((w, wk, t) :: rest)) s) (hvi : VI sp s) (hfin : hasFinal s.tr = false)
    (hat : s.rm = some (rmAt rm0 s.tr)) :
    Always (HeldAt rm0) (handOut sp s wk w t).1.tr ∧
    ((handOut sp s wk w t).2 = none → Held rm0 (.hand rest) (handOut sp s wk w t).1) := by
  have hH := h.hand _ rfl
  have hS := h.settled rfl
  have hI := h.idle rfl
  obtain ⟨T, hT, hne⟩ := hH.team _ List.mem_cons_self
  simp only at hT hne
  have hwm := hH.mem _ List.mem_cons_self
  simp only at hwm
  have hnew := hH.new
  rw [List.flatMap_cons] at hnew
  have htm : tm wk = T := by simp [tm, hT]
  simp only [htm] at hnew
  obtain ⟨hnd1, hnd2, hdis⟩ := List.nodup_append.mp hnew.nodup
  have hfree : ∀ i ∈ T, (rmAt rm0 s.tr).assigned[i]? = some none := fun i hi => hnew.free i (List.mem_append_left _ hi)
  have hassign : HeldAt rm0 s.tr (.assign w T) := by
    refine ⟨hnd1, fun i hi => ⟨?_, hS.nobody (hfree i hi)⟩⟩
    rw [← (rmAt_layout rm0 s.tr).rsets]
    exact hnew.ex i (List.mem_append_left _ hi)
  obtain ⟨k0, hk0, hid⟩ := (mem_ids hvi.tab).mp hwm
  have hpos : wPos sp.gom s.W.length w = some k0 := by rw [← hid]; exact wPos_idAt hk0
  have hrm : s.rm ≠ none := by rw [hat]; simp
  -- order and table when the order has been checked
  have core : checkOrder sp s wk w false = none → ∀ {k : Nat} {wk' : Work} {l0 : List Ev}, wPos sp.gom s.W.length w = some k →
      (l0 = [] ∨ ∃ team, l0 = [.assign w team] ∧ wk'.team = some team) →
      ((∀ T, wk.team = some T → wk'.team = some T) ∧ (s.rm ≠ none → l0 ≠ [])) →
      idAt sp k = w ∧ l0 = [.assign w T] ∧ wk'.team = some T ∧ Settled rm0 (.order w w wk' :: (l0 ++ s.tr)) := by
    intro hc k wk' l0 hp hb ht
    obtain rfl : k0 = k := by rw [hpos] at hp; simpa using hp
    have hT' := ht.1 T hT
    have hl0 : l0 = [.assign w T] := by
      rcases hb with h | ⟨team, h, h'⟩
      · exact absurd h (ht.2 hrm)
      · rw [hT'] at h'; simp only [Option.some.injEq] at h'; subst h'; exact h
    refine ⟨hid, hl0, hT', ?_⟩
    rw [hl0]
    refine settled_order hS hT' hfree hne (fun hp0 => ?_)
    obtain ⟨k', x, hk', hx, hcase, _⟩ := checkOrder_none hc
    obtain rfl : k0 = k' := by rw [hpos] at hk'; simpa using hk'
    have hA := hvi.agree k0 x hx
    rw [hid] at hA
    rcases hcase with ⟨h1, _⟩ | ⟨_, h1⟩
    · exact absurd hp0 ((hI w).2 (by rw [hA.recv]; exact h1))
    · refine (hI w).1 ?_ hp0
      rw [hA.busy]
      simp at h1
      simp [h1]
  have hordEv : checkOrder sp s wk w false = none → ∀ {k : Nat} {wk' : Work} {l0 : List Ev}, wPos sp.gom s.W.length w = some k →
      (l0 = [] ∨ ∃ team, l0 = [.assign w team] ∧ wk'.team = some team) →
      ((∀ T, wk.team = some T → wk'.team = some T) ∧ (s.rm ≠ none → l0 ≠ [])) →
      Always (HeldAt rm0) (.order (idAt sp k) w wk' :: (l0 ++ s.tr)) := by
    intro hc k wk' l0 hp hb ht
    obtain ⟨e1, e2, e3, e4⟩ := core hc hp hb ht
    refine always_cons.mpr ⟨⟨by rw [e2]; simpa [hasFinal] using hfin, e1, by rw [e3]; simp, by rw [e1]; exact e4⟩, ?_⟩
    rw [e2]
    exact always_cons.mpr ⟨hassign, h.events⟩
  have hsent : ∀ {s1 : St} {k : Nat} {wk' : Work} {l0 l : List Ev}, checkOrder sp s wk w false = none →
      Sent sp s s1 w k wk wk' l0 l → Always (HeldAt rm0) s1.tr := by
    intro s1 k wk' l0 l hc hSe
    rw [hSe.tr]
    refine Always.append (hordEv hc hSe.pos hSe.before hSe.team) ?_
    rcases hSe.after with h | ⟨vals, h, _⟩ <;> rw [h] <;> simp [HeldAt]
  have hgave : ∀ {k : Nat} {wk' : Work} {l0 l : List Ev}, checkOrder sp s wk w false = none →
      Gave sp s (handOut sp s wk w t).1 w k t wk wk' l0 l → Always (HeldAt rm0) (handOut sp s wk w t).1.tr := by
    intro k wk' l0 l hc hG
    rw [hG.tr]
    refine Always.append (Always.append (hordEv hc hG.pos hG.before hG.team) ?_) ?_
    · rw [hG.after]; split <;> simp [HeldAt]
    · cases orderOp sp wk w t <;> simp [HeldAt]
  constructor
  · rcases handOut_cases (sp := sp) s wk w t with ⟨e, _, he⟩ | ⟨hc, hcase⟩
    · rw [he]; exact h.events
    · rcases hcase with ⟨_, _, _, htr⟩ | ⟨k, wk', l0, l, _, hSe⟩ | ⟨k, wk', l0, l, hG, _⟩
      · rw [htr]; exact h.events
      · rcases hSe with ⟨hSe, _⟩ | ⟨⟨s1, hSe, h'⟩, _⟩
        · exact hsent hc hSe
        · rw [h']; exact hsent (s1 := s1) hc hSe
      · exact hgave hc hG
  · intro hok
    obtain ⟨hc, k, wk', l0, l, hG, hper⟩ := handOut_ok hok
    obtain ⟨e1, e2, e3, e4⟩ := core hc hG.pos hG.before hG.team
    obtain ⟨q, htr, hq⟩ : ∃ q, (handOut sp s wk w t).1.tr = q ++ (.order w w wk' :: (l0 ++ s.tr)) ∧
        ∀ e ∈ q, still e = true ∧ neutral e = true := by
      refine ⟨_ ++ l, by rw [hG.tr, e1, List.append_assoc], ?_⟩
      intro e he
      rcases List.mem_append.mp he with he | he
      · revert he
        cases orderOp sp wk w t with
        | none => simp
        | some o => intro he; simp at he; subst he; exact ⟨rfl, rfl⟩
      · rw [hG.after] at he
        split at he
        · simp at he
        · simp at he; subst he; exact ⟨rfl, rfl⟩
    have hfin' : hasFinal (l0 ++ s.tr) = false := by rw [e2]; simpa [hasFinal] using hfin
    have hv0 : ∀ w', view w' (l0 ++ s.tr) = view w' s.tr := fun w' => view_neutral w' _ _ (by rw [e2]; simp [neutral])
    have hvo : ∀ w', w' ≠ w → view w' (handOut sp s wk w t).1.tr = view w' s.tr := by
      intro w' hw'
      rw [htr, view_neutral w' q _ (fun e he => (hq e he).2), view_order_other (Ne.symm hw'), hv0]
    have hids : ids (handOut sp s wk w t).1 = ids s := (micros_handOut s wk w t).ids
    refine ⟨fun _ => ?_, fun _ => ?_, fun rest' hr => ?_, hgave hc hG⟩
    · rw [htr]; exact e4.still (fun e he => (hq e he).1)
    · rw [htr]
      refine IdleOk.still ?_ hq
      intro w'
      by_cases hw' : w' = w
      · subst hw'
        rw [view_order_self w' w' wk' hfin', hv0]
        refine ⟨fun hb => by simp at hb, fun hr => ?_⟩
        have h1 : wk'.persistent = wk.persistent := by rw [hG.order]
        have h2 : wk'.tag = wk.tag := by rw [hG.order]
        simp only [h1, h2] at hr ⊢
        cases hp : wk.persistent
        · simp only [hp, Bool.false_and, Bool.or_false] at hr
          simp only [Bool.false_eq_true, if_false]
          exact (hI w').2 hr
        · simp only [if_true]
          rcases hG.tag with h | h | h <;> rw [h] <;> decide
      · rw [view_order_other (Ne.symm hw'), hv0]
        have : holds w' (.order w w wk' :: (l0 ++ s.tr)) = holds w' s.tr := by
          rw [e2]
          simp only [List.singleton_append, holds]
          rw [if_neg (fun h => hw' h.1.symm)]
        rw [this]
        exact hI w'
    · simp only [Ph.hand.injEq] at hr
      subst hr
      have hnk := hH.nodup
      rw [List.map_cons, List.nodup_cons] at hnk
      have hnotin : ∀ x ∈ rest, x.1 ≠ w := fun x hx he => hnk.1 (List.mem_map.mpr ⟨x, hx, he⟩)
      refine ⟨hnk.2, fun x hx => ?_, fun x hx => ?_, ?_⟩
      · rw [hids]; exact hH.mem x (List.mem_cons_of_mem _ hx)
      · obtain ⟨T', hT', h'⟩ := hH.team x (List.mem_cons_of_mem _ hx)
        exact ⟨T', hT', h'.imp id (fun h' => by rw [hvo _ (hnotin x hx)]; exact h')⟩
      · have hrm' : rmAt rm0 (handOut sp s wk w t).1.tr = rmAt rm0 (.assign w T :: s.tr) := by
          rw [htr, rmAt_still rm0 q _ (fun e he => (hq e he).1), e2]; rfl
        refine ⟨hnd2, fun i hi => ?_, fun i hi => ?_, by simp⟩
        · rw [(rmAt_layout rm0 _).rsets, ← (rmAt_layout rm0 s.tr).rsets]
          exact hnew.ex i (List.mem_append_right _ hi)
        · rw [hrm', Settled.assign w hfree i, if_neg (fun hm => hdis i hm i hi rfl)]
          exact hnew.free i (List.mem_append_right _ hi)

end Verif.Manager
