import Verif.Manager.Frame
import Verif.Alloc.Props
import Verif.Alloc.MoreLemmas
import Verif.History.Polite
/-
Runs with the bundled allocation functions: what such a function is called with and what its answer looks like.
-/
namespace Verif.Manager
open Verif.History Verif.Res Verif.Sched Verif.Alloc

/-- The bundled allocation functions with the options of `alloc_specs["user"]`. -/
inductive Bundled
  | simFirst (o : UserOpts)                            -- give_sim_work_first
  | fast (o : UserOpts)                                -- fast_alloc
  | oneGen                                             -- only_one_gen (inverse_bayes / start_fd_persistent excluded)
  | pregen                                             -- give_pregenerated_sim_work
  | persGens (o : UserOpts)                            -- only_persistent_gens
  | aposmm (localPt : Field) (initSample : Nat)        -- persistent_aposmm_alloc
  | fd (o : FdOpts)                                    -- finite_diff_alloc
  | invBayes (o : IbOpts) (like : Field)               -- only_persistent_gens of inverse_bayes_allocf.py
  | localOpt (o : LoOpts)                              -- start_persistent_local_opt_gens

def Bundled.call (b : Bundled) (c : Ctx) (p : PInfo) (s : Sched) : Except AErr Answer :=
  match b with
  | .simFirst o => giveSimWorkFirst c o p s
  | .fast o => fastAlloc c o p s
  | .oneGen => oneGenAlloc c p s
  | .pregen => pregenAlloc c p s
  | .persGens o => onlyPersistentGens c o p s
  | .aposmm lp n => aposmmAlloc c lp n p s
  | .fd o => fdAlloc c o p s
  | .invBayes o like => ibAlloc c o like p s
  | .localOpt o => loAlloc c o p s

/-- Rows whose cancellation the function requests (give_sim_work_first.py:44-51). -/
def Bundled.cancels (b : Bundled) (H : List Row) (now : Int) : List Nat :=
  match b with
  | .simFirst o => cancelRows H o now
  | _ => []

/-- Settings that the allocation function reads and that do not change during the run. -/
structure AllocEnv where
  manage : Bool := false
  ppr : Nat := 0
  gpr : Nat := 0
  genDefProcs : Nat := 0
  genDefGpus : Nat := 0
  ugCol : Option Field := none
  simIn : List Field
  genIn : List Field
  split2fit : Bool := true
  matchSlots : Bool := true

/-- What the allocation function is called with (manager.py:648-679): the worker table, `trim_H()`, the resource
table and the selected statistics.  `ord` is the iteration order of Python sets. -/
def ctxOf (env : AllocEnv) (sp : Specs) (ord : List Nat → List Nat) (s : St) : Ctx where
  W := s.W
  gom := sp.gom
  fields := s.hist.fields
  H := trimH s.hist
  manage := env.manage
  rm := s.rm
  ord := ord
  ppr := env.ppr
  gpr := env.gpr
  simMaxGiven := simMaxGiven sp s.hist
  anyIdle := s.W.any fun k => decide (k.active = 0)
  genDefProcs := env.genDefProcs
  genDefGpus := env.genDefGpus
  ugCol := env.ugCol
  simIn := env.simIn
  genIn := env.genIn
  persisIn := s.persisIn

/-- The scheduler that `AllocSupport.__init__` builds (alloc_support.py:56-60); without resources it is not used. -/
def schedOf (env : AllocEnv) (s : St) : Sched :=
  match s.rm with
  | some rm => mkSched rm env.split2fit env.matchSlots
  | none => ⟨0, 0, 0, none, env.split2fit, env.matchSlots⟩

/-- The state in which the allocation function looks for work: `cancels` are marked. -/
def Bundled.marked (b : Bundled) (now : Int) (s : St) : St := (doOp s (.requestCancel (b.cancels (trimH s.hist) now))).1

/-- What the bundled function does when it is called in state `s` (manager.py:667-697). -/
def Bundled.reply (b : Bundled) (env : AllocEnv) (sp : Specs) (now : Int) (ord : List Nat → List Nat) (s : St) : Reply :=
  match b.call (ctxOf env sp ord (b.marked now s)) s.pinfo (schedOf env s) with
  | .error _ => .raised (b.cancels (trimH s.hist) now)
  | .ok a => .ok (b.cancels (trimH s.hist) now) a.work a.flag a.pinfo

/-- In this pass of the loop the allocation function is the bundled function `b`. -/
def Iter.uses (it : Iter) (b : Bundled) (env : AllocEnv) (sp : Specs) : Prop :=
  ∃ now ord, (∀ l : List Nat, (ord l).Perm l) ∧ it.alloc = b.reply env sp now ord

/-- The reply is one of the bundled function. -/
def Bundled.P (b : Bundled) (env : AllocEnv) (sp : Specs) (s : St) (r : Reply) : Prop :=
  ∃ now ord, (∀ l : List Nat, (ord l).Perm l) ∧ r = b.reply env sp now ord s

theorem uses_P {b : Bundled} {env : AllocEnv} {sp : Specs} {it : Iter} (h : it.uses b env sp) (s : St) : b.P env sp s (it.alloc s) := by
  obtain ⟨now, ord, h1, h2⟩ := h
  exact ⟨now, ord, h1, by rw [h2]⟩

theorem Start.reachB {b : Bundled} {env : AllocEnv} (c : Start) (its : List Iter) (t : Nat → Int) (rounds : List Round)
    (h : ∀ it ∈ its, it.uses b env c.sp) :
    ∃ p, (c.run its t rounds).2.ph p ∧ Reach c.sp (b.P env c.sp) c.st p (c.run its t rounds).1 :=
  run_reach its t rounds (fun it hm s => uses_P (h it hm) s)

/-- An answer comes from a call. -/
theorem Bundled.P.ok {b : Bundled} {env : AllocEnv} {sp : Specs} {s : St} {cs : List Nat} {work : List (Nat × Work)} {flag : Bool}
    {p : PInfo} (h : b.P env sp s (.ok cs work flag p)) :
    ∃ now ord, (∀ l : List Nat, (ord l).Perm l) ∧ cs = b.cancels (trimH s.hist) now ∧
      b.call (ctxOf env sp ord (b.marked now s)) s.pinfo (schedOf env s) = .ok ⟨work, p, flag⟩ := by
  obtain ⟨now, ord, h1, h2⟩ := h
  refine ⟨now, ord, h1, ?_⟩
  simp only [Bundled.reply] at h2
  split at h2
  · cases h2
  · rename_i a ha
    injection h2 with e1 e2 e3 e4
    subst e1 e2 e3 e4
    exact ⟨rfl, ha⟩

/-! ### Rows in answers -/

/-- Rows of the simulation orders of an answer. -/
def workRows (work : List (Nat × Work)) : List Nat := work.flatMap fun e => if e.2.tag = EVAL_SIM then e.2.rows else []

theorem workRows_eq (work : WorkD) : workRows work = (simChunks work).flatten := by
  induction work with
  | nil => rfl
  | cons e work ih =>
    have h1 : workRows (e :: work) = (if e.2.tag = EVAL_SIM then e.2.rows else []) ++ workRows work := rfl
    rw [h1, ih]
    unfold simChunks
    by_cases h : e.2.tag = EVAL_SIM
    · simp [h]
    · simp [h]

theorem workRows_append (a b : List (Nat × Work)) : workRows (a ++ b) = workRows a ++ workRows b := List.flatMap_append

theorem workRows_perm {a b : List (Nat × Work)} (h : a.Perm b) : (workRows a).Perm (workRows b) := h.flatMap_right _

theorem workRows_gens {es : WorkD} (h : ∀ e ∈ es, e.2.tag = EVAL_GEN) : workRows es = [] := by
  rw [workRows_eq, simChunks_gens h]; rfl

theorem workRows_sub {a b : List (Nat × Work)} (h : a.Sublist b) : (workRows a).Sublist (workRows b) := by
  induction h with
  | slnil => exact .slnil
  | cons x _ ih => exact ih.trans (List.sublist_append_right _ _)
  | cons_cons x _ ih => exact (List.Sublist.refl _).append ih

/-- Does the function choose among all waiting rows? -/
def Bundled.byPriority : Bundled → Bool
  | .simFirst _ | .persGens _ | .fd _ | .invBayes _ _ | .localOpt _ => true
  | _ => false

/-- The functions that are built from `Verif.Alloc.MoreParts`. -/
def Bundled.more : Bundled → Bool
  | .fd _ | .invBayes _ _ | .localOpt _ => true
  | _ => false

theorem more_answer {b : Bundled} (hb : b.more = true) {c : Ctx} {p : PInfo} {s : Sched} {a : Answer} (h : b.call c p s = .ok a) :
    a.work = [] ∨ ∃ pick rets starts sims gens wr wg wsim pts', (∀ pts, (pick pts).Sublist pts) ∧
      MoreParts c pick p s a rets starts sims gens wr wg wsim pts' := by
  cases b with
  | fd o =>
    rcases fd_spec h with ⟨h1, _⟩ | ⟨h1, _⟩ | ⟨_, _, _, rets, sims, gens, wr, wg, wsim, pts', hp, _⟩
    · exact .inl (by rw [h1])
    · exact .inl (by rw [h1])
    · exact .inr ⟨_, _, _, _, _, _, _, _, _, oldest_sub, hp⟩
  | invBayes o like =>
    rcases ib_spec h with ⟨h1, _⟩ | ⟨_, _, rets, sims, gens, wr, wg, wsim, pts', hp, _⟩
    · exact .inl (by rw [h1])
    · exact .inr ⟨_, _, _, _, _, _, _, _, _, firstSub_sub _ _, hp⟩
  | localOpt o =>
    rcases lo_spec h with ⟨h1, _⟩ | ⟨_, _, rets, starts, sims, gens, wr, wg, wsim, pts', hp, _⟩
    · exact .inl (by rw [h1])
    · exact .inr ⟨_, _, _, _, _, _, _, _, _, localFirst_sub _ _, hp⟩
  | _ => simp [Bundled.more] at hb

theorem more_rows {b : Bundled} (hb : b.more = true) {c : Ctx} {p : PInfo} {s : Sched} {a : Answer} (h : b.call c p s = .ok a) :
    (workRows a.work).Nodup ∧ ∀ i ∈ workRows a.work, i ∈ waiting c.H := by
  rcases more_answer hb h with h1 | ⟨pick, rets, starts, sims, gens, wr, wg, wsim, pts', hpick, hp⟩
  · rw [h1]; exact ⟨by simp [workRows], by simp [workRows]⟩
  · obtain ⟨g1, g2, _⟩ := hp.picked.parts hpick (rowsWhere_nodup _ _)
    obtain ⟨l, hl, hsub⟩ := hp.sub
    have hperm := workRows_perm hl
    have hs := workRows_sub hsub
    rw [workRows_append, workRows_append, workRows_append, workRows_gens (fun e he => (hp.ret e he).1),
      workRows_gens (fun e he => (hp.start e he).1), workRows_gens (fun e he => (hp.gen e he).1), List.append_nil, List.nil_append,
      List.nil_append, workRows_eq sims, simChunks_sims hp.shape] at hs
    exact ⟨hperm.symm.nodup (hs.nodup g1), fun i hi => g2 i (hs.subset (hperm.mem_iff.mp hi))⟩

/-- A function that chooses among the waiting rows gives each at most once, and only waiting rows. -/
theorem prio_answer {b : Bundled} (hb : b.byPriority = true) {c : Ctx} (hW : IdsOk c.W) (hord : ∀ l, (c.ord l).Perm l)
    {p : PInfo} {s : Sched} {a : Answer} (h : b.call c p s = .ok a) :
    (workRows a.work).Nodup ∧ ∀ i ∈ workRows a.work, i ∈ waiting c.H := by
  have hnd : (waiting c.H).Nodup := rowsWhere_nodup _ _
  cases b with
  | simFirst o =>
    obtain ⟨_, _, _, h1 | ⟨_, ws, pts', _, hs⟩ | ⟨_, _, ws, _, _, hg, _⟩⟩ := gswf_spec hW h
    · rw [h1]; exact ⟨by simp [workRows], by simp [workRows]⟩
    · obtain ⟨g1, g2, _⟩ := hs.greedy.parts hnd
      rw [workRows_eq, simChunks_sims hs.shape]
      exact ⟨g1, g2⟩
    · rw [workRows_gens (fun e he => (hg e he).tag)]; exact ⟨by simp, by simp⟩
  | persGens o =>
    rcases opg_spec hW hord h with h1 | ⟨h1, _⟩ | ⟨rets, sims, gens, wr, wsim, wg, pts', hp⟩
    · rw [h1]; exact ⟨by simp [workRows], by simp [workRows]⟩
    · rw [h1]; exact ⟨by simp [workRows], by simp [workRows]⟩
    · obtain ⟨g1, g2, _⟩ := hp.sim.greedy.parts hnd
      have hperm := workRows_perm hp.perm
      rw [workRows_append, workRows_append, workRows_gens (fun e he => (hp.ret e he).1.tag),
        workRows_gens (fun e he => (hp.gen e he).tag), List.nil_append, List.append_nil] at hperm
      have hsub := workRows_sub (a := sims.filter (fun x => decide (x.1 ∉ keys gens))) (b := sims) List.filter_sublist
      have heq : workRows sims = (rowsOf sims).flatten := by rw [workRows_eq, simChunks_sims hp.sim.shape]
      rw [heq] at hsub
      exact ⟨hperm.symm.nodup (hsub.nodup g1), fun i hi => g2 i (hsub.subset (hperm.mem_iff.mp hi))⟩
  | fd o => exact more_rows rfl h
  | invBayes o like => exact more_rows rfl h
  | localOpt o => exact more_rows rfl h
  | _ => simp [Bundled.byPriority] at hb

/-- The rows given so far lie before the pointer `next_to_give`. -/
def Bundled.behind (b : Bundled) (p : PInfo) (l : List Nat) : Prop :=
  match b with
  | .aposmm _ _ => (p.firstCall = true → l = []) ∧ (p.firstCall = false → p.nextToGive ≠ none ∧ ∀ i ∈ l, i < p.nextToGive.getD 0)
  | _ => ∀ i ∈ l, i < p.nextToGive.getD 0

theorem behind_mem {b : Bundled} {p : PInfo} {l l' : List Nat} (h : b.behind p l) (hl : ∀ i ∈ l', i ∈ l) : b.behind p l' := by
  cases b with
  | aposmm _ _ =>
    refine ⟨fun hf => ?_, fun hf => ⟨(h.2 hf).1, fun i hi => (h.2 hf).2 i (hl i hi)⟩⟩
    have h1 := h.1 hf
    subst h1
    exact List.eq_nil_iff_forall_not_mem.mpr (fun i hi => by have := hl i hi; simp at this)
  | _ => exact fun i hi => h i (hl i hi)

/-- A function that works through the rows in order gives each at most once, and none that was given before. -/
theorem ord_answer {b : Bundled} (hb : b.byPriority = false) {c : Ctx} (hW : IdsOk c.W)
    {p : PInfo} {s : Sched} {a : Answer} {l : List Nat} (hl : b.behind p l) (h : b.call c p s = .ok a) :
    (workRows a.work).Nodup ∧ (∀ i ∈ workRows a.work, i ∉ l ∧ ¬ Cancelled c.H i) ∧ b.behind a.pinfo (l ++ workRows a.work) := by
  have key : ∀ k : Kind, ∀ o, callOrd k c o p s = .ok a → (∀ i ∈ l, i < p.nextToGive.getD 0) →
      (workRows a.work).Nodup ∧ (∀ i ∈ workRows a.work, i ∉ l ∧ ¬ Cancelled c.H i) ∧
        ∀ i ∈ l ++ workRows a.work, i < a.pinfo.nextToGive.getD 0 := by
    intro k o hk hl
    obtain ⟨h1, h2, _, h4, _⟩ := (callOrd_inorder hW hk).facts
    rw [← workRows_eq] at h2 h4
    refine ⟨h2.imp (fun h => Nat.ne_of_lt h), fun i hi => ⟨fun hm => ?_, (h4 i hi).2.2⟩, fun i hi => ?_⟩
    · have := hl i hm; have := (h4 i hi).1; omega
    · rcases List.mem_append.mp hi with hi | hi
      · have := hl i hi; omega
      · exact (h4 i hi).2.1
  cases b with
  | fast o => exact key .fast o h hl
  | oneGen => exact key .oneGen {} h hl
  | pregen => exact key .pregen {} h hl
  | aposmm lp n0 =>
    rcases apo_spec hW (fun hf => (hl.2 hf).1) h with ⟨h1, _⟩ | ⟨h1, _⟩ | ⟨p1, rets, sims, gens, wr, wsim, wg, n, n', hn, hf1, hsame, hfirst, hp⟩
    · rw [h1]; exact ⟨by simp [workRows], by simp [workRows], by simpa [workRows] using hl⟩
    · rw [h1]; exact ⟨by simp [workRows], by simp [workRows], by simpa [workRows] using hl⟩
    · obtain ⟨g1, g2, _, g4, _⟩ := hp.sim.inorder.facts
      have hperm := workRows_perm hp.perm
      rw [workRows_append, workRows_append, workRows_gens (fun e he => (hp.ret e he).1.tag),
        workRows_gens (fun e he => (hp.gen e he).tag), List.nil_append, List.append_nil] at hperm
      have hsub := workRows_sub (a := sims.filter (fun x => decide (x.1 ∉ keys gens))) (b := sims) List.filter_sublist
      have heq : workRows sims = (rowsOf sims).flatten := by rw [workRows_eq, simChunks_sims hp.sim.shape]
      rw [heq] at hsub
      have hmem : ∀ i ∈ workRows a.work, n ≤ i ∧ i < n' ∧ ¬ Cancelled c.H i := fun i hi => g4 i (hsub.subset (hperm.mem_iff.mp hi))
      have hlt : ∀ i ∈ l, i < n := by
        intro i hi
        cases hfc : p.firstCall with
        | true => rw [hl.1 hfc] at hi; simp at hi
        | false =>
          have h1 := (hl.2 hfc).2 i hi
          have h2 := hsame hfc
          subst h2
          rw [hn] at h1
          exact h1
      refine ⟨hperm.symm.nodup (hsub.nodup (g2.imp (fun h => Nat.ne_of_lt h))), fun i hi => ⟨fun hm => ?_, (hmem i hi).2.2⟩, ?_, ?_⟩
      · have := hlt i hm; have := (hmem i hi).1; omega
      · intro hf; rw [hp.first, hf1] at hf; simp at hf
      · intro _
        rw [hp.next]
        refine ⟨by simp, fun i hi => ?_⟩
        rcases List.mem_append.mp hi with hi | hi
        · have := hlt i hi; simp; omega
        · exact (hmem i hi).2.1
  | simFirst o => simp [Bundled.byPriority] at hb
  | persGens o => simp [Bundled.byPriority] at hb
  | fd o => simp [Bundled.byPriority] at hb
  | invBayes o like => simp [Bundled.byPriority] at hb
  | localOpt o => simp [Bundled.byPriority] at hb

end Verif.Manager
