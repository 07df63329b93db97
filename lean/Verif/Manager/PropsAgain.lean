import Verif.Manager.Again
import Verif.Manager.PropsOrders
/-
What allocation functions keep in `persis_info` from one run to the next (C79).  `libE` returns `persis_info` for use in a later call, and the
default argument of `libE` (libE.py:156) is one dictionary for all calls.
-/
namespace Verif.Manager
open Verif.History Verif.Res Verif.Sched Verif.Alloc

/-- The same settings of generators and the same number of started generators. -/
structure SameUse (p p' : PInfo) : Prop where
  started : p'.numGensStarted = p.numGensStarted
  res : p'.genResources = p.genResources
  gpus : p'.genUseGpus = p.genUseGpus
  procs : p'.genNumProcs = p.genNumProcs
  ngpus : p'.genNumGpus = p.genNumGpus

theorem SameUse.over {p p' : PInfo} (h : SameUse p p') : over p' p = p' := by
  cases p; cases p'
  obtain ⟨h1, h2, h3, h4, h5⟩ := h
  simp only at h1 h2 h3 h4 h5
  simp only [Manager.over, h1, h2, h3, h4, h5]

/-- `give_sim_work_first`, `only_persistent_gens`, `finite_diff_alloc` and the function for inverse Bayes: whatever else `persis_info` holds
(say, from an earlier run), a run is the same, event by event. -/
theorem C79_same (c : Start) (b : Bundled) (hb : b.forgetful = true) (env : AllocEnv) (its : List Iter) (hits : ∀ it ∈ its, it.uses b env c.sp)
    (t : Nat → Int) (rounds : List Round) (p' : PInfo) (h : SameUse c.pinfo p') :
    (({ c with pinfo := p' } : Start).run its t rounds).2 = (c.run its t rounds).2 ∧
    (({ c with pinfo := p' } : Start).run its t rounds).1.tr = (c.run its t rounds).1.tr ∧
    (({ c with pinfo := p' } : Start).run its t rounds).1.hist = (c.run its t rounds).1.hist := by
  have h1 := run_so p' hb its hits t rounds c.st
  have h2 : so p' c.st = ({ c with pinfo := p' } : Start).st := by
    show c.st.withP (Manager.over p' c.pinfo) = _
    rw [h.over]
    rfl
  rw [h2] at h1
  have h3 : ({ c with pinfo := p' } : Start).run its t rounds = Manager.run c.sp ({ c with pinfo := p' } : Start).st its t rounds := rfl
  rw [h3, h1]
  exact ⟨rfl, rfl, rfl⟩

/-- With these functions the `persis_info` that a run returned can be used for another run, which is the same as one with the `persis_info`
that the first run began with. -/
theorem C79_second (c1 c2 : Start) (b : Bundled) (hb : b.forgetful = true) (env1 env2 : AllocEnv)
    (its1 : List Iter) (h1 : ∀ it ∈ its1, it.uses b env1 c1.sp) (t1 : Nat → Int) (rounds1 : List Round)
    (hdone : (∃ f, (c1.run its1 t1 rounds1).2 = .returned f) ∨ ∃ e, (c1.run its1 t1 rounds1).2 = .raised e)
    (h0 : c1.pinfo.numGensStarted = 0) (hp : c2.pinfo = c1.pinfo)
    (its2 : List Iter) (h2 : ∀ it ∈ its2, it.uses b env2 c2.sp) (t2 : Nat → Int) (rounds2 : List Round) :
    let p' := (c1.run its1 t1 rounds1).1.pinfo
    (({ c2 with pinfo := p' } : Start).run its2 t2 rounds2).2 = (c2.run its2 t2 rounds2).2 ∧
    (({ c2 with pinfo := p' } : Start).run its2 t2 rounds2).1.tr = (c2.run its2 t2 rounds2).1.tr ∧
    (({ c2 with pinfo := p' } : Start).run its2 t2 rounds2).1.hist = (c2.run its2 t2 rounds2).1.hist := by
  have hk := run_keeps hb its1 h1 t1 rounds1 c1.st
  have hr := run_reset its1 t1 rounds1 c1.st hdone
  refine C79_same c2 b hb env2 its2 h2 t2 rounds2 _ ?_
  rw [hp]
  have hk' : (c1.run its1 t1 rounds1).1.pinfo = { c1.pinfo with numGensStarted := 0 } := by
    have : SameBut c1.pinfo (c1.run its1 t1 rounds1).1.pinfo := hk
    unfold SameBut at this
    rw [this, show (c1.run its1 t1 rounds1).1.pinfo.numGensStarted = 0 from hr]
  rw [hk']
  exact ⟨h0.symm, rfl, rfl, rfl, rfl⟩

/-- After a run that has ended the number of started generators is 0, whatever the allocation function. -/
theorem C79_reset (c : Start) (its : List Iter) (t : Nat → Int) (rounds : List Round)
    (hdone : (∃ f, (c.run its t rounds).2 = .returned f) ∨ ∃ e, (c.run its t rounds).2 = .raised e) :
    (c.run its t rounds).1.pinfo.numGensStarted = 0 := run_reset its t rounds c.st hdone

/-! ### Functions with a pointer -/

theorem skipped {c : Start} {b : Bundled} (hb : b.byPriority = false) {env : AllocEnv} {L0 : List Nat} (h0 : b.behind c.pinfo L0)
    {p : Ph} {s : St} (h : Reach c.sp (b.P env c.sp) c.st p s) :
    (∀ i ∈ simGiven s.tr ++ handRows p, i ∉ L0) ∧ (p.going = true → b.behind s.pinfo (L0 ++ (simGiven s.tr ++ handRows p))) := by
  refine h.sends (I := fun p s => (∀ i ∈ simGiven s.tr ++ handRows p, i ∉ L0) ∧
    (p.going = true → b.behind s.pinfo (L0 ++ (simGiven s.tr ++ handRows p)))) ?_ ?_ ?_ ?_
  · refine ⟨by simp [start_tr, simGiven, handRows], fun _ => ?_⟩
    rw [start_tr]
    have h1 : b.behind c.st.pinfo L0 := h0
    simpa [simGiven, handRows] using h1
  · intro p p' s s' hr hr' ⟨h1, h2⟩ ⟨l, hl⟩ hg hgo hh
    refine ⟨fun i hi => ?_, fun h => ?_⟩
    · rw [hg, hh, List.append_nil] at hi
      exact h1 i (List.mem_append_left _ hi)
    · obtain ⟨h3, h4⟩ := hgo h
      rw [h4, hg, hh, List.append_nil]
      refine behind_mem (h2 h3) (fun i hi => ?_)
      rcases List.mem_append.mp hi with hi | hi
      · exact List.mem_append_left _ hi
      · exact List.mem_append_right _ (List.mem_append_left _ hi)
  · intro s cs work p t hr hP ⟨h1, h2⟩ hr'
    obtain ⟨now, ord, hord, rfl, hcall⟩ := hP.ok
    have hW : IdsOk (ctxOf env c.sp ord (b.marked now s)).W := by have h9 := start_idsOk hr; exact h9
    have h3 := h2 rfl
    simp only [handRows, List.append_nil] at h3
    obtain ⟨g1, g2, g3⟩ := ord_answer hb hW h3 hcall
    refine ⟨fun i hi => ?_, fun _ => ?_⟩
    · simp only [handRows_map] at hi
      rcases List.mem_append.mp hi with hi | hi
      · exact h1 i (List.mem_append_left _ hi)
      · exact fun hc => (g2 i hi).1 (List.mem_append_left _ hc)
    · simp only [handRows_map]
      rw [← List.append_assoc]
      exact g3
  · intro s w wk t rest p' hr hcase hr' ⟨h1, h2⟩
    have hsub : ∀ i, i ∈ simGiven (handOut c.sp s wk w t).1.tr ++ handRows p' → i ∈ simGiven s.tr ++ handRows (.hand ((w, wk, t) :: rest)) := by
      intro i hi
      rw [handRows_cons]
      have hp' : ∀ j ∈ handRows p', j ∈ handRows (.hand rest) := by
        rcases hcase with ⟨rfl, _⟩ | ⟨_, hh⟩
        · exact fun j hj => hj
        · intro j hj; rw [hh] at hj; simp at hj
      rcases simGiven_handOut (sp := c.sp) s wk w t with h3 | h3 <;> rw [h3] at hi <;> simp only [List.mem_append] at hi ⊢
      · rcases hi with hi | hi
        · exact .inl hi
        · exact .inr (.inr (hp' i hi))
      · rcases hi with (hi | hi) | hi
        · exact .inr (.inl hi)
        · exact .inl hi
        · exact .inr (.inr (hp' i hi))
    refine ⟨fun i hi => h1 i (hsub i hi), fun hgo => ?_⟩
    rcases hcase with ⟨rfl, hok⟩ | ⟨hn, _⟩
    · rw [(kept_handOut s wk w t).2.2]
      refine behind_mem (h2 rfl) (fun i hi => ?_)
      rcases List.mem_append.mp hi with hi | hi
      · exact List.mem_append_left _ hi
      · exact List.mem_append_right _ (hsub i hi)
    · rw [hn] at hgo; simp at hgo

/-- `fast_alloc`, `only_one_gen`, `give_pregenerated_work`, and `persistent_aposmm_alloc` after its first call: rows below the pointer
`next_to_give` that the run begins with are never given out for evaluation. -/
theorem C79_skipped (c : Start) (b : Bundled) (hb : b.byPriority = false) (env : AllocEnv) (n : Nat) (hn : c.pinfo.nextToGive = some n)
    (hf : ∀ lp m, b = .aposmm lp m → c.pinfo.firstCall = false) (its : List Iter) (hits : ∀ it ∈ its, it.uses b env c.sp)
    (t : Nat → Int) (rounds : List Round) : ∀ i ∈ simGiven (c.run its t rounds).1.tr, n ≤ i := by
  obtain ⟨p, _, hr⟩ := c.reachB its t rounds hits
  have hbeh : b.behind c.pinfo (List.range n) := by
    cases b with
    | aposmm lp m =>
      have h1 := hf lp m rfl
      exact ⟨fun h => (by rw [h1] at h; cases h), fun _ => ⟨by rw [hn]; simp, fun i hi => by rw [hn]; simpa using hi⟩⟩
    | _ => intro i hi; rw [hn]; simpa using hi
  intro i hi
  have h1 := (skipped hb hbeh hr).1 i (List.mem_append_left _ hi)
  simpa using h1

theorem receive_nil {sp : Specs} (s : St) : receive sp s [] = (saveK sp s false, none) := rfl

/-- Nothing is evaluated: in the first pass of the main loop, `give_pregenerated_work` with a pointer at or behind the end of the history, or
`persistent_aposmm_alloc` with the mark of its first call, asks for the shutdown. -/
theorem C79_stops (c : Start) (b : Bundled) (env : AllocEnv) (hn : 0 < c.n) (hk : c.sp.kill = false)
    (hb : (b = .pregen ∧ ∃ n, c.pinfo.nextToGive = some n ∧ (trimH c.hist).length ≤ n) ∨
      (∃ lp m, b = .aposmm lp m) ∧ c.pinfo.firstCall = false)
    (it : Iter) (its : List Iter) (hu : it.uses b env c.sp) (hm : it.mail = []) :
    simGiven (c.loop (it :: its)).1.tr = [] ∧ ((∃ r, (c.loop (it :: its)).2 = .stopped r) ∨ (c.loop (it :: its)).2 = .flagged) := by
  obtain ⟨now, ord, _, ha⟩ := hu
  simp only [Start.loop, mainLoop]
  split
  · exact ⟨rfl, .inl ⟨_, rfl⟩⟩
  · rename_i hterm
    have hg : simMaxGiven c.sp c.st.hist = false := by
      cases h : simMaxGiven c.sp c.st.hist with
      | false => rfl
      | true =>
        exfalso
        apply hterm
        simp only [termTest]
        have : simTest c.sp c.st.hist = true := by
          revert h
          simp only [simMaxGiven, simTest]
          have a1 : c.st.hist.simStartedCount = c.st.hist.simStartedOffset := rfl
          have a2 : c.st.hist.simEndedCount = c.st.hist.simEndedOffset := rfl
          rw [a1, a2]
          split
          · simp only [decide_eq_true_eq]; omega
          · simp
        rw [this]
        split <;> simp
    have hkc : ∀ s, killCancelled c.sp s = (s, none) := by
      intro s; simp only [killCancelled, hk]; rfl
    simp only [iter, hkc, andThen, hm, receive_nil]
    generalize hs1 : saveK c.sp (emit c.st (.test (termTest c.sp c.st.hist it.e1))) false = s1
    have e1 : s1.hist = c.hist ∧ s1.W = initW c.sp.gom c.n c.zero c.gens ∧ s1.pinfo = c.pinfo ∧ simGiven s1.tr = [] := by
      rw [← hs1]
      simp only [saveK]
      (repeat' split) <;> exact ⟨rfl, rfl, rfl, rfl⟩
    obtain ⟨e2, e3, e4, e5⟩ := e1
    rw [ha]
    have hidle : (initW c.sp.gom c.n c.zero c.gens).any (fun k => decide (k.active = 0)) = true := by
      rw [List.any_eq_true]
      refine ⟨{ id := 1, genWorker := decide (1 ∈ c.gens) || (c.sp.gom && decide (1 = 0)), zrw := decide (1 ∈ c.zero) }, ?_, by simp⟩
      simp only [initW, List.mem_map]
      refine ⟨1, ?_, rfl⟩
      split
      · simp; omega
      · simp [List.mem_range']; omega
    have hctx : ∀ s2 : St, s2.hist.simStartedCount = c.hist.simStartedCount → s2.hist.simStartedOffset = c.hist.simStartedOffset →
        s2.W = s1.W → (ctxOf env c.sp ord s2).simMaxGiven = false ∧ (ctxOf env c.sp ord s2).anyIdle = true := by
      intro s2 g1 g2 g3
      refine ⟨?_, ?_⟩
      · have : simMaxGiven c.sp s2.hist = simMaxGiven c.sp c.st.hist := by
          simp only [simMaxGiven, g1, g2]; rfl
        exact this.trans hg
      · show s2.W.any _ = true
        rw [g3, e3]
        exact hidle
    rcases hb with ⟨rfl, n, h1, h2⟩ | ⟨⟨lp, m, rfl⟩, h1⟩
    · obtain ⟨g1, g2⟩ := hctx (Bundled.pregen.marked now s1) (by rw [← e2]; rfl) (by rw [← e2]; rfl) rfl
      have h3 : (ctxOf env c.sp ord (Bundled.pregen.marked now s1)).H.length ≤ n := by
        have : (ctxOf env c.sp ord (Bundled.pregen.marked now s1)).H.length = (trimH c.hist).length := by
          rw [← e2]
          simp [ctxOf, Bundled.marked, Bundled.cancels, doOp, History.apply, trimH, updAll]
        omega
      have h4 : Bundled.pregen.call (ctxOf env c.sp ord (Bundled.pregen.marked now s1)) s1.pinfo (schedOf env s1) =
          .ok ⟨[], { s1.pinfo with nextToGive := some n }, true⟩ := by
        simp only [Bundled.call, pregenAlloc, g1, g2, e4, h1]
        simp [h3]
      simp only [Bundled.reply, h4]
      exact ⟨e5, .inr rfl⟩
    · obtain ⟨g1, g2⟩ := hctx ((Bundled.aposmm lp m).marked now s1) (by rw [← e2]; rfl) (by rw [← e2]; rfl) rfl
      have h3 : countPersisGens (ctxOf env c.sp ord ((Bundled.aposmm lp m).marked now s1)).W = 0 := by
        show countPersisGens s1.W = 0
        rw [e3]
        simp [countPersisGens, initW, EVAL_GEN]
      have h4 : (Bundled.aposmm lp m).call (ctxOf env c.sp ord ((Bundled.aposmm lp m).marked now s1)) s1.pinfo (schedOf env s1) =
          .ok ⟨[], s1.pinfo, true⟩ := by
        simp only [Bundled.call, aposmmAlloc, g1, g2, e4, h1, h3]
        simp
      simp only [Bundled.reply, h4]
      exact ⟨e5, .inr rfl⟩

/-! ### Concrete runs -/

/-- Two rows to evaluate, two workers. -/
def twiceH0 : Rec := ⟨[(.simId, .scalar), (.user 1, .vec 2)], [mkRow [(.simId, .s 0), (.user 1, .v [7, 8])], mkRow [(.simId, .s 1), (.user 1, .v [9, 9])]]⟩
def twiceDemo : Start := { sp := {}, cols := demoCols, L := 4, H0 := twiceH0, n := 2 }
def twiceIts : List Iter :=
  [bpass .pregen demoEnv twiceDemo.sp [], bpass .pregen demoEnv twiceDemo.sp [value 1 [0] [5], value 2 [1] [6]]]

/-- Witness: the first run evaluates both rows and returns; the same call with the `persis_info` that it returned evaluates nothing and returns
as if all had been done. -/
theorem C79_pregen_witness : (∀ it ∈ twiceIts, it.uses .pregen demoEnv twiceDemo.sp) ∧
    (twiceDemo.run twiceIts (fun _ => 0) []).2 = .returned 0 ∧ simGiven (twiceDemo.run twiceIts (fun _ => 0) []).1.tr = [1, 0] ∧
    (({ twiceDemo with pinfo := (twiceDemo.run twiceIts (fun _ => 0) []).1.pinfo } : Start).run twiceIts (fun _ => 0) []).2 = .returned 0 ∧
    simGiven (({ twiceDemo with pinfo := (twiceDemo.run twiceIts (fun _ => 0) []).1.pinfo } : Start).run twiceIts (fun _ => 0) []).1.tr = [] := by
  refine ⟨?_, by decide +kernel⟩
  intro it hit
  simp only [twiceIts, List.mem_cons, List.not_mem_nil, or_false] at hit
  rcases hit with rfl | rfl <;> exact bpass_uses _ _ _ _ _

/-- A run of `fast_alloc` that ends after three evaluations. -/
def fastDemo : Start := { bdemo with sp := { simMax := some 3 } }
def fastIts (b : Bundled) : List Iter :=
  [bpass b demoEnv fastDemo.sp [], bpass b demoEnv fastDemo.sp [points 1 [10, 20, 30]], bpass b demoEnv fastDemo.sp [value 3 [1] [5]],
   bpass b demoEnv fastDemo.sp [value 2 [0] [6]], bpass b demoEnv fastDemo.sp [value 3 [2] [7]], bpass b demoEnv fastDemo.sp []]

/-- Witness: with `fast_alloc` and the `persis_info` of an earlier run none of the three new rows is given out, and the generator is called again;
with `give_sim_work_first` the second run is the same as the first. -/
theorem C79_fast_witness :
    simGiven (fastDemo.run (fastIts (.fast {})) (fun _ => 0) []).1.tr = [2, 1, 0] ∧
    (fastDemo.run (fastIts (.fast {})) (fun _ => 0) []).2 = .returned 0 ∧
    simGiven (({ fastDemo with pinfo := (fastDemo.run (fastIts (.fast {})) (fun _ => 0) []).1.pinfo } : Start).run
      ((fastIts (.fast {})).take 2) (fun _ => 0) []).1.tr = [] ∧
    simGiven (({ fastDemo with pinfo := (fastDemo.run (fastIts (.simFirst {})) (fun _ => 0) []).1.pinfo } : Start).run
      ((fastIts (.simFirst {})).take 2) (fun _ => 0) []).1.tr = [1, 0] := by decide +kernel

/-- The hypotheses of `C79_second` and `C79_stops` can be met. -/
example : (fastDemo.run (fastIts (.simFirst {})) (fun _ => 0) []).2 = .returned 0 ∧ fastDemo.pinfo.numGensStarted = 0 := by decide +kernel
example : simGiven ((({ bdemo with pinfo := { nextToGive := some 3, firstCall := false } } : Start).loop
    [bpass (.aposmm (.user 0) 2) demoEnv bdemo.sp []]).1.tr) = [] :=
  (C79_stops { bdemo with pinfo := { nextToGive := some 3, firstCall := false } } (.aposmm (.user 0) 2) demoEnv (by decide) rfl
    (.inr ⟨⟨_, _, rfl⟩, rfl⟩) _ [] (bpass_uses _ _ _ _ _) rfl).1

end Verif.Manager
