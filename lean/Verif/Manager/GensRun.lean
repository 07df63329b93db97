import Verif.Manager.HandPass
import Verif.Manager.PropsEnd
/-
Runs with `only_persistent_gens`: which orders are sent to generators.
-/
namespace Verif.Manager
open Verif.History Verif.Res Verif.Sched Verif.Alloc

/-! ### Answers -/

structure OpgFacts (c : Ctx) (o : UserOpts) (p : PInfo) (a : Answer) : Prop where
  keys : (a.work.map (·.1)).Nodup
  orders : ∀ w wk, (w, wk) ∈ a.work → (wk.tag = EVAL_SIM ∧ ∃ k ∈ c.W, k.id = w ∧ k.persis ≠ EVAL_GEN ∧ (o.altType = false → k.persis = 0 ∧ wk.persistent = false)) ∨
    (wk.tag = EVAL_GEN ∧ wk.persistent = true ∧ (Returns c o w wk ∨ Starts c w wk))
  run : a.work ≠ [] → p.numGensStarted ≤ gensIn c.W
  count : a.pinfo.numGensStarted = p.numGensStarted + a.work.countP (isStart c.W)
  max : a.work.countP (isStart c.W) ≠ 0 → gensIn c.W + a.work.countP (isStart c.W) ≤ o.numActiveGens.getD 1
  sims : ∀ i ∈ workRows a.work, i ∈ waiting c.H

theorem opg_facts {c : Ctx} {o : UserOpts} {p : PInfo} {s : Sched} {a : Answer} (hW : IdsOk c.W) (hord : ∀ l, (c.ord l).Perm l)
    (h : onlyPersistentGens c o p s = .ok a) : OpgFacts c o p a := by
  obtain ⟨h1, ⟨g, g1, g2, g3⟩, _⟩ := C34_answer c hW hord o p s a h
  have g3' : g = a.work.countP (isStart c.W) := g3
  have hsims := (prio_answer (b := .persGens o) rfl hW hord h).2
  have hmax : a.work.countP (isStart c.W) ≠ 0 → gensIn c.W + a.work.countP (isStart c.W) ≤ o.numActiveGens.getD 1 := by
    rw [← g3']; exact g2
  have hcount : a.pinfo.numGensStarted = p.numGensStarted + a.work.countP (isStart c.W) := by rw [g1, ← g3']
  rcases opg_spec hW hord h with h2 | ⟨h2, _⟩ | ⟨rets, sims, gens, wr, wsim, wg, pts', hp⟩
  · refine ⟨by rw [h2]; simp, ?_, ?_, hcount, hmax, hsims⟩ <;> (rw [h2]; simp)
  · refine ⟨by rw [h2]; simp, ?_, ?_, hcount, hmax, hsims⟩ <;> (rw [h2]; simp)
  · refine ⟨hp.nodup, ?_, fun _ => hp.run, hcount, hmax, hsims⟩
    intro w wk hm
    rcases h1 w wk hm with h3 | ⟨h3, h4⟩
    · left
      refine ⟨h3, ?_⟩
      rw [hp.perm.mem_iff, List.mem_append, List.mem_append] at hm
      rcases hm with (hm | hm) | hm
      · have := (hp.ret _ hm).1.tag
        simp only at this; rw [h3] at this; exact absurd this (by decide)
      · obtain ⟨k, k1, k2, _, k4⟩ := (opgSimWorkers_facts hW hord hp.simw).2 w
          (hp.sim.keys.subset (List.mem_map.mpr ⟨_, (List.mem_filter.mp hm).1, rfl⟩))
        refine ⟨k, k1, k2, k4, fun ha => ⟨?_, ?_⟩⟩
        · have h5 := hp.simw
          simp only [opgSimWorkers, ha, Bool.false_eq_true, if_false] at h5
          obtain ⟨k', q1, q2, _, q4⟩ := availIds_idle h5 (hp.sim.keys.subset (List.mem_map.mpr ⟨_, (List.mem_filter.mp hm).1, rfl⟩))
          rw [same_wrk hW k1 q1 (k2.trans q2.symm)]; exact q4 0 rfl
        · have := (hp.sim.shape _ (List.mem_filter.mp hm).1).pers
          rw [ha] at this; exact this
      · have := (hp.gen _ hm).tag
        simp only at this; rw [h3] at this; exact absurd this (by decide)
    · right
      refine ⟨h3, ?_, h4⟩
      rw [hp.perm.mem_iff, List.mem_append, List.mem_append] at hm
      rcases hm with (hm | hm) | hm
      · exact (hp.ret _ hm).1.pers
      · have := (hp.sim.shape _ (List.mem_filter.mp hm).1).tag
        simp only at this; rw [h3] at this; exact absurd this (by decide)
      · exact (hp.gen _ hm).pers

/-! ### The pass of the loop that hands out an answer -/

variable {c : Start} {o : UserOpts} {env : AllocEnv}

/-- The orders `rest` are what is left of an answer of `only_persistent_gens`. -/
structure Pass (c : Start) (env : AllocEnv) (o : UserOpts) (s : St) (rest : List (Nat × Work × Int)) (sA : St) (ord : List Nat → List Nat)
    (p0 : PInfo) (a : Answer) (done : List (Nat × Work)) : Prop where
  vi : VI c.sp sA
  ids : ids s = ids sA
  facts : OpgFacts (ctxOf env c.sp ord sA) o p0 a
  work : a.work = done ++ pairs rest
  handed : Handed c.sp sA s done
  starts : genStarts sA.tr ≤ p0.numGensStarted
  pinfo : s.pinfo = a.pinfo

structure GensInv (c : Start) (env : AllocEnv) (o : UserOpts) (p : Ph) (s : St) : Prop where
  starts : p.going = true → genStarts s.tr ≤ s.pinfo.numGensStarted
  pass : ∀ rest, p = .hand rest → ∃ sA ord p0 a done, Pass c env o s rest sA ord p0 a done

theorem Pass.le {s : St} {rest : List (Nat × Work × Int)} {sA : St} {ord : List Nat → List Nat} {p0 : PInfo} {a : Answer}
    {done : List (Nat × Work)} (h : Pass c env o s rest sA ord p0 a done) : genStarts s.tr ≤ s.pinfo.numGensStarted := by
  have h1 : a.work.countP (isStart sA.W) = done.countP (isStart sA.W) + (pairs rest).countP (isStart sA.W) := by
    rw [h.work, List.countP_append]
  have h2 : a.pinfo.numGensStarted = p0.numGensStarted + a.work.countP (isStart sA.W) := h.facts.count
  have h3 := h.handed.starts
  have h4 := h.starts
  rw [h.pinfo]
  omega

theorem gensInv {p : Ph} {s : St} (h : Reach c.sp ((Bundled.persGens o).P env c.sp) c.st p s) : GensInv c env o p s := by
  have hk : ∀ s b, (saveK c.sp s b).pinfo = s.pinfo := by
    intro s b; simp only [saveK]; split <;> split <;> rfl
  have none : ∀ {p : Ph} {s : St}, p.going = false → GensInv c env o p s := by
    intro p s hp
    refine ⟨fun h => by rw [hp] at h; simp at h, fun rest h => by subst h; simp [Ph.going] at hp⟩
  have quiet : ∀ {p p' : Ph} {s s' : St}, GensInv c env o p s → p.going = true → genStarts s'.tr = genStarts s.tr →
      s'.pinfo = s.pinfo → (∀ rest, p' ≠ .hand rest) → GensInv c env o p' s' := by
    intro p p' s s' h1 h2 h3 h4 h5
    exact ⟨fun _ => by rw [h3, h4]; exact h1.starts h2, fun rest h => absurd h (h5 rest)⟩
  induction h with
  | init => exact ⟨fun _ => by rw [start_tr]; exact Nat.zero_le _, fun rest h => by simp at h⟩
  | test e hr h1 ih => exact quiet ih rfl (genStarts_skip (l := [_]) _ (by simp [Ev.isOrder])) rfl (by simp)
  | stop e hr h1 ih => exact none rfl
  | kill hr h1 ih =>
    exact quiet ih rfl ((micros_killCancelled _).genStarts (fun e h => by cases h <;> rfl)) (kept_killCancelled _).2.2 (by simp)
  | killErr hr h1 ih => exact none rfl
  | mail w m t hr hw h1 ih =>
    exact quiet ih rfl ((micros_handleMsg _ w m t).genStarts (fun e h => by cases h <;> rfl)) (kept_handleMsg _ w m t).2.2 (by simp)
  | mailErr w m t hr hw h1 ih => exact none rfl
  | save hr ih =>
    exact quiet ih rfl ((micros_saveK (Q := fun _ => False) _ _).genStarts (fun e h => h.elim)) (hk _ _) (by simp)
  | allocErr cs hr h1 ih => exact none rfl
  | allocFlag cs work p hr h1 ih => exact none rfl
  | @allocOk s cs work p t hr h1 ih =>
    obtain ⟨now, ord, hord, rfl, hcall⟩ := h1.ok
    have hv : VI c.sp s := (hr.vi start_vi (by rw [start_tr]; rfl) start_pending rfl).1
    have hW : IdsOk (ctxOf env c.sp ord ((Bundled.persGens o).marked now s)).W := by have h9 := start_idsOk hr; exact h9
    have hf := opg_facts hW hord hcall
    have hP : Pass c env o { (doOp s (.requestCancel ((Bundled.persGens o).cancels (trimH s.hist) now))).1 with pinfo := p }
        (work.map fun q => (q.1, q.2, t q.1)) ((Bundled.persGens o).marked now s) ord s.pinfo ⟨work, p, false⟩ [] := by
      refine ⟨hv.op _, rfl, hf, by rw [pairs_map]; rfl, ?_, ?_, rfl⟩
      · have hd : Handed c.sp ((Bundled.persGens o).marked now s) ((Bundled.persGens o).marked now s) [] := Handed.refl _
        exact ⟨hd.cells, hd.index, hd.len, hd.started, hd.informed, hd.wlen, hd.W, hd.count, hd.starts⟩
      · exact Nat.le_trans (Nat.le_of_eq (genStarts_skip (l := [_]) _ (by simp [Ev.isOrder]))) (ih.starts rfl)
    refine ⟨fun _ => hP.le, ?_⟩
    rintro rest hrest
    injection hrest with hrest
    subst hrest
    exact ⟨_, _, _, _, _, hP⟩
  | @give s w wk t rest hr hm h1 ih =>
    obtain ⟨sA, ord, p0, a, done, hP⟩ := ih.pass _ rfl
    obtain ⟨_, k, wk', l0, l, hG, _⟩ := handOut_ok h1
    have hv : VI c.sp s := (hr.vi start_vi (by rw [start_tr]; rfl) start_pending rfl).1
    have hmem : (w, wk) ∈ a.work := by rw [hP.work]; exact List.mem_append_right _ List.mem_cons_self
    have hkeys := hP.facts.keys
    rw [hP.work, List.map_append, List.nodup_append] at hkeys
    have hnew : w ∉ done.map (·.1) := fun h => hkeys.2.2 w h w List.mem_cons_self rfl
    have hids : ids (handOut c.sp s wk w t).1 = ids s := (micros_handOut (sp := c.sp) s wk w t).ids
    have hw : w ∈ Manager.ids s := by
      rw [hP.ids]
      rcases hP.facts.orders w wk hmem with ⟨_, k, hk, rfl, _⟩ | ⟨_, _, h3 | h3⟩
      · exact List.mem_map_of_mem hk
      · obtain ⟨k, hk, rfl, _⟩ := h3.running
        exact List.mem_map_of_mem hk
      · obtain ⟨k, hk, rfl, _⟩ := h3.idle
        exact List.mem_map_of_mem hk
    have hH := hP.handed.give hG hv hP.vi hw hnew
      (by rcases hP.facts.orders w wk hmem with ⟨h3, _⟩ | ⟨h3, h4, _⟩
          · exact .inl h3
          · exact .inr ⟨h3, h4⟩)
      (by intro ht x hx hxw
          rcases hP.facts.orders w wk hmem with ⟨_, k', hk', hid', hp', _⟩ | ⟨h3, _⟩
          · have hI : IdsOk sA.W := by
              simp only [IdsOk]; exact ids_nodup hP.vi.tab
            have : x = k' := same_wrk hI hx hk' (hxw.trans hid'.symm)
            rw [this]; exact hp'
          · rw [ht] at h3; exact absurd h3 (by decide))
    have hP' : Pass c env o (handOut c.sp s wk w t).1 rest sA ord p0 a (done ++ [(w, wk)]) :=
      ⟨hP.vi, hids.trans hP.ids, hP.facts, by rw [hP.work, List.append_assoc]; rfl, hH, hP.starts,
        (kept_handOut s wk w t).2.2.trans hP.pinfo⟩
    refine ⟨fun _ => hP'.le, fun rest' hrest => ?_⟩
    injection hrest with hrest
    subst hrest
    exact ⟨_, _, _, _, _, hP'⟩
  | giveErr hr hm h1 ih => exact none rfl
  | again hr h1 h2 ih => exact quiet ih rfl rfl rfl (by simp)
  | noWork hr h1 ih => exact none rfl
  | final hr ih => exact none rfl
  | pstop t hr h1 ih => exact none rfl
  | pstopErr t hr h1 ih => exact none rfl
  | drain hr ih => exact none rfl
  | dmail w m t hr hw h1 ih => exact none rfl
  | dmailErr w m t hr hw h1 ih => exact none rfl
  | dsave hr ih => exact none rfl
  | done p hr ih => exact none rfl

/-! ### Answers are frugal -/

theorem opg_frugal {s : St} {cs : List Nat} {work : List (Nat × Work)} {p : PInfo}
    (hr : Reach c.sp ((Bundled.persGens o).P env c.sp) c.st .alloc s) (hP : (Bundled.persGens o).P env c.sp s (.ok cs work false p)) :
    Frugal { (doOp s (.requestCancel cs)).1 with pinfo := p } work := by
  obtain ⟨now, ord, hord, rfl, hcall⟩ := hP.ok
  have hW : IdsOk (ctxOf env c.sp ord ((Bundled.persGens o).marked now s)).W := by have h9 := start_idsOk hr; exact h9
  have hf := opg_facts hW hord hcall
  generalize hsA : ({ (doOp s (.requestCancel ((Bundled.persGens o).cancels (trimH s.hist) now))).1 with pinfo := p } : St) = sA
  have hWA : sA.W = (ctxOf env c.sp ord ((Bundled.persGens o).marked now s)).W := by rw [← hsA]; rfl
  have hHA : trimH sA.hist = (ctxOf env c.sp ord ((Bundled.persGens o).marked now s)).H := by rw [← hsA]; rfl
  generalize ctxOf env c.sp ord ((Bundled.persGens o).marked now s) = cx at hW hf hWA hHA
  have hret : ∀ w wk, (w, wk) ∈ work → ∀ i ∈ retRows sA.W (w, wk), Owed cx.H w i := by
    intro w wk hm i hi
    simp only [retRows] at hi
    split at hi
    · rename_i hb
      simp only [returning, Bool.and_eq_true, decide_eq_true_eq, List.any_eq_true] at hb
      obtain ⟨ht, x, hx, hxw, hxp⟩ := hb
      rcases hf.orders w wk hm with ⟨h3, _⟩ | ⟨_, _, h3 | h3⟩
      · rw [h3] at ht; exact absurd ht (by decide)
      · exact (h3.rows i).mp hi
      · obtain ⟨y, hy, hyw, _, hyp⟩ := h3.idle
        rw [hWA] at hx
        have := same_wrk hW hx hy (hxw.trans hyw.symm)
        rw [this, hyp] at hxp
        exact absurd hxp (by decide)
    · simp at hi
  have hsorted : ∀ e ∈ work, (retRows sA.W e).Nodup := by
    rintro ⟨w, wk⟩ hm
    simp only [retRows]
    split
    · rename_i hb
      simp only [returning, Bool.and_eq_true, decide_eq_true_eq, List.any_eq_true] at hb
      obtain ⟨ht, x, hx, hxw, hxp⟩ := hb
      rcases hf.orders w wk hm with ⟨h3, _⟩ | ⟨_, _, h3 | h3⟩
      · rw [h3] at ht; exact absurd ht (by decide)
      · exact h3.sorted.imp (fun h => Nat.ne_of_lt h)
      · obtain ⟨y, hy, hyw, _, hyp⟩ := h3.idle
        rw [hWA] at hx
        have := same_wrk hW hx hy (hxw.trans hyw.symm)
        rw [this, hyp] at hxp
        exact absurd hxp (by decide)
    · exact List.nodup_nil
  have hrow : ∀ {i : Nat} {r : Row}, cx.H[i]? = some r → sA.hist.rows[i]? = some r := by
    intro i r h
    rw [← hHA] at h
    simp only [trimH, List.getElem?_take] at h
    split at h
    · exact h
    · simp at h
  have hmem : ∀ i ∈ work.flatMap (retRows sA.W), ∃ w, Owed cx.H w i := by
    intro i hi
    obtain ⟨⟨w, wk⟩, he, hi⟩ := List.mem_flatMap.mp hi
    exact ⟨w, hret w wk he i hi⟩
  refine ⟨⟨hf.keys, ?_, ?_, ?_⟩, ?_, ?_⟩
  · rintro ⟨w, wk⟩ he
    rw [show Manager.ids sA = sA.W.map (·.id) from rfl, hWA]
    rcases hf.orders w wk he with ⟨_, k, hk, rfl, _⟩ | ⟨_, _, h3 | h3⟩
    · exact List.mem_map_of_mem hk
    · obtain ⟨k, hk, rfl, _⟩ := h3.running
      exact List.mem_map_of_mem hk
    · obtain ⟨k, hk, rfl, _⟩ := h3.idle
      exact List.mem_map_of_mem hk
  · rintro ⟨w, wk⟩ he
    rcases hf.orders w wk he with ⟨h3, _⟩ | ⟨h3, h4, _⟩
    · exact .inl h3
    · exact .inr ⟨h3, .inl h4⟩
  · intro i hi
    obtain ⟨w, r, h1, h2, _⟩ := hmem i hi
    exact ⟨r, hrow h1, h2⟩
  · have hk := hf.keys
    clear hmem
    revert hk hret hsorted
    clear hcall hf hP
    induction work with
    | nil => intro _ _ _; exact List.nodup_nil
    | cons e work ih =>
      intro hret hsorted hk
      obtain ⟨w, wk⟩ := e
      simp only [List.map_cons, List.nodup_cons] at hk
      simp only [List.flatMap_cons]
      refine List.nodup_append.mpr ⟨hsorted _ List.mem_cons_self,
        ih (fun w wk h => hret w wk (List.mem_cons_of_mem _ h)) (fun e h => hsorted e (List.mem_cons_of_mem _ h)) hk.2, ?_⟩
      rintro i hi j hj rfl
      obtain ⟨⟨w', wk'⟩, he, hj⟩ := List.mem_flatMap.mp hj
      obtain ⟨r, r1, _, _, r4⟩ := hret w wk List.mem_cons_self i hi
      obtain ⟨r', r1', _, _, r4'⟩ := hret w' wk' (List.mem_cons_of_mem _ he) i hj
      rw [r1] at r1'
      injection r1' with hrr
      subst hrr
      rw [r4] at r4'
      have : w = w' := by simp at r4'; omega
      subst this
      exact hk.1 (List.mem_map.mpr ⟨_, he, rfl⟩)
  · intro i hi hbad
    obtain ⟨w, r, h1, _, h3, _⟩ := hmem i hi
    simp [cell, hrow h1] at hbad
    simp [Row.flag, hbad] at h3

end Verif.Manager
