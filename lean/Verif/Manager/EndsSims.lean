import Verif.Manager.EndsPers
/-
Orders for simulations of `only_persistent_gens` (helper for System/Live.lean).
-/
namespace Verif.Manager
open Verif.History Verif.Res Verif.Sched Verif.Alloc

variable {c : Start} {o : UserOpts} {env : AllocEnv}

/-- Simulations are given to workers that run no persistent function, and are not persistent. -/
theorem opg_simOrders (ha : o.altType = false) {p : Ph} {s : St} (h : Reach c.sp ((Bundled.persGens o).P env c.sp) c.st p s) :
    Always (onOrder fun pre to _ wk => Manager.hasFinal pre = false → wk.tag = EVAL_SIM → (view to pre).persis = 0 ∧ wk.persistent = false) s.tr := by
  refine h.orders (by rw [start_tr]; exact .nil) (by rw [start_tr]; rfl) (fun pre to key wk hf h => by rw [hf] at h; simp at h) ?_
  intro s w wk t rest k wk' l0 hr _ _ hk hwk hl0 _ ht
  obtain ⟨sA, ord, p0, a, done, hP⟩ := (gensInv hr).pass _ rfl
  have hv : VI c.sp s := (hr.vi start_vi (by rw [start_tr]; rfl) start_pending rfl).1
  have hi : ids s = c.workers := by rw [hr.micros.ids, start_ids]
  obtain ⟨q1, _, _⟩ := hP.order hv hi (start_histAt hr)
  have hkw : idAt c.sp k = w := wPos_ids hv.tab (by rw [hi]; exact q1) hk
  have hview : view w (l0 ++ s.tr) = view w s.tr := by
    refine view_neutral _ _ _ (fun e he => ?_)
    rcases hl0 with rfl | ⟨team, rfl⟩
    · simp at he
    · simp only [List.mem_singleton] at he; rw [he]; rfl
  have hmem : (w, wk) ∈ a.work := by rw [hP.work]; exact List.mem_append_right _ List.mem_cons_self
  have hkeys := hP.facts.keys
  rw [hP.work, List.map_append, List.nodup_append] at hkeys
  have hnew : w ∉ done.map (·.1) := fun h => hkeys.2.2 w h w List.mem_cons_self rfl
  have ht' : wk.tag = EVAL_SIM := by rw [hwk] at ht; exact ht
  rcases hP.facts.orders w wk hmem with ⟨_, x, hx, rfl, _, h5⟩ | ⟨h3, _⟩
  · obtain ⟨b, hA⟩ := hP.entry hv hx hnew
    obtain ⟨h6, h7⟩ := h5 ha
    refine ⟨by rw [hkw, hview, hA.persis]; exact h6, by rw [hwk]; exact h7⟩
  · rw [ht'] at h3; exact absurd h3 sim_not_gen

/-- Without `kill_canceled_sims` the main loop sends no kill signals. -/
theorem Reach.noKill {sp : Specs} {P : St → Reply → Prop} {s0 : St} (hk : sp.kill = false) {p : Ph} {s : St} (h : Reach sp P s0 p s) (ht0 : s0.tr = [])
    (hp : p.going = true) : ∀ w i, .kill w i ∉ s.tr := by
  have hmic : ∀ {a b : St} {Q : Ev → Prop}, Micros sp Q a b → (∀ w i, ¬ Q (.kill w i)) → (∀ w i, .kill w i ∉ a.tr) → ∀ w i, .kill w i ∉ b.tr := by
    intro a b Q hm hq ha w i he
    obtain ⟨l, hl, hle⟩ := hm.tr
    rw [hl] at he
    rcases List.mem_append.mp he with he | he
    · exact hq w i (hle _ he)
    · exact ha w i he
  induction h with
  | init => rw [ht0]; simp
  | test e _ _ ih => intro w i h; simp only [emit, List.mem_cons, reduceCtorEq, false_or] at h; exact ih rfl w i h
  | kill _ _ ih => simp only [killCancelled, hk, Bool.false_eq_true, if_false]; exact ih rfl
  | mail w m t _ _ _ ih => exact hmic (micros_handleMsg _ w m t) (fun _ _ h => by cases h) (ih rfl)
  | save _ ih => exact hmic (micros_saveK (Q := fun _ => False) _ _) (fun _ _ h => h) (ih rfl)
  | allocOk cs work p t _ _ ih => intro w i h; simp only [doOp, List.mem_cons, reduceCtorEq, false_or] at h; exact ih rfl w i h
  | give hr _ he ih =>
    refine hmic (micros_handOut _ _ _ _) (fun _ _ h => ?_) (ih rfl)
    cases h with
    | send h => cases h
  | again _ _ _ ih => exact ih rfl
  | _ => simp [Ph.going] at hp

end Verif.Manager
