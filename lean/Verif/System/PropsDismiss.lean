import Verif.System.Dismiss
/-!
Property C75, the workers: after a run that returned normally every worker ends.
-/
namespace Verif.System
open Verif Verif.Worker
open Verif.Manager (Always Start Iter Round rounds Bundled AllocEnv)

variable {env : Env} {c : Start} {f : Nat → Iter} {t : Nat → Int} {g : Nat → Round}

theorem Stage.resting {K : Bool} {s : W} {Q : List (List Ev × Out)} (h : Stage env K none 0 s Q) : s.ph = .idle ∧ ords (left s.chan) = [] := by
  cases h with
  | rest z a b c d => exact ⟨b, c⟩
  | sent o x z a b c d => cases a
  | need o x z a b c d => cases a
  | work o r h x y z a b c d => cases a
  | done o pre st r x y z a b c d e => cases a
  | ask o r h x y z a b c d e => cases a
  | said o r h pre i x y z a b c d e => cases a
  | wait o r h x y z a b c d => cases z
  | next o r h o' x y z a b c d e => cases a
  | more o r h t o' x y z a b c d => cases a
  | over o pre r x y z a b c d => cases a

/-- The record does not grow any more. -/
theorem FullCourse.over (C : FullCourse env c f t g) {k : Nat} (hk : Ended (whole c f t g k).2) :
    ∃ n, ∀ m, n ≤ m → (C.at_ m).tr = (whole c f t g k).1.tr := by
  obtain ⟨n, hn⟩ := C.passes k
  refine ⟨n, fun m hm => ?_⟩
  have h1 := C.grow hm
  rw [hn] at h1
  obtain ⟨j, hj⟩ := C.inside m
  have h2 : (whole c f t g j).1.tr <:+ (whole c f t g k).1.tr := by
    by_cases hjk : j ≤ k
    · exact (whole_grows hjk).1
    · rw [(whole_grows (c := c) (f := f) (t := t) (g := g) (k := k) (j := j) (by omega)).2 hk]; exact List.suffix_refl _
  exact (hj.trans h2).eq_of_length_le h1.length_le

/-- The state before the signals to finish are sent. -/
theorem before {P : Manager.St → Manager.Reply → Prop} (hits : ∀ k, ∀ x ∈ Manager.passes f k, ∀ s, P s (x.alloc s)) {k : Nat} (hret : (whole c f t g k).2 = .returned 0) :
    ∃ s2, Manager.Reach c.sp P c.st (.over (c.loop (Manager.passes f k)).2) (c.loop (Manager.passes f k)).1 ∧
      Manager.Reach c.sp P c.st (.drain (c.loop (Manager.passes f k)).2) s2 ∧ (c.loop (Manager.passes f k)).2.clean = true ∧
      (c.loop (Manager.passes f k)).1.exc = false ∧ s2.exc = false ∧
      Manager.VI c.sp (c.loop (Manager.passes f k)).1 ∧ Manager.VI c.sp s2 ∧ (whole c f t g k).1.tr = (c.workers.map Manager.Ev.stop).reverse ++ s2.tr ∧
      (∀ w ∈ c.workers, (Manager.view w s2.tr).busy = false ∧ (Manager.view w s2.tr).persis = 0) ∧
      .final :: (c.loop (Manager.passes f k)).1.tr <:+ s2.tr ∧
      ((∀ x ∈ (c.loop (Manager.passes f k)).1.W, x.persis = 0) → ∃ l, s2.tr = l ++ .final :: (c.loop (Manager.passes f k)).1.tr ∧ ∀ w, .persisStop w ∉ l) := by
  obtain ⟨h1, h2, s1, s2, h3, h4, h5⟩ := Manager.returned_cases hret
  have hR := (Manager.mainLoop_reach (sp := c.sp) (Manager.passes f k) c.st (P := P) (s0 := c.st) (hits k) .init).2 h1
  change Manager.Reach c.sp P c.st (.over (c.loop (Manager.passes f k)).2) (c.loop (Manager.passes f k)).1 at hR
  have hc : (c.loop (Manager.passes f k)).2.clean = true := by
    cases he : (c.loop (Manager.passes f k)).2 with
    | raised e => exact absurd he (h2 e)
    | _ => rfl
  have hS := (Manager.stopAll_reach t _ _ (.final hR)).1 (by rw [h3])
  rw [h3] at hS
  have hD := (Manager.drain_reach (rounds g k) s1 (.drain hS)).1 (by rw [h4]; nofun)
  have d1 := Manager.drain_done (sp := c.sp) (rounds g k) s1 (by rw [h4])
  rw [h4] at hD d1
  dsimp only at hD d1
  have vR := (hR.vi Manager.start_vi (by rw [Manager.start_tr]; rfl) Manager.start_pending hc).1
  have vS := (hS.vi Manager.start_vi (by rw [Manager.start_tr]; rfl) Manager.start_pending hc).1
  have vD := (hD.vi Manager.start_vi (by rw [Manager.start_tr]; rfl) Manager.start_pending hc).1
  have xR : (c.loop (Manager.passes f k)).1.exc = false := hR.noExc rfl rfl (fun h => by injection h with h; exact h2 _ h)
  have hids : Manager.ids s2 = c.workers := by rw [hD.micros.ids, Manager.start_ids]
  have hs1 : ∃ l, s1.tr = l ++ .final :: (c.loop (Manager.passes f k)).1.tr := by
    have := Manager.stopAll_tr (sp := c.sp) t (Manager.persisIds (c.loop (Manager.passes f k)).1) (Manager.emit (c.loop (Manager.passes f k)).1 .final)
    rw [h3] at this
    obtain ⟨l, hl⟩ := this
    exact ⟨l, hl.symm⟩
  have hx1 : s1.exc = false := by
    have := (Manager.stopAllPersis_exc (sp := c.sp) t (Manager.persisIds (c.loop (Manager.passes f k)).1) (Manager.emit (c.loop (Manager.passes f k)).1 .final)).1
    rw [h3] at this
    exact this.trans xR
  obtain ⟨l2, hl2, hl3⟩ := Manager.drain_tr (sp := c.sp) (rounds g k) s1
  rw [h4] at hl2
  dsimp only at hl2
  refine ⟨s2, hR, hD, hc, xR, d1.2.2 hx1, vR, vD, by rw [← hids]; exact h5, ?_, ?_, ?_⟩
  · intro w hw
    rw [← hids] at hw
    obtain ⟨j, hj, rfl⟩ := (Manager.mem_ids vD.tab).mp hw
    have ha := vD.agree j _ (List.getElem?_eq_getElem hj)
    rw [ha.busy, ha.persis]
    have a1 := d1.1
    have a2 := d1.2.1
    simp only [Manager.anyActive, List.any_eq_false, decide_eq_true_eq] at a1
    simp only [Manager.anyPersis, List.any_eq_false, decide_eq_true_eq] at a2
    exact ⟨decide_eq_false (a1 _ (List.getElem_mem hj)), Classical.byContradiction fun h => a2 _ (List.getElem_mem hj) h⟩
  · obtain ⟨l, hl⟩ := hs1
    exact ⟨l2 ++ l, by rw [hl2, hl, List.append_assoc]⟩
  · intro hp
    have h0 : Manager.persisIds (c.loop (Manager.passes f k)).1 = [] := by
      simp only [Manager.persisIds, List.map_eq_nil_iff, List.filter_eq_nil_iff, decide_eq_true_eq, Decidable.not_not]
      exact hp
    rw [h0] at h3
    simp only [Manager.stopAllPersis, Prod.mk.injEq, and_true] at h3
    exact ⟨l2, by rw [hl2, ← h3]; rfl, hl3⟩

/-- All are ready when the signals to finish are sent: then all end. -/
theorem FullCourse.dismiss (C : FullCourse env c f t g) {k : Nat} (hk : Ended (whole c f t g k).2) {tr : List Manager.Ev}
    (htr : (whole c f t g k).1.tr = (c.workers.map Manager.Ev.stop).reverse ++ tr)
    (hR : ∀ n, (C.at_ n).tr = tr → ∀ w ∈ c.workers, Ready ((C.at_ n).ws w)) {w : Nat} (hw : w ∈ c.workers) :
    ∃ m, ∀ j, m ≤ j → ((C.at_ j).ws w).ph = .ended := by
  obtain ⟨n1, h1⟩ := C.over hk
  obtain ⟨n0, h01, h0⟩ := C.through (n := n1) (a := tr) (by rw [h1 n1 (Nat.le_refl _), htr]; exact List.suffix_append _ _)
  obtain ⟨m, _, h⟩ := C.dismissed hw (hR n0 h0 w hw) (l := (c.workers.map Manager.Ev.stop).reverse)
    (fun e he => by
      simp only [List.mem_reverse, List.mem_map] at he
      obtain ⟨v, _, rfl⟩ := he
      exact ⟨v, rfl⟩)
    (by simpa using hw) h01 (by rw [h1 n1 (Nat.le_refl _), htr, h0]) (fun m hm => by rw [h1 m hm, h1 n1 (Nat.le_refl _)])
  exact ⟨m, h⟩

/-- Without persistent functions: after a run that returned with flag 0 every worker gets the signal to finish, and ends.  Partial: for the
allocation functions without persistent functions, `final_gen_send` off, and user functions that only look for signals and return. -/
theorem C75_dismissed_partial (C : FullCourse env c f t g) (b : Bundled) (hb : b.plain = true) (aenv : AllocEnv) (hits : ∀ k, (f k).uses b aenv c.sp)
    (hg : c.sp.finalGenSend = false) (hF : ∀ w, Simple (env.F w)) (k : Nat) (hret : (whole c f t g k).2 = .returned 0) (w : Nat) (hw : w ∈ c.workers) :
    ∃ m, ∀ j, m ≤ j → ((C.at_ j).ws w).ph = .ended := by
  obtain ⟨s2, hR, hD, hc, xR, xD, vR, vD, htr, hidle, hsuf, hpers⟩ := before (P := b.P aenv c.sp)
    (fun k x hm s => Manager.uses_P (Manager.passes_use hits k x hm) s) hret
  have hk : Ended (whole c f t g k).2 := by rw [hret]; exact ⟨nofun, nofun⟩
  obtain ⟨nR, wR⟩ := neat_reach hb hg hR hc nofun xR (Reach.mainPstop (hg := hg) hR hc rfl)
  have hsuf2 : (c.loop (Manager.passes f k)).1.tr <:+ (whole c f t g k).1.tr := by
    rw [htr]; exact ((List.suffix_cons _ _).trans hsuf).trans (List.suffix_append _ _)
  have hp0 : ∀ x ∈ (c.loop (Manager.passes f k)).1.W, x.persis = 0 := by
    obtain ⟨n, hn⟩ := C.passes k
    obtain ⟨m, _, hm⟩ := C.through (a := (c.loop (Manager.passes f k)).1.tr) (n := n) (by rw [hn]; exact hsuf2)
    have hst : Steady env true (C.at_ m).tr (C.at_ m).ws :=
      (C.joint m).steady hF nofun (by rw [hm]; exact nR) (fun w => by rw [hm]; exact framed_suffix wR (List.suffix_refl _) w)
    intro x hx
    obtain ⟨j, hj, rfl⟩ := List.getElem_of_mem hx
    have h3 := (vR.agree j _ (List.getElem?_eq_getElem hj)).persis
    rw [← hm] at h3
    exact h3.symm.trans (hst.inv _).stage.plain0
  obtain ⟨l, hl, hl2⟩ := hpers hp0
  have hno : ∀ w, .persisStop w ∉ s2.tr := by
    intro w hw
    rw [hl] at hw
    rcases List.mem_append.mp hw with hw | hw
    · exact hl2 w hw
    · simp only [List.mem_cons, reduceCtorEq, false_or] at hw
      exact Reach.mainPstop (hg := hg) hR hc rfl w hw
  obtain ⟨nD, wD⟩ := neat_reach hb hg hD hc nofun xD hno
  refine FullCourse.dismiss C hk htr (fun n hn w hw => ?_) hw
  have hf : ∀ w, Framed (sentTo w (C.at_ n).tr) := fun w => by rw [hn]; exact framed_suffix wD (List.suffix_refl _) w
  have hst : Steady env true (C.at_ n).tr (C.at_ n).ws := (C.joint n).steady hF nofun (by rw [hn]; exact nD) hf
  have hI := hst.inv w
  have hs : .stop w ∉ (C.at_ n).tr := by
    rw [hn]
    intro h
    obtain ⟨post, pre, he⟩ := List.append_of_mem h
    exact nD post _ pre he
  have ho : Manager.owes w (C.at_ n).tr = none := by
    have h1 := congrArg Manager.View.busy (hst.view w)
    rw [hn] at h1 ⊢
    rw [(hidle w hw).1] at h1
    exact Option.isNone_iff_eq_none.mp (Option.isSome_eq_false_iff.mp h1.symm)
  rw [ho] at hI
  have hstage : ((C.at_ n).ws w).ph = .idle ∧ ords (left ((C.at_ n).ws w).chan) = [] := by
    have hp : (Manager.view w (C.at_ n).tr).persis = 0 := by rw [hn]; exact (hidle w hw).2
    have h := hI.stage
    rw [hp] at h
    exact h.resting
  refine (C.joint n).ready (hf w) hs hstage.1 (hI.buf fun o rows h hx => by rw [hstage.1] at hx; cases hx) hstage.2 ?_
  have := hI.frame
  rw [hstage.1] at this
  exact this

/-- With persistent generators: after a run that returned with flag 0 every worker gets the signal to finish, and ends.  Partial: for
`only_persistent_gens` with the usual settings and generators that end when they are told to stop. -/
theorem C75_gens_dismissed_partial (C : FullCourse env c f t g) (o : Alloc.UserOpts) (hu : PlainGens c o) (aenv : AllocEnv)
    (hits : ∀ k, (f k).uses (.persGens o) aenv c.sp) (hF : ∀ w, Simple (env.F w)) (hA : ∀ w, Leaving env (env.F w)) (k : Nat)
    (hret : (whole c f t g k).2 = .returned 0) (w : Nat) (hw : w ∈ c.workers) : ∃ m, ∀ j, m ≤ j → ((C.at_ j).ws w).ph = .ended := by
  obtain ⟨s2, hR, hD, hc, xR, xD, vR, vD, htr, hidle, hsuf, hpers⟩ := before (P := (Bundled.persGens o).P aenv c.sp)
    (fun k x hm s => Manager.uses_P (Manager.passes_use hits k x hm) s) hret
  have hk : Ended (whole c f t g k).2 := by rw [hret]; exact ⟨nofun, nofun⟩
  obtain ⟨nD, wD⟩ := shuts_reach hu hD hc nofun xD
  refine FullCourse.dismiss C hk htr (fun n hn w hw => ?_) hw
  have hf : ∀ w, Framed (sentTo w (C.at_ n).tr) := fun w => by rw [hn]; exact framed_suffix wD (List.suffix_refl _) w
  have hs : .stop w ∉ (C.at_ n).tr := by
    rw [hn]
    intro h
    obtain ⟨post, pre, he⟩ := List.append_of_mem h
    exact nD post _ pre he
  have hx : Manager.hasExc (C.at_ n).tr = false := by rw [hn, ← vD.exc]; exact xD
  have hcs := (C.joint n).closing hF hA (by rw [hn]; exact nD) hf hx w
  have hb : (Manager.view w (C.at_ n).tr).busy = false := by rw [hn]; exact (hidle w hw).1
  have hp : (Manager.view w (C.at_ n).tr).persis = 0 := by rw [hn]; exact (hidle w hw).2
  rcases hcs with hI | hI
  · have ho : Manager.owes w (C.at_ n).tr = none := by
      have h1 := congrArg Manager.View.busy hI.view
      rw [hb] at h1
      exact Option.isNone_iff_eq_none.mp (Option.isSome_eq_false_iff.mp h1.symm)
    have hJ := hI.inv
    rw [ho, hp] at hJ
    have hstage : ((C.at_ n).ws w).ph = .idle ∧ ords (left ((C.at_ n).ws w).chan) = [] := hJ.stage.resting
    refine (C.joint n).ready (hf w) hs hstage.1 (hJ.buf fun o rows h hx => by rw [hstage.1] at hx; cases hx) hstage.2 ?_
    have := hJ.frame
    rw [hstage.1] at this
    exact this
  · have hh := hI.halt
    have hfr := hI.frame
    generalize Manager.view w (C.at_ n).tr = v at hh hb
    cases hh with
    | fin a b d e =>
      refine (C.joint n).ready (hf w) hs a b (ords_pst d) ?_
      rw [a] at hfr
      exact hfr
    | _ => cases hb

end Verif.System
