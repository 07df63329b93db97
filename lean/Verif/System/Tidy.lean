import Verif.System.Basic
/-
How the manager writes to its workers: facts about the events of clean runs (helper for Props.lean).
-/
namespace Verif.Manager
open Verif.History Verif.Res Verif.Sched Verif.Alloc Verif.System

variable {sp : Specs} {P : St → Reply → Prop} {s0 : St}

/-- What is known about the worker when something is sent to it. -/
def Tidy (pre : List Ev) : Ev → Prop
  | .order to _ wk => hasFinal pre = false ∧
      ((view to pre).busy = false ∨ ((view to pre).recv = true ∧ wk.activeRecv.isSome = true)) ∧
      (wk.activeRecv.isSome = true → wk.persistent = true) ∧ (wk.tag = EVAL_SIM ∨ wk.tag = EVAL_GEN ∨ wk.tag = PERSIS_STOP)
  | .persisStop to => hasFinal pre = true ∧ (view to pre).persis ≠ 0
  | _ => True

/-- Everything sent to a worker is complete. -/
def Whole (tr : List Ev) : Prop := ∀ w, Worker.frame .ctl (sentTo w tr) = some .ctl

theorem sentTo_append (w : Nat) (l tr : List Ev) : sentTo w (l ++ tr) = sentTo w tr ++ sentTo w l := by
  induction l with
  | nil => simp [sentTo]
  | cons e l ih => simp only [List.cons_append, sentTo, ih, List.append_assoc]

/-- Events that send signals or nothing. -/
def plainEv : Ev → Bool
  | .order _ _ _ => false
  | .rows _ _ _ => false
  | _ => true

theorem frame_plain (w : Nat) {l : List Ev} (h : ∀ e ∈ l, plainEv e = true) : Worker.frame .ctl (sentTo w l) = some .ctl := by
  induction l with
  | nil => rfl
  | cons e l ih =>
    rw [sentTo, Worker.frame_append, ih (fun e he => h e (List.mem_cons_of_mem _ he))]
    have := h e List.mem_cons_self
    cases e <;> simp only [plainEv, Bool.false_eq_true] at this <;> simp only [msgTo, Option.bind_some] <;>
      (try split) <;> simp [Worker.frame, Worker.isStop]

theorem Whole.plain {l tr : List Ev} (h : Whole tr) (hl : ∀ e ∈ l, plainEv e = true) : Whole (l ++ tr) := by
  intro w
  rw [sentTo_append, Worker.frame_append, h w]
  exact frame_plain w hl

theorem Whole.micros {Q : Ev → Prop} {a b : St} (h : Micros sp Q a b) (ha : Whole a.tr) (hq : ∀ e, Q e → plainEv e = true) : Whole b.tr := by
  obtain ⟨l, hl, hle⟩ := h.tr
  rw [hl]
  exact ha.plain fun e he => hq e (hle e he)

theorem Reach.tidy {p : Ph} {s : St} (h : Reach sp P s0 p s) (hg : sp.finalGenSend = false) (h0 : VI sp s0) (ht0 : s0.tr = [])
    (hp0 : s0.pending = []) (hc : p.clean = true) : Always Tidy s.tr ∧ Whole s.tr := by
  have hf0 : Manager.hasFinal s0.tr = false := by rw [ht0]; rfl
  have hkill : ∀ {s : St}, Always Tidy s.tr ∧ Whole s.tr → Always Tidy (killCancelled sp s).1.tr ∧ Whole (killCancelled sp s).1.tr :=
    fun {s} ih => ⟨(micros_killCancelled s).always ih.1 (fun e h pre => by cases h <;> trivial),
      Whole.micros (micros_killCancelled (sp := sp) s) ih.2 (fun e h => by cases h <;> rfl)⟩
  have hmsg : ∀ {s : St} {w m t}, Always Tidy s.tr ∧ Whole s.tr → Always Tidy (handleMsg sp s w m t).1.tr ∧ Whole (handleMsg sp s w m t).1.tr :=
    fun {s w m t} ih => ⟨(micros_handleMsg s w m t).always ih.1 (fun e h pre => by cases h <;> trivial),
      Whole.micros (micros_handleMsg (sp := sp) s w m t) ih.2 (fun e h => by cases h <;> rfl)⟩
  have hsave : ∀ {s : St} {b}, Always Tidy s.tr ∧ Whole s.tr → Always Tidy (saveK sp s b).tr ∧ Whole (saveK sp s b).tr :=
    fun {s b} ih => ⟨(micros_saveK (Q := fun _ => False) s b).always ih.1 (fun e h pre => h.elim),
      Whole.micros (micros_saveK (sp := sp) (Q := fun _ => False) s b) ih.2 (fun e h => h.elim)⟩
  have hev : ∀ {tr : List Ev} (e : Ev), Always Tidy tr ∧ Whole tr → Tidy tr e → plainEv e = true → Always Tidy (e :: tr) ∧ Whole (e :: tr) :=
    fun {tr} e ih h1 h2 => ⟨always_cons.mpr ⟨h1, ih.1⟩, ih.2.plain (l := [e]) (by simpa using h2)⟩
  induction h with
  | init => rw [ht0]; exact ⟨.nil, fun w => rfl⟩
  | test e _ _ ih => exact hev _ (ih rfl) trivial rfl
  | stop e _ _ ih => exact hev _ (ih rfl) trivial rfl
  | kill _ _ ih => exact hkill (ih rfl)
  | killErr _ _ ih => exact hkill (ih rfl)
  | mail w m t _ _ _ ih => exact hmsg (ih rfl)
  | mailErr w m t _ _ _ ih => exact hmsg (ih rfl)
  | save _ ih => exact hsave (ih rfl)
  | allocErr cs _ _ ih => exact hev _ (ih rfl) trivial rfl
  | allocFlag cs work p _ _ ih => exact hev _ (ih rfl) trivial rfl
  | allocOk cs work p t _ _ ih => exact hev _ (ih rfl) trivial rfl
  | @give s w wk t rest hr hm he ih =>
    have hv := (hr.vi h0 hf0 hp0 rfl).1
    obtain ⟨i1, i2⟩ := ih rfl
    obtain ⟨hck, k, wk', l0, l, hG, hpa⟩ := handOut_ok he
    obtain ⟨k2, x, hk2, hx, hor, _⟩ := checkOrder_none hck
    obtain rfl : k2 = k := by have := hG.pos; rw [hk2] at this; simpa using this
    have hl0 : ∀ e ∈ l0, neutral e = true ∧ plainEv e = true ∧ e ≠ .final := by
      rcases hG.before with rfl | ⟨team, rfl, _⟩ <;> simp [neutral, plainEv]
    have hag := hv.agree k2 x hx
    have har : wk'.activeRecv = wk.activeRecv ∧ wk'.persistent = wk.persistent ∧ wk'.tag = wk.tag ∧ wk'.rows = wk.rows := by
      rw [hG.order]; exact ⟨rfl, rfl, rfl, rfl⟩
    have hfin : Manager.hasFinal (l0 ++ s.tr) = false := by
      rw [hasFinal_append, hasFinal_false (fun e he => (hl0 e he).2.2), hr.hasFinal hf0]; rfl
    have hview : view (idAt sp k2) (l0 ++ s.tr) = view (idAt sp k2) s.tr := view_neutral _ _ _ (fun e he => (hl0 e he).1)
    have hti : Tidy (l0 ++ s.tr) (.order (idAt sp k2) w wk') := by
      refine ⟨hfin, ?_, ?_, by rw [har.2.2.1]; exact hG.tag⟩
      · rw [hview, hag.busy, hag.recv, har.1]
        rcases hor with ⟨a, b⟩ | ⟨a, b | b⟩
        · exact .inr ⟨a, b⟩
        · cases b
        · left; simp [b]
      · rw [har.1, har.2.1]
        intro h
        rcases hpa with h' | h'
        · exact h'
        · rw [h'] at h; cases h
    have hA : Always Tidy (.order (idAt sp k2) w wk' :: (l0 ++ s.tr)) :=
      always_cons.mpr ⟨hti, i1.append (fun e he pre => by
        rcases hG.before with rfl | ⟨team, rfl, _⟩
        · cases he
        · rw [List.mem_singleton] at he; subst he; trivial)⟩
    rw [hG.tr]
    refine ⟨Always.append (Always.append hA ?_) ?_, ?_⟩
    · rw [hG.after]; split
      · simp
      · intro e he pre; rw [List.mem_singleton] at he; subst he; trivial
    · cases orderOp sp wk w t <;> simp [Tidy]
    · refine Whole.plain ?_ (by cases orderOp sp wk w t <;> simp [plainEv])
      intro v
      have hw0 := (i2.plain (l := l0) (fun e he => (hl0 e he).2.1)) v
      have htag : wk'.tag ≠ Worker.STOP := by
        rw [har.2.2.1]; rcases hG.tag with h | h | h <;> rw [h] <;> decide
      rw [sentTo_append, sentTo, Worker.frame_append, Worker.frame_append, hw0, hG.after]
      simp only [Option.bind_some, msgTo]
      split
      · rename_i hto
        simp only [Option.toList, Worker.frame, if_neg htag]
        rw [show (orderOf wk').rows = wk.rows from har.2.2.2]
        split
        · rfl
        · simp [sentTo, msgTo, hto, Worker.frame, Worker.isStop]
      · rename_i hto
        simp only [Option.toList, Worker.frame, Option.bind_some]
        split
        · rfl
        · simp [sentTo, msgTo, hto, Worker.frame]
  | giveErr hr hm he ih => rw [checkOrder_clean he hc]; exact ih rfl
  | again _ _ _ ih => exact ih rfl
  | noWork _ _ ih => exact ih rfl
  | final _ ih => exact hev _ (ih hc) trivial rfl
  | @pstop s x w ws t hr he ih =>
    obtain ⟨hv, hT⟩ := hr.vi h0 hf0 hp0 hc
    obtain ⟨_, k, y, hk, hy, hper⟩ := (hT _ _ rfl).ok w List.mem_cons_self
    have hag := hv.agree k y hy
    have hti : Tidy s.tr (.persisStop w) := by
      refine ⟨hr.hasFinal hf0, ?_⟩
      rw [← hk, hag.persis]; exact hper
    have htr : (stopPersis sp s w t).1.tr = .persisStop w :: s.tr := by
      simp only [stopPersis, stopSend, hg, andThen, emit, modW_tr]; rfl
    rw [htr]
    exact hev _ (ih hc) hti rfl
  | pstopErr t _ _ ih => simp [Ph.clean] at hc
  | drain _ ih => exact ih hc
  | dmail w m t _ _ _ ih => exact hmsg (ih hc)
  | dmailErr w m t _ _ _ ih => simp [Ph.clean] at hc
  | dsave _ ih => exact hsave (ih hc)
  | @done s x p _ ih =>
    have h1 := hsave (b := sp.saveDone) (ih hc)
    have h2 : Whole (killWorkers (saveK sp s sp.saveDone)).tr :=
      Whole.micros (micros_killWorkers (sp := sp) _) h1.2 (fun e h => by obtain ⟨w, rfl⟩ := h; rfl)
    exact ⟨(micros_killWorkers (sp := sp) _).always h1.1 (fun e h pre => by obtain ⟨w, rfl⟩ := h; trivial), h2⟩

end Verif.Manager
