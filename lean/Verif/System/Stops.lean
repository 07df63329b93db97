import Verif.System.Tidy
/-
When finish signals are sent (helper for Props.lean).
-/
namespace Verif.Manager
open Verif.History Verif.Res Verif.Sched Verif.Alloc Verif.System

variable {sp : Specs} {P : St → Reply → Prop} {s0 : St}

/-- No finish signal without a worker exception. -/
def NoStop (tr : List Ev) : Prop := ∀ w, .stop w ∈ tr → hasExc tr = true

theorem NoStop.add {l tr : List Ev} (h : NoStop tr) (hl : ∀ w, .stop w ∉ l) : NoStop (l ++ tr) := by
  intro w hw
  rw [hasExc_append]
  rcases List.mem_append.mp hw with hw | hw
  · exact absurd hw (hl w)
  · rw [h w hw, Bool.or_true]

theorem NoStop.micros {Q : Ev → Prop} {a b : St} (h : Micros sp Q a b) (ha : NoStop a.tr) (hq : ∀ w, ¬ Q (.stop w)) : NoStop b.tr := by
  obtain ⟨l, hl, hle⟩ := h.tr
  rw [hl]
  exact ha.add fun w hw => hq w (hle _ hw)

theorem QSend.no_stop {wk : Work} {v w : Nat} : ¬ QSend wk v (.stop w) := by intro h; cases h

theorem Reach.noStop {p : Ph} {s : St} (h : Reach sp P s0 p s) (ht0 : s0.tr = []) (hp : ∀ x, p ≠ .done x) : NoStop s.tr := by
  have hkill : ∀ {s : St}, NoStop s.tr → NoStop (killCancelled sp s).1.tr :=
    fun {s} ih => ih.micros (micros_killCancelled (sp := sp) s) (fun w h => by cases h)
  have hmsg : ∀ {s : St} {w m t}, NoStop s.tr → NoStop (handleMsg sp s w m t).1.tr := by
    intro s w m t ih
    rcases handleMsg_trace (sp := sp) s w m t with ⟨_, _, _, _, h⟩ | ⟨_, _, _, l, h, hl⟩
    · rw [h]
      intro v _
      rw [hasExc_append, show (Ev.exc :: .recv w m :: s.tr) = [Ev.exc] ++ (.recv w m :: s.tr) from rfl, hasExc_append]
      simp [hasExc]
    · rw [h, show l ++ .recv w m :: s.tr = (l ++ [.recv w m]) ++ s.tr by simp]
      refine ih.add fun v hv => ?_
      rcases List.mem_append.mp hv with hv | hv
      · rcases hl _ hv with ⟨_, h⟩ | ⟨_, h⟩ <;> cases h
      · simp at hv
  have hsave : ∀ {s : St} {b}, NoStop s.tr → NoStop (saveK sp s b).tr :=
    fun {s b} ih => ih.micros (micros_saveK (sp := sp) (Q := fun _ => False) s b) (fun w h => h)
  have hgive : ∀ {s : St} {wk w t}, NoStop s.tr → NoStop (handOut sp s wk w t).1.tr :=
    fun {s wk w t} ih => ih.micros (micros_handOut (sp := sp) s wk w t) (fun v h => by cases h with | send h => exact QSend.no_stop h)
  have hstop : ∀ {s : St} {w t}, NoStop s.tr → NoStop (stopPersis sp s w t).1.tr :=
    fun {s w t} ih => ih.micros (micros_stopPersis (sp := sp) s w t) (fun v h => by cases h with | send wk _ h => exact QSend.no_stop h)
  have hev : ∀ {tr : List Ev} (e : Ev), NoStop tr → (∀ w, e ≠ .stop w) → NoStop (e :: tr) :=
    fun {tr} e ih h => ih.add (l := [e]) (fun w hw => h w (List.mem_singleton.mp hw).symm)
  induction h with
  | init => rw [ht0]; intro w hw; cases hw
  | test e _ _ ih => exact hev _ (ih (by simp)) (by simp)
  | stop e _ _ ih => exact hev _ (ih (by simp)) (by simp)
  | kill _ _ ih => exact hkill (ih (by simp))
  | killErr _ _ ih => exact hkill (ih (by simp))
  | mail w m t _ _ _ ih => exact hmsg (ih (by simp))
  | mailErr w m t _ _ _ ih => exact hmsg (ih (by simp))
  | save _ ih => exact hsave (ih (by simp))
  | allocErr cs _ _ ih => exact hev _ (ih (by simp)) (by simp)
  | allocFlag cs work p _ _ ih => exact hev _ (ih (by simp)) (by simp)
  | allocOk cs work p t _ _ ih => exact hev _ (ih (by simp)) (by simp)
  | give _ _ _ ih => exact hgive (ih (by simp))
  | giveErr _ _ _ ih => exact hgive (ih (by simp))
  | again _ _ _ ih => exact ih (by simp)
  | noWork _ _ ih => exact ih (by simp)
  | final _ ih => exact hev _ (ih (by simp)) (by simp)
  | pstop t _ _ ih => exact hstop (ih (by simp))
  | pstopErr t _ _ ih => exact hstop (ih (by simp))
  | drain _ ih => exact ih (by simp)
  | dmail w m t _ _ _ ih => exact hmsg (ih (by simp))
  | dmailErr w m t _ _ _ ih => exact hmsg (ih (by simp))
  | dsave _ ih => exact hsave (ih (by simp))
  | done p _ ih => exact absurd rfl (hp _)

/-- A complete run without worker exceptions: the finish signals come last. -/
theorem Reach.lastStops {x : MainEnd} {s : St} (h : Reach sp P s0 (.done x) s) (ht0 : s0.tr = []) (hx : hasExc s.tr = false) :
    ∃ l pre, s.tr = l ++ pre ∧ (∀ e ∈ l, ∃ v, e = .stop v) ∧ ∀ w, .stop w ∉ pre := by
  generalize hp : Ph.done x = p at h
  cases h with
  | @done s x' p hr =>
    refine ⟨((ids (saveK sp s sp.saveDone)).map Ev.stop).reverse, s.tr, ?_, ?_, ?_⟩
    · simp only [killWorkers_eq]
      rw [(saveK_hist s sp.saveDone).2]
    · intro e he
      simp only [List.mem_reverse, List.mem_map] at he
      obtain ⟨v, _, rfl⟩ := he
      exact ⟨v, rfl⟩
    · intro w hw
      have := hr.noStop ht0 (by simp) w hw
      simp only [killWorkers_eq, (saveK_hist s sp.saveDone).2, hasExc_append, this, Bool.or_true] at hx
      cases hx
  | _ => cases hp

end Verif.Manager
