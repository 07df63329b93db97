import Verif.Manager.Shutdown
/-
Persistent stops.
-/
namespace Verif.Manager
open Verif.History Verif.Res Verif.Sched Verif.Alloc

variable {sp : Specs} {P : St → Reply → Prop} {s0 : St}

theorem stopPersis_sends {s : St} (ht : Tab sp s) {w : Nat} (hw : w ∈ ids s) (t : Int) (h : (stopPersis sp s w t).2 = none) :
    ∃ l, (stopPersis sp s w t).1.tr = l ++ s.tr ∧ ∃ e ∈ l, isPersisStop w e = true := by
  obtain ⟨k, hk, rfl⟩ := (mem_ids ht).mp hw
  have hpos : wPos sp.gom s.W.length (idAt sp k) = some k := wPos_idAt hk
  simp only [stopPersis] at h ⊢
  obtain ⟨h1, h2⟩ := andThen_none h
  rw [h2]
  simp only [modW_tr]
  clear h h2
  simp only [stopSend] at h1 ⊢
  split
  · rename_i hf
    rw [if_pos hf] at h1
    cases hc : checkOrder sp s (lastOrder s) (idAt sp k) true with
    | some e => simp [hc] at h1
    | none =>
      simp only [hc] at h1 ⊢
      obtain ⟨h3, h4⟩ := andThen_none h1
      rw [h4]
      rcases sendOrder_cases (sp := sp) s (lastOrder s) (idAt sp k) t with ⟨hb, _⟩ | ⟨k', wk', l0, l, hS, _⟩
      · exact absurd h3 hb
      · obtain rfl : k' = k := by have := hS.pos; rw [hpos] at this; simpa using this.symm
        refine ⟨.op (.giveGen (lastOrder s).rows t) :: (l ++ .order (idAt sp k') (idAt sp k') wk' :: l0), ?_, .order (idAt sp k') (idAt sp k') wk', ?_, ?_⟩
        · simp only [doOp]; rw [hS.tr]; simp
        · simp
        · have : wk'.tag = PERSIS_STOP := by rw [hS.order]; rfl
          simp [isPersisStop, this]
  · exact ⟨[.persisStop (idAt sp k)], rfl, _, List.mem_singleton_self _, by simp [isPersisStop]⟩

/-- Still to be stopped. -/
def Ph.left : Ph → List Nat
  | .fin _ ws => ws
  | _ => []

/-- Every worker that ran a persistent function at the end of the main loop has been sent a persistent stop since,
or is about to be. -/
def PstopOk (ws : List Nat) (tr : List Ev) (left : List Nat) : Prop :=
  ∀ post pre, tr = post ++ .final :: pre → ∀ w ∈ ws, (view w pre).persis ≠ 0 → w ∈ left ∨ ∃ e ∈ post, isPersisStop w e = true

theorem PstopOk.append {ws left : List Nat} {l tr : List Ev} (h : PstopOk ws tr left) (hl : ∀ e ∈ l, e ≠ .final) :
    PstopOk ws (l ++ tr) left := by
  intro post pre he w hw hp
  rcases List.append_eq_append_iff.mp he with ⟨a, rfl, h2⟩ | ⟨a, h1, h2⟩
  · rcases h _ _ h2 w hw hp with h | ⟨e, he, h⟩
    · exact .inl h
    · exact .inr ⟨e, List.mem_append_right _ he, h⟩
  · cases a with
    | nil =>
      rw [List.append_nil] at h1; subst h1
      rcases h [] pre (by simpa using h2.symm) w hw hp with h | ⟨e, he, _⟩
      · exact .inl h
      · simp at he
    | cons x a =>
      simp only [List.cons_append, List.cons.injEq] at h2
      exact absurd h2.1.symm (hl x (by rw [h1]; simp))

theorem PstopOk.micros {ws left : List Nat} {Q : Ev → Prop} {a b : St} (h : Micros sp Q a b) (hq : ∀ e, Q e → e ≠ .final)
    (ha : PstopOk ws a.tr left) : PstopOk ws b.tr left := by
  obtain ⟨l, hl, hle⟩ := h.tr
  rw [hl]; exact ha.append (fun e he => hq e (hle e he))

theorem Reach.pstops {p : Ph} {s : St} (h : Reach sp P s0 p s) (h0 : VI sp s0) (ht0 : s0.tr = []) (hp0 : s0.pending = [])
    (hc : p.clean = true) (hm : p.main = false) : PstopOk (ids s0) s.tr p.left := by
  have hf0 : Manager.hasFinal s0.tr = false := by rw [ht0]; rfl
  have hvi : ∀ {p : Ph} {s : St}, Reach sp P s0 p s → p.clean = true → VI sp s := fun h hc => (h.vi h0 hf0 hp0 hc).1
  induction h with
  | @final s x hr ih =>
    intro post pre he w hw hp
    have hfin := hr.hasFinal hf0
    cases post with
    | cons a post =>
      simp only [emit, List.cons_append, List.cons.injEq] at he
      rw [he.2, hasFinal_append] at hfin
      simp [Manager.hasFinal, Ph.main] at hfin
    | nil =>
      simp only [emit, List.nil_append, List.cons.injEq, true_and] at he
      subst he
      left
      have hv := hvi hr hc
      rw [← hr.micros.ids] at hw
      obtain ⟨k, hk, rfl⟩ := (mem_ids hv.tab).mp hw
      have hx : s.W[k]? = some s.W[k] := List.getElem?_eq_some_iff.mpr ⟨hk, rfl⟩
      rw [(hv.agree k _ hx).persis] at hp
      simp only [Ph.left, persisIds, List.mem_map, List.mem_filter, decide_eq_true_eq]
      exact ⟨_, ⟨List.getElem_mem hk, hp⟩, id_at hv.tab hx⟩
  | @pstop s x w ws t hr he ih =>
    obtain ⟨hv, hts⟩ := hr.vi h0 hf0 hp0 (by exact hc)
    obtain ⟨_, k, y, hkw, hy, _⟩ := (hts _ _ rfl).ok w List.mem_cons_self
    have hw : w ∈ ids s := (mem_ids hv.tab).mpr ⟨k, (List.getElem?_eq_some_iff.mp hy).1, hkw⟩
    obtain ⟨l, hl, e, hel, hes⟩ := stopPersis_sends hv.tab hw t he
    obtain ⟨l', hl', hq⟩ := (micros_stopPersis (sp := sp) s w t).tr
    have hll : l = l' := by rw [hl] at hl'; exact List.append_cancel_right hl'
    have hnf : ∀ e ∈ l, e ≠ .final := by
      intro e he
      rw [hll] at he
      cases hq e he with
      | stop => simp
      | send wk _ h => exact h.ne_final
      | gen => simp
    have h1 := (ih hc rfl).append hnf
    rw [hl]
    intro post pre hpp w' hw' hpers
    rcases h1 post pre hpp w' hw' hpers with h | h
    · simp only [Ph.left, List.mem_cons] at h
      rcases h with rfl | h
      · right
        refine ⟨e, ?_, hes⟩
        rcases List.append_eq_append_iff.mp hpp with ⟨a, rfl, _⟩ | ⟨a, h1, h2⟩
        · exact List.mem_append_left _ hel
        · cases a with
          | nil => rw [List.append_nil] at h1; rw [← h1]; exact hel
          | cons z a =>
            simp only [List.cons_append, List.cons.injEq] at h2
            exact absurd h2.1.symm (hnf z (by rw [h1]; simp))
      · exact .inl h
    · exact .inr h
  | pstopErr t _ _ ih => simp [Ph.clean] at hc
  | drain _ ih => exact ih hc rfl
  | dmail w m t _ _ _ ih => exact PstopOk.micros (micros_handleMsg _ w m t) (fun e h => by cases h <;> simp) (ih hc rfl)
  | dmailErr w m t _ _ _ ih => simp [Ph.clean] at hc
  | dsave _ ih => exact PstopOk.micros (micros_saveK (Q := fun _ => False) _ _) (fun e h => h.elim) (ih hc rfl)
  | done p _ ih =>
    have h1 := PstopOk.micros (micros_saveK (sp := sp) (Q := fun _ => False) _ sp.saveDone) (fun e h => h.elim) (ih hc rfl)
    have h2 := PstopOk.micros (micros_killWorkers (sp := sp) _) (fun e h => by obtain ⟨w, rfl⟩ := h; simp) h1
    exact h2
  | _ => simp [Ph.main] at hm

end Verif.Manager
