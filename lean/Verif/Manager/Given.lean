import Verif.Manager.Once
/-
Orders for evaluation and the entries in the history that belong to them.
-/
namespace Verif.Manager
open Verif.History Verif.Res Verif.Sched Verif.Alloc

variable {sp : Specs} {P : St → Reply → Prop} {s0 : St}

/-- Entries of orders: an entry "sent for evaluation" comes directly after the order with the same rows and the same
worker; after the rows of an acceptable order for evaluation comes the entry. -/
def givF (sp : Specs) (h0 : Hist) (n : Nat) (post : List Ev) (e : Ev) (pre : List Ev) : Prop :=
  match e with
  | .op (.giveSim rows w _ _) => ∃ k wk l pre', pre = l ++ .order (idAt sp k) w wk :: pre' ∧ wPos sp.gom n w = some k ∧
      l = (if rows = [] then [] else [.rows (idAt sp k) rows (rows.filterMap ((histAt h0 pre).rows[·]?))]) ∧
      wk.tag = EVAL_SIM ∧ wk.rows = rows ∧ (∀ i ∈ rows, i < (histAt h0 pre).rows.length)
  | .rows to idx _ => ∃ key wk pre', pre = .order to key wk :: pre' ∧ idx = wk.rows ∧
      (wk.tag = EVAL_SIM → wk.persistent = true ∨ wk.activeRecv = none →
        ∃ post' t k, post = post' ++ [.op (.giveSim idx key t k)])
  | _ => True

/-- Not an entry of an order. -/
def noGiv : Ev → Bool
  | .op (.giveSim _ _ _ _) => false
  | .rows _ _ _ => false
  | _ => true

theorem givF_mono {h0 : Hist} {n : Nat} (l post : List Ev) (e : Ev) (pre : List Ev) (h : givF sp h0 n post e pre) :
    givF sp h0 n (l ++ post) e pre := by
  cases e with
  | rows to idx vals =>
    obtain ⟨key, wk, pre', h1, h2, h3⟩ := h
    refine ⟨key, wk, pre', h1, h2, fun a b => ?_⟩
    obtain ⟨p, t, k, rfl⟩ := h3 a b
    exact ⟨l ++ p, t, k, by simp⟩
  | op o => cases o <;> exact h
  | _ => trivial

theorem givF_skip {h0 : Hist} {n : Nat} {l tr : List Ev} (ha : Later (givF sp h0 n) tr) (hl : ∀ e ∈ l, noGiv e = true) :
    Later (givF sp h0 n) (l ++ tr) := by
  refine ha.append givF_mono (fun l1 e l2 he => ?_)
  have h1 := hl e (by rw [he]; simp)
  cases e with
  | rows to idx vals => simp [noGiv] at h1
  | op o => cases o <;> simp [noGiv] at h1 <;> trivial
  | _ => trivial

theorem histAt_skips (h0 : Hist) {l : List Ev} (tr : List Ev) (h : ∀ e ∈ l, ∀ o, e ≠ .op o) : histAt h0 (l ++ tr) = histAt h0 tr := by
  induction l with
  | nil => rfl
  | cons e l ih =>
    rw [List.cons_append, histAt_skip _ _ (h e List.mem_cons_self)]
    exact ih (fun e he => h e (List.mem_cons_of_mem _ he))

/-- The array of rows that goes with an order. -/
theorem givF_rows {h0 : Hist} {n : Nat} {to key : Nat} {idx : List Nat} {vals : List Row} {wk : Work} {tr : List Ev}
    (ha : Later (givF sp h0 n) (.order to key wk :: tr)) (h : idx = wk.rows)
    (hbad : ¬ (wk.tag = EVAL_SIM ∧ (wk.persistent = true ∨ wk.activeRecv = none))) :
    Later (givF sp h0 n) (.rows to idx vals :: .order to key wk :: tr) := by
  refine Later.append (l := [.rows to idx vals]) ha givF_mono (fun l1 e l2 he => ?_)
  cases l1 with
  | nil =>
    simp only [List.nil_append, List.cons.injEq] at he
    obtain ⟨rfl, rfl⟩ := he
    exact ⟨key, wk, tr, rfl, h, fun a b => absurd ⟨a, b⟩ hbad⟩
  | cons a l1 => simp at he

theorem givF_sent {h0 : Hist} {n : Nat} {a b : St} {w k : Nat} {wk wk' : Work} {l0 l : List Ev} (hS : Sent sp a b w k wk wk' l0 l)
    (hbad : l = [] ∨ ¬ (wk.tag = EVAL_SIM ∧ (wk.persistent = true ∨ wk.activeRecv = none)))
    (ha : Later (givF sp h0 n) a.tr) : Later (givF sp h0 n) b.tr := by
  have h1 : Later (givF sp h0 n) (.order (idAt sp k) w wk' :: (l0 ++ a.tr)) := by
    refine givF_skip (l := [.order (idAt sp k) w wk']) (givF_skip ha ?_) (by simp [noGiv])
    rcases hS.before with h | ⟨team, h, _⟩ <;> rw [h] <;> simp [noGiv]
  rw [hS.tr]
  rcases hS.after with h | ⟨vals, h, _⟩
  · rw [h]; exact h1
  · rw [h]
    have hr : wk'.rows = wk.rows := by rw [hS.order]
    have ht : wk'.tag = wk.tag := by rw [hS.order]
    have hp : wk'.persistent = wk.persistent := by rw [hS.order]
    have hv : wk'.activeRecv = wk.activeRecv := by rw [hS.order]
    refine givF_rows h1 hr.symm ?_
    rw [ht, hp, hv]
    rcases hbad with hb | hb
    · rw [hb] at h; simp at h
    · exact hb

theorem givF_gave {h0 : Hist} {a b : St} {w k : Nat} {t : Int} {wk wk' : Work} {l0 l : List Ev}
    (hG : Gave sp a b w k t wk wk' l0 l) (hh : a.hist = histAt h0 a.tr)
    (ha : Later (givF sp h0 a.W.length) a.tr) : Later (givF sp h0 a.W.length) b.tr := by
  have h1 : Later (givF sp h0 a.W.length) (.order (idAt sp k) w wk' :: (l0 ++ a.tr)) := by
    refine givF_skip (l := [.order (idAt sp k) w wk']) (givF_skip ha ?_) (by simp [noGiv])
    rcases hG.before with h | ⟨team, h, _⟩ <;> rw [h] <;> simp [noGiv]
  have hr : wk'.rows = wk.rows := by rw [hG.order]
  have ht : wk'.tag = wk.tag := by rw [hG.order]
  have hlh : ∀ e ∈ l, ∀ o, e ≠ Ev.op o := by
    rw [hG.after]; intro e he o
    split at he
    · simp at he
    · simp only [List.mem_singleton] at he; rw [he]; simp
  have hl0h : ∀ e ∈ l0, ∀ o, e ≠ Ev.op o := by
    intro e he o
    rcases hG.before with h | ⟨team, h, _⟩ <;> rw [h] at he
    · simp at he
    · simp only [List.mem_singleton] at he; rw [he]; simp
  have hhp : histAt h0 (l ++ .order (idAt sp k) w wk' :: (l0 ++ a.tr)) = a.hist := by
    rw [histAt_skips _ _ hlh, histAt_skip _ _ (by simp), histAt_skips _ _ hl0h, hh]
  rw [hG.tr]
  have hlf : l = if wk.rows = [] then [] else [.rows (idAt sp k) wk.rows (wk.rows.filterMap (a.hist.rows[·]?))] := hG.after
  by_cases hsim : wk.tag = EVAL_SIM
  · have ho : orderOp sp wk w t = some (.giveSim wk.rows w t sp.kill) := by simp [orderOp, hsim]
    rw [ho]
    simp only
    have : [Ev.op (.giveSim wk.rows w t sp.kill)] ++ (l ++ .order (idAt sp k) w wk' :: (l0 ++ a.tr)) =
        (Ev.op (.giveSim wk.rows w t sp.kill) :: l) ++ .order (idAt sp k) w wk' :: (l0 ++ a.tr) := by simp
    rw [this]
    refine Later.append h1 givF_mono (fun l1 e l2 he => ?_)
    cases l1 with
    | nil =>
      simp only [List.nil_append, List.cons.injEq] at he
      obtain ⟨rfl, rfl⟩ := he
      refine ⟨k, wk', l, l0 ++ a.tr, rfl, hG.pos, ?_, ht.trans hsim, hr, ?_⟩
      · rw [hhp]; exact hlf
      · rw [hhp]; exact hG.rows
    | cons x l1 =>
      simp only [List.cons_append, List.cons.injEq] at he
      obtain ⟨rfl, he⟩ := he
      by_cases hn : wk.rows = []
      · rw [if_pos hn] at hlf; rw [hlf] at he; simp at he
      · rw [if_neg hn] at hlf
        rw [hlf] at he
        cases l1 with
        | nil =>
          simp only [List.nil_append, List.cons.injEq] at he
          obtain ⟨rfl, rfl⟩ := he
          exact ⟨w, wk', l0 ++ a.tr, rfl, hr.symm, fun _ _ => ⟨[], t, sp.kill, rfl⟩⟩
        | cons y l1 => simp at he
  · have h2 : Later (givF sp h0 a.W.length) (l ++ .order (idAt sp k) w wk' :: (l0 ++ a.tr)) := by
      rw [hlf]
      split
      · exact h1
      · exact givF_rows h1 hr.symm (by rw [ht]; exact fun h => hsim h.1)
    refine givF_skip h2 ?_
    simp only [orderOp, if_neg hsim]
    by_cases hg : wk.tag = EVAL_GEN
    · rw [if_pos hg]; simp [noGiv]
    · rw [if_neg hg]; simp

theorem sendOrder_nowhere {s : St} {w : Nat} (h : wPos sp.gom s.W.length w = none) (wk : Work) (t : Int) :
    ∃ l, (sendOrder sp s wk w t).1.tr = l ++ s.tr ∧ ∀ e ∈ l, ∃ k team, e = .assign k team := by
  have hc := setResources_cases (sp := sp) s wk w
  simp only [sendOrder]
  generalize setResources sp s wk w = x at hc
  obtain ⟨s1, wk1, e⟩ := x
  obtain ⟨hst, hh, hc1, hc2⟩ := hc
  simp only at hst hh hc1 hc2
  cases e with
  | some e =>
    refine ⟨[], ?_, by simp⟩
    rw [hc2 (by simp)]; rfl
  | none =>
    obtain ⟨l0, hl0, hl0'⟩ := hc1 rfl
    refine ⟨l0, ?_, ?_⟩
    · simp only
      rw [show wPos sp.gom s1.W.length w = none by rw [hst.W]; exact h]
      exact hl0
    · rcases hl0' with h | ⟨team, h, _⟩ <;> rw [h]
      · simp
      · intro e he; simp at he; exact ⟨w, team, he⟩

theorem Reach.givF {h0 : Hist} {p : Ph} {s : St} (h : Reach sp P s0 p s) (ht : s0.tr = []) (hh : s0.hist = h0) :
    Later (Manager.givF sp h0 s0.W.length) s.tr := by
  have hmic : ∀ {a b : St} {Q : Ev → Prop}, Micros sp Q a b → (∀ e, Q e → noGiv e = true) → Later (Manager.givF sp h0 s0.W.length) a.tr →
      Later (Manager.givF sp h0 s0.W.length) b.tr := by
    intro a b Q hm hq ha
    obtain ⟨l, hl, hle⟩ := hm.tr
    rw [hl]
    exact givF_skip ha (fun e he => hq e (hle e he))
  have hone : ∀ {e : Ev} {tr}, noGiv e = true → Later (Manager.givF sp h0 s0.W.length) tr → Later (Manager.givF sp h0 s0.W.length) (e :: tr) :=
    fun {e tr} he ha => givF_skip (l := [e]) ha (by simpa using he)
  have hsave : ∀ {s : St} {b}, Later (Manager.givF sp h0 s0.W.length) s.tr → Later (Manager.givF sp h0 s0.W.length) (saveK sp s b).tr :=
    fun {s b} ih => hmic (micros_saveK (Q := fun _ => False) s b) (fun e h => h.elim) ih
  have hkill : ∀ {s : St}, Later (Manager.givF sp h0 s0.W.length) s.tr → Later (Manager.givF sp h0 s0.W.length) (killCancelled sp s).1.tr :=
    fun {s} ih => hmic (micros_killCancelled s) (fun e h => by cases h <;> rfl) ih
  have hmsg : ∀ {s : St} {w m t}, Later (Manager.givF sp h0 s0.W.length) s.tr → Later (Manager.givF sp h0 s0.W.length) (handleMsg sp s w m t).1.tr :=
    fun {s w m t} ih => hmic (micros_handleMsg s w m t) (fun e h => by cases h <;> rfl) ih
  have hgive : ∀ {s : St} {p wk w t}, Reach sp P s0 p s → Later (Manager.givF sp h0 s0.W.length) s.tr →
      Later (Manager.givF sp h0 s0.W.length) (handOut sp s wk w t).1.tr := by
    intro s p wk w t hr ih
    have hW : s.W.length = s0.W.length := hr.micros.length
    have hhs : s.hist = histAt h0 s.tr := by
      have := hr.micros.hist (h0 := h0) (by rw [ht, hh]; rfl)
      exact this
    rcases handOut_cases (sp := sp) s wk w t with ⟨e, _, he⟩ | ⟨hc, h | ⟨k, wk', l0, l, hne, h⟩ | ⟨k, wk', l0, l, h, _⟩⟩
    · rw [he]; exact ih
    · rw [h.2.2.2]; exact ih
    · rcases h with ⟨h, hnil⟩ | ⟨⟨s1, h, h'⟩, hb1, hb2⟩
      · exact givF_sent h (.inl hnil) ih
      · rw [h']
        refine givF_sent (b := s1) h (.inr ?_) ih
        rintro ⟨_, hb | hb⟩
        · rw [hb1] at hb; simp at hb
        · rw [hb] at hb2; simp at hb2
    · rw [← hW] at ih ⊢
      exact givF_gave h hhs ih
  have hstop : ∀ {s : St} {w t}, Later (Manager.givF sp h0 s0.W.length) s.tr → Later (Manager.givF sp h0 s0.W.length) (stopPersis sp s w t).1.tr := by
    intro s w t ih
    obtain ⟨l, hl⟩ : ∃ s1 : St, (stopPersis sp s w t).1.tr = s1.tr ∧ s1 = (stopSend sp s w t).1 := by
      refine ⟨_, ?_, rfl⟩
      simp only [stopPersis, andThen]
      split
      · rfl
      · simp only [modW_tr]
    obtain ⟨h1, rfl⟩ := hl
    rw [h1]
    simp only [stopSend]
    split
    · split
      · exact ih
      · have h2 : Later (Manager.givF sp h0 s0.W.length) (sendOrder sp s (lastOrder s) w t).1.tr := by
          rcases sendOrder_cases (sp := sp) s (lastOrder s) w t with ⟨_, _, _, hb⟩ | ⟨k', wk', l0, l, hS, _⟩
          · rcases hb with hb | hb
            · rw [hb]; exact ih
            · obtain ⟨l, hl, hle⟩ := sendOrder_nowhere hb (lastOrder s) t
              rw [hl]
              exact givF_skip ih (fun e he => by obtain ⟨k, team, rfl⟩ := hle e he; rfl)
          · exact givF_sent hS (.inr (by simp [lastOrder, PERSIS_STOP, EVAL_SIM])) ih
        simp only [andThen]
        split
        · exact h2
        · exact hone rfl h2
    · exact hone rfl ih
  induction h with
  | init => rw [ht]; intro post e pre h; simp at h
  | test e hr h1 ih => exact hone rfl ih
  | stop e hr _ ih => exact hone rfl ih
  | kill hr _ ih => exact hkill ih
  | killErr hr _ ih => exact hkill ih
  | mail w m t hr hw _ ih => exact hmsg ih
  | mailErr w m t hr hw _ ih => exact hmsg ih
  | save _ ih => exact hsave ih
  | allocErr cs hr _ ih => exact hone rfl ih
  | allocFlag cs work p hr _ ih => exact hone rfl ih
  | allocOk cs work p t hr _ ih => exact hone rfl ih
  | give hr hm _ ih => exact hgive hr ih
  | giveErr hr hm _ ih => exact hgive hr ih
  | again _ _ _ ih => exact ih
  | noWork _ _ ih => exact ih
  | final hr ih => exact hone rfl ih
  | pstop t hr _ ih => exact hstop ih
  | pstopErr t hr _ ih => exact hstop ih
  | drain _ ih => exact ih
  | dmail w m t hr hw _ ih => exact hmsg ih
  | dmailErr w m t hr hw _ ih => exact hmsg ih
  | dsave _ ih => exact hsave ih
  | done p hr ih =>
    have h2 := hmic (micros_killWorkers (sp := sp) (saveK sp _ sp.saveDone)) (fun e h => by obtain ⟨w, rfl⟩ := h; rfl) (hsave ih)
    exact h2

end Verif.Manager
