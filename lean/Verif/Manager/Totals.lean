import Verif.History.Totals
import Verif.Manager.Kill
import Verif.Manager.PropsSims
/-! The counters of started and ended evaluations against the flags of the rows. -/
namespace Verif.Manager
open Verif.History Verif.Res Verif.Sched Verif.Alloc

/-- Operations other than those that give rows do not change which rows are flagged as started. -/
theorem started_same {h : Hist} (HL : LibInv h) (hlib : ∀ f ∈ libEFields, f ∈ h.fields) (op : Op) (hg : Guarded h op)
    (hop : ∀ r w t k, op ≠ .giveSim r w t k) (i : Nat) : flagAt (apply h op).1.rows .simStarted i = flagAt h.rows .simStarted i := by
  rcases Nat.lt_or_ge i h.rows.length with hi | hi
  · rcases apply_protected' h op hg .simStarted (by simp [protectedFields]) hlib i hi with h1 | h1
    · rw [flagAt_cell, flagAt_cell, h1]
    · cases op with
      | giveSim => exact absurd rfl (hop _ _ _ _)
      | simReturn => simp [ProtectedChange] at h1
      | giveGen => simp [ProtectedChange] at h1
      | genReturn => simp [ProtectedChange] at h1
      | requestCancel => simp [ProtectedChange] at h1
      | markKill => simp [ProtectedChange] at h1
  · have h2 : flagAt h.rows .simStarted i = false := by simp [flagAt, List.getElem?_eq_none hi]
    rw [h2]
    rcases Nat.lt_or_ge i (apply h op).1.rows.length with hi2 | hi2
    · rw [flagAt_cell, apply_new_flag HL op hg .simStarted (.inl rfl) i hi hi2]; simp
    · simp [flagAt, List.getElem?_eq_none hi2]

theorem ended_same {h : Hist} (HL : LibInv h) (hlib : ∀ f ∈ libEFields, f ∈ h.fields) (op : Op) (hg : Guarded h op)
    (hop : ∀ r d t k, op ≠ .simReturn r d t k) (i : Nat) : flagAt (apply h op).1.rows .simEnded i = flagAt h.rows .simEnded i := by
  rcases Nat.lt_or_ge i h.rows.length with hi | hi
  · rcases apply_protected' h op hg .simEnded (by simp [protectedFields]) hlib i hi with h1 | h1
    · rw [flagAt_cell, flagAt_cell, h1]
    · cases op with
      | simReturn => exact absurd rfl (hop _ _ _ _)
      | giveSim => simp [ProtectedChange] at h1
      | giveGen => simp [ProtectedChange] at h1
      | genReturn => simp [ProtectedChange] at h1
      | requestCancel => simp [ProtectedChange] at h1
      | markKill => simp [ProtectedChange] at h1
  · have h2 : flagAt h.rows .simEnded i = false := by simp [flagAt, List.getElem?_eq_none hi]
    rw [h2]
    rcases Nat.lt_or_ge i (apply h op).1.rows.length with hi2 | hi2
    · rw [flagAt_cell, apply_new_flag HL op hg .simEnded (.inr (.inl rfl)) i hi hi2]; simp
    · simp [flagAt, List.getElem?_eq_none hi2]

/-- What is flagged stays flagged. -/
theorem flag_stays {c : Start} (hc : c.Std) {g : Field} (hgf : g = .simStarted ∨ g = .simEnded) {l tr : List Ev} (hk : OpsOk c (l ++ tr)) {i : Nat}
    (h : flagAt (histAt c.hist tr).rows g i = true) : flagAt (histAt c.hist (l ++ tr)).rows g i = true := by
  induction l with
  | nil => exact h
  | cons e l ih =>
    have ih := ih (OpsOk.suffix (l := [e]) hk)
    by_cases ho : ∃ o, e = .op o
    · obtain ⟨o, rfl⟩ := ho
      rw [List.cons_append]
      rcases histAt_step (tr := l ++ tr) hc hk g (by rcases hgf with rfl | rfl <;> simp [protectedFields]) i (flagAt_lt ih) with h1 | h1
      · rw [flagAt_cell, h1, ← flagAt_cell]; exact ih
      · rw [flagAt_cell, histAt_op]
        cases o with
        | simReturn => rcases h1 with ⟨_, ⟨_, h2⟩ | ⟨h2, _⟩⟩
                       · rw [h2]; rfl
                       · rcases hgf with rfl | rfl <;> cases h2
        | giveSim => rcases h1 with ⟨_, ⟨_, h2⟩ | ⟨h2, _⟩ | ⟨h2, _⟩⟩
                     · rw [h2]; rfl
                     · rcases hgf with rfl | rfl <;> cases h2
                     · rcases hgf with rfl | rfl <;> cases h2
        | giveGen => rcases h1 with ⟨_, ⟨h2, _⟩ | ⟨h2, _⟩⟩ <;> rcases hgf with rfl | rfl <;> cases h2
        | genReturn => rcases h1 with ⟨_, _, ⟨h2, _⟩ | ⟨h2, _⟩ | ⟨h2, _⟩⟩ <;> rcases hgf with rfl | rfl <;> cases h2
        | requestCancel => exact h1.elim
        | markKill => rcases h1 with ⟨_, h2, _⟩; rcases hgf with rfl | rfl <;> cases h2
    · rw [List.cons_append, histAt_skip _ _ (fun o he => ho ⟨o, he⟩)]; exact ih

theorem ended_flagAt {h : Hist} {i : Nat} : Ended h i ↔ flagAt h.rows .simEnded i = true := by
  simp only [Ended, flagAt, Option.any_eq_true]

theorem guarded_at {c : Start} {o : Op} {tr : List Ev} (hk : OpsOk c (.op o :: tr)) : Guarded (histAt c.hist tr) o := by
  rcases hk o List.mem_cons_self with h | h
  · exact .inl (by rw [histAt_safe]; exact h)
  · exact .inr h

/-- The counter of started evaluations, if rows are given once. -/
theorem started_total {c : Start} (hc : c.Std) {tr : List Ev} (hk : OpsOk c tr)
    (hnew : ∀ post rows w t k pre, tr = post ++ .op (.giveSim rows w t k) :: pre → rows.Nodup ∧ ∀ i ∈ rows, flagAt (histAt c.hist pre).rows .simStarted i = false) :
    (histAt c.hist tr).simStartedCount = countFlag (histAt c.hist tr).rows .simStarted := by
  induction tr with
  | nil => rfl
  | cons e tr ih =>
    have ih := ih (OpsOk.suffix (l := [e]) hk) (fun post rows w t k pre he => hnew (e :: post) rows w t k pre (by rw [he]; rfl))
    by_cases ho : ∃ o, e = .op o
    · obtain ⟨o, rfl⟩ := ho
      rw [histAt_op]
      by_cases hop : ∃ r w t k, o = .giveSim r w t k
      · obtain ⟨r, w, t, k, rfl⟩ := hop
        obtain ⟨h1, h2⟩ := hnew [] r w t k tr rfl
        exact giveSim_total _ r w t k h1 (fun _ => h2) ih
      · have hop' : ∀ r w t k, o ≠ .giveSim r w t k := fun r w t k h => hop ⟨r, w, t, k, h⟩
        rw [apply_started_count _ o hop', ih]
        exact (countFlag_same (started_same (histAt_lib hc tr) (histAt_has hc tr) o (guarded_at hk) hop')).symm
    · rw [histAt_skip _ _ (fun o he => ho ⟨o, he⟩)]; exact ih

/-- The counter of ended evaluations, if results are returned once. -/
theorem ended_total {c : Start} (hc : c.Std) {tr : List Ev} (hk : OpsOk c tr)
    (hnew : ∀ post rows d t k pre, tr = post ++ .op (.simReturn rows d t k) :: pre → rows.Nodup ∧ ∀ i ∈ rows, flagAt (histAt c.hist pre).rows .simEnded i = false) :
    (histAt c.hist tr).simEndedCount = countFlag (histAt c.hist tr).rows .simEnded := by
  induction tr with
  | nil => rfl
  | cons e tr ih =>
    have ih := ih (OpsOk.suffix (l := [e]) hk) (fun post rows w t k pre he => hnew (e :: post) rows w t k pre (by rw [he]; rfl))
    by_cases ho : ∃ o, e = .op o
    · obtain ⟨o, rfl⟩ := ho
      rw [histAt_op]
      by_cases hop : ∃ r d t k, o = .simReturn r d t k
      · obtain ⟨r, d, t, k, rfl⟩ := hop
        obtain ⟨h1, h2⟩ := hnew [] r d t k tr rfl
        exact simReturn_total _ r d t k (histAt_has hc tr _ (by simp [libEFields])) (guarded_at hk) h1 h2 ih
      · have hop' : ∀ r d t k, o ≠ .simReturn r d t k := fun r d t k h => hop ⟨r, d, t, k, h⟩
        rw [apply_ended_count _ o hop', ih]
        exact (countFlag_same (ended_same (histAt_lib hc tr) (histAt_has hc tr) o (guarded_at hk) hop')).symm
    · rw [histAt_skip _ _ (fun o he => ho ⟨o, he⟩)]; exact ih

/-- A row whose result was recorded. -/
theorem ended_back {c : Start} (hc : c.Std) {tr : List Ev} (hk : OpsOk c tr) {i : Nat} (h0 : flagAt c.hist.rows .simEnded i = false)
    (h : flagAt (histAt c.hist tr).rows .simEnded i = true) : i ∈ simBack tr := by
  induction tr with
  | nil => rw [show histAt c.hist [] = c.hist from rfl, h0] at h; simp at h
  | cons e tr ih =>
    have up : i ∈ simBack tr → i ∈ simBack (e :: tr) := fun h => by
      simp only [simBack, List.flatMap_cons]; exact List.mem_append_right _ h
    have hk' := OpsOk.suffix (l := [e]) hk
    by_cases ho : ∃ o, e = .op o
    · obtain ⟨o, rfl⟩ := ho
      by_cases hop : ∃ r d t k, o = .simReturn r d t k
      · obtain ⟨r, d, t, k, rfl⟩ := hop
        by_cases hi : i ∈ r
        · simp [simBack, simBackOf, hi]
        · apply up
          apply ih hk'
          rcases Nat.lt_or_ge i (histAt c.hist tr).rows.length with hl | hl
          · rcases histAt_step hc hk .simEnded (by simp [protectedFields]) i hl with h1 | h1
            · rw [flagAt_cell, ← h1, ← flagAt_cell]; exact h
            · exact absurd h1.1 hi
          · have h2 := flagAt_lt h
            rw [histAt_op] at h2 h
            rw [flagAt_cell, apply_new_flag (histAt_lib hc tr) _ (guarded_at hk) .simEnded (.inr (.inl rfl)) i hl h2] at h
            simp at h
      · have hop' : ∀ r d t k, o ≠ .simReturn r d t k := fun r d t k h => hop ⟨r, d, t, k, h⟩
        rw [histAt_op, ended_same (histAt_lib hc tr) (histAt_has hc tr) o (guarded_at hk) hop'] at h
        exact up (ih hk' h)
    · rw [histAt_skip _ _ (fun o he => ho ⟨o, he⟩)] at h
      exact up (ih hk' h)

/-- A row that was given. -/
theorem mem_simGiven {tr : List Ev} {to key i : Nat} {wk : Work} (h : .order to key wk ∈ tr) (ht : wk.tag = EVAL_SIM) (hi : i ∈ wk.rows) :
    i ∈ simGiven tr := by
  simp only [simGiven, List.mem_flatMap]
  exact ⟨_, h, by simp [simRowsOf, ht, hi]⟩

theorem SentTo.given {tr : List Ev} {to key i : Nat} (h : SentTo tr to key i) : i ∈ simGiven tr := by
  obtain ⟨wk, vals, l1, l2, rfl, h1, h2⟩ := h
  exact mem_simGiven (to := to) (key := key) (wk := wk) (by simp) h1 h2

/-- What is marked as started comes after the order. -/
theorem give_new {c : Start} {P : St → Reply → Prop} (hc : c.Std) {p : Ph} {s : St} (hr : Reach c.sp P c.st p s) (hk : OpsOk c s.tr)
    (hn : (simGiven s.tr).Nodup) (h0 : ∀ i ∈ simGiven s.tr, flagAt c.hist.rows .simStarted i = false)
    {post pre : List Ev} {rows : List Nat} {w : Nat} {t : Int} {k : Bool} (he : s.tr = post ++ .op (.giveSim rows w t k) :: pre) :
    rows.Nodup ∧ ∀ i ∈ rows, flagAt (histAt c.hist pre).rows .simStarted i = false := by
  have hg := hr.givF (h0 := c.hist) start_tr rfl
  obtain ⟨k', wk, l, pre', hpre, _, hl, ht, hrow, _⟩ := hg post _ pre he
  have hsub : s.tr = (post ++ [.op (.giveSim rows w t k)] ++ l) ++ .order (idAt c.sp k') w wk :: pre' := by rw [he, hpre]; simp
  have hn1 : (simGiven (.order (idAt c.sp k') w wk :: pre')).Nodup := simGiven_suffix (by rw [← hsub]; exact hn)
  have hn2 : (rows ++ simGiven pre').Nodup := by
    have : simGiven (.order (idAt c.sp k') w wk :: pre') = rows ++ simGiven pre' := by
      simp [simGiven, simRowsOf, ht, hrow]
    rw [← this]; exact hn1
  obtain ⟨n1, _, n3⟩ := List.nodup_append.mp hn2
  refine ⟨n1, fun i hi => ?_⟩
  refine Bool.eq_false_iff.mpr (fun hs => ?_)
  have hig : i ∈ simGiven s.tr := mem_simGiven (to := idAt c.sp k') (key := w) (wk := wk) (by rw [hsub]; simp) ht (by rw [hrow]; exact hi)
  have hpk : OpsOk c pre := OpsOk.suffix (l := post ++ [.op (.giveSim rows w t k)]) (by rw [show post ++ [Ev.op (.giveSim rows w t k)] ++ pre = post ++ .op (.giveSim rows w t k) :: pre by simp, ← he]; exact hk)
  have hnop : ∀ e ∈ l, ∀ o, e ≠ .op o := by
    intro e hel o
    rw [hl] at hel
    split at hel
    · simp at hel
    · simp only [List.mem_singleton] at hel; rw [hel]; simp
  have hh : histAt c.hist pre = histAt c.hist pre' := by
    rw [hpre, histAt_skips _ _ hnop, histAt_skip _ _ (by intro o; simp)]
  rw [hh] at hs
  have hpk' : OpsOk c pre' := OpsOk.suffix (l := l ++ [.order (idAt c.sp k') w wk]) (by simpa [hpre] using hpk)
  rw [flagAt_cell, Option.any_eq_true] at hs
  obtain ⟨v, hv, hne⟩ := hs
  have hz : ∀ x, cell c.hist.rows i .simStarted = some x → x = .s 0 := by
    intro x hx
    have := h0 i hig
    rw [flagAt_cell, hx] at this
    simpa using this
  obtain ⟨po, pr, o, he2, _, hcase⟩ := flag_set hc hpk' .simStarted (.inl rfl) hz hv (by simpa using hne)
  rcases hcase with ⟨_, rows2, w2, t2, k2, rfl, hi2⟩ | ⟨h1, _⟩
  · obtain ⟨k3, wk3, l3, pre3, hpre3, _, _, ht3, hrow3, _⟩ := hg (post ++ [.op (.giveSim rows w t k)] ++ l ++ [.order (idAt c.sp k') w wk] ++ po) (.op (.giveSim rows2 w2 t2 k2)) pr
      (by rw [hsub, he2]; simp)
    refine n3 i hi i (mem_simGiven (to := idAt c.sp k3) (key := w2) (wk := wk3) ?_ ht3 (by rw [hrow3]; exact hi2)) rfl
    rw [he2, hpre3]; simp
  · cases h1

/-- Results are recorded for rows that were not recorded before. -/
theorem back_new {c : Start} {P : St → Reply → Prop} (hc : c.Std) {p : Ph} {s : St} (hr : Reach c.sp P c.st p s) (hk : OpsOk c s.tr)
    (hh : Honest s.tr) (hb : (simBack s.tr).Nodup) (h0 : ∀ i ∈ simGiven s.tr, flagAt c.hist.rows .simEnded i = false)
    {post pre : List Ev} {rows : List Nat} {d : Option Rec} {t : Int} {k : Bool} (he : s.tr = post ++ .op (.simReturn rows d t k) :: pre) :
    rows.Nodup ∧ ∀ i ∈ rows, flagAt (histAt c.hist pre).rows .simEnded i = false := by
  have hb' : (rows ++ simBack pre).Nodup := by
    rw [he] at hb
    simp only [simBack, List.flatMap_append, List.flatMap_cons] at hb
    exact (List.nodup_append.mp hb).2.1
  obtain ⟨n1, _, n3⟩ := List.nodup_append.mp hb'
  refine ⟨n1, fun i hi => ?_⟩
  refine Bool.eq_false_iff.mpr (fun hs => ?_)
  have hpk : OpsOk c pre := OpsOk.suffix (l := post ++ [.op (.simReturn rows d t k)]) (by
    rw [show post ++ [Ev.op (.simReturn rows d t k)] ++ pre = post ++ .op (.simReturn rows d t k) :: pre by simp, ← he]; exact hk)
  obtain ⟨w, m, pre', hpre, hrec, _⟩ := hr.recF start_tr post _ pre he rfl
  cases m with
  | data dd =>
    have hd : dd.isSim = true ∧ dd.rows = rows := ⟨hrec.1, hrec.2.1.symm⟩
    obtain ⟨key, hsent⟩ := hh (post ++ [.op (.simReturn rows d t k)]) w dd pre' (by rw [he, hpre]; simp) hd.1 i (by rw [hd.2]; exact hi)
    have hig : i ∈ simGiven s.tr := by
      have := (hsent.append (l := post ++ [.op (.simReturn rows d t k), .recv w (.data dd)])).given
      rw [he, hpre]; simpa using this
    exact n3 i hi i (ended_back hc hpk (h0 i hig) hs) rfl
  | _ => simp [Records] at hrec

/-- Functions that choose among the waiting rows do not give rows that were marked as started from the beginning. -/
theorem prio_fresh {c : Start} {b : Bundled} (hb : b.byPriority = true) {env : AllocEnv} (hc : c.Std) {p : Ph} {s : St}
    (h : Reach c.sp (b.P env c.sp) c.st p s) :
    c.Protected s.tr → ∀ i ∈ simGiven s.tr ++ handRows p, flagAt c.hist.rows .simStarted i = false := by
  refine h.sends (I := fun p s => c.Protected s.tr → ∀ i ∈ simGiven s.tr ++ handRows p, flagAt c.hist.rows .simStarted i = false) ?_ ?_ ?_ ?_
  · intro _ i hi; simp [start_tr, simGiven, handRows] at hi
  · intro p p' s s' hr hr' ih ⟨l, hl⟩ hg hgo hh hprot i hi
    have hprot' : c.Protected s.tr := by rw [hl] at hprot; exact hprot.suffix
    rw [hg, hh, List.append_nil] at hi
    exact ih hprot' i (List.mem_append_left _ hi)
  · intro s cs work p t hr hP ih hr' hprot i hi
    have hprot' : c.Protected s.tr := hprot.suffix (l := [.op (.requestCancel cs)])
    rcases List.mem_append.mp hi with hi | hi'
    · exact ih hprot' i (List.mem_append_left _ hi)
    · rw [handRows_map] at hi'
      obtain ⟨now, ord, hord, rfl, hcall⟩ := hP.ok
      have hW : IdsOk (ctxOf env c.sp ord (b.marked now s)).W := by have h9 := start_idsOk hr; exact h9
      obtain ⟨_, g2⟩ := prio_answer hb hW hord hcall
      obtain ⟨r, hr1, hr2, _⟩ := mem_waiting.mp (g2 i hi')
      have h6 : (doOp s (.requestCancel (b.cancels (trimH s.hist) now))).1.hist.rows[i]? = some r := by
        have : (trimH (doOp s (.requestCancel (b.cancels (trimH s.hist) now))).1.hist)[i]? = some r := hr1
        simp only [trimH, List.getElem?_take] at this
        split at this
        · exact this
        · simp at this
      refine Bool.eq_false_iff.mpr (fun hs => ?_)
      have hk := start_kept hr' hprot
      have h7 := flag_stays hc (.inl rfl) (tr := []) (l := ({ (doOp s (.requestCancel (b.cancels (trimH s.hist) now))).1 with pinfo := p } : St).tr)
        (by simpa using hk) hs
      rw [List.append_nil, ← start_histAt hr'] at h7
      simp only [flagAt] at h7
      rw [show ({ (doOp s (.requestCancel (b.cancels (trimH s.hist) now))).1 with pinfo := p } : St).hist.rows[i]? = some r from h6] at h7
      simp only [Option.any_some] at h7
      rw [hr2] at h7; simp at h7
  · intro s w wk t rest p' hr hcase hr' ih hprot i hi
    obtain ⟨l, hl, _⟩ := (micros_handOut (sp := c.sp) s wk w t).tr
    have hprot' : c.Protected s.tr := by rw [hl] at hprot; exact hprot.suffix
    apply ih hprot' i
    rw [handRows_cons]
    have key : i ∈ simGiven (handOut c.sp s wk w t).1.tr ∨ i ∈ handRows (.hand rest) := by
      rcases List.mem_append.mp hi with hi | hi
      · exact .inl hi
      · rcases hcase with ⟨rfl, _⟩ | ⟨_, h2⟩
        · exact .inr hi
        · rw [h2] at hi; simp at hi
    rcases key with h3 | h3
    · rcases simGiven_handOut (sp := c.sp) s wk w t with h4 | h4 <;> rw [h4] at h3 <;> simp only [List.mem_append] at h3 ⊢
      · exact .inl h3
      · rcases h3 with h3 | h3
        · exact .inr (.inl h3)
        · exact .inl h3
    · simp [h3]

end Verif.Manager
