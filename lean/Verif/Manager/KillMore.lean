import Verif.Manager.KillCover
/-
Every kill signal belongs to a search; rows whose cancellation was requested are not given.
-/
namespace Verif.Manager
open Verif.History Verif.Res Verif.Sched Verif.Alloc

variable {sp : Specs} {P : St → Reply → Prop} {s0 : St}

/-- Kill signals are sent at the beginning of a pass only: between the pass's test and the signal are only other signals and their marks. -/
def inSearch (pre : List Ev) : Ev → Prop
  | .kill _ _ => ∃ look pre0, pre = look ++ .test 0 :: pre0 ∧ ∀ e ∈ look, isTest e = false
  | _ => True

theorem Reach.inSearch {p : Ph} {s : St} (h : Reach sp P s0 p s) (h0 : s0.tr = []) : Always Manager.inSearch s.tr := by
  have key := h.kills (I := fun _ tr => Always Manager.inSearch tr) ?_ ?_ ?_ ?_ ?_
  · exact key
  · rw [h0]; exact .nil
  · intro l tr ih hl
    refine ih.append (fun e he pre => ?_)
    have := hl e he
    cases e with
    | kill to i => simp [noKill] at this
    | _ => trivial
  · intro tr ih; exact always_cons.mpr ⟨trivial, ih⟩
  · intro tr r ih _; exact always_cons.mpr ⟨trivial, ih⟩
  · intro s hr ih
    obtain ⟨tr0, ht0⟩ : ∃ tr0, s.tr = .test 0 :: tr0 := by cases hr with | test e _ _ => exact ⟨_, rfl⟩
    refine always_of (micros_killCancelled s) ih (fun e he l hl => ?_)
    cases e with
    | kill to i =>
      refine ⟨l, tr0, by rw [ht0], fun e he => ?_⟩
      cases hl e he <;> rfl
    | _ => trivial

/-- The kill signals of a search are those recorded after it. -/
theorem mem_lookKills {post look : List Ev} {to i : Nat} (hl : ∀ e ∈ look, isTest e = false) :
    (to, i) ∈ lookKills (post ++ .kill to i :: look) := by
  have : (post ++ .kill to i :: look).reverse = (look.reverse ++ [Ev.kill to i]) ++ post.reverse := by simp
  simp only [lookKills]
  rw [this, List.takeWhile_append_of_pos (by
    intro e he
    rcases List.mem_append.mp he with he | he
    · simp [hl e (List.mem_reverse.mp he)]
    · simp only [List.mem_singleton] at he; subst he; rfl)]
  simp

/-- The cancellation of the point in row `i` has been requested. -/
def CancelRequested (h : Hist) (i : Nat) : Prop := i < h.index ∧ ∃ r, h.rows[i]? = some r ∧ r.flag .cancelRequested = true

theorem cancelled_iff {h : Hist} {i : Nat} : Cancelled (trimH h) i ↔ CancelRequested h i := by
  simp only [Cancelled, trimH, CancelRequested, List.getElem?_take]
  by_cases hi : i < h.index <;> simp [hi]

theorem cancelRequested_iff {h : Hist} {i : Nat} : CancelRequested h i ↔ i < h.index ∧ ∃ v, cell h.rows i .cancelRequested = some v ∧ v ≠ .s 0 := by
  simp only [CancelRequested, cell]
  refine and_congr_right (fun _ => ?_)
  cases h.rows[i]? with
  | none => simp
  | some r => simp [Row.flag]

/-- Handing out changes neither the requests nor the number of rows. -/
theorem give_cancel {h : Hist} {o : Op} (ho : (∃ r w t k, o = .giveSim r w t k) ∨ ∃ r t, o = .giveGen r t) (i : Nat) :
    CancelRequested (apply h o).1 i ↔ CancelRequested h i := by
  rw [cancelRequested_iff, cancelRequested_iff]
  rcases ho with ⟨inds, w, t, k, rfl⟩ | ⟨inds, t, rfl⟩
  · have hx : (apply h (.giveSim inds w t k)).1.index = h.index ∧
        cell (apply h (.giveSim inds w t k)).1.rows i .cancelRequested = cell h.rows i .cancelRequested := by
      simp only [apply]
      unfold updateXOut
      split
      · exact ⟨rfl, rfl⟩
      · have : cell (updAll (fun r => ((r.set .simStarted (.s 1)).set .simStartedTime (.s t)).set
          .simWorker (.s w)) h.rows inds) i .cancelRequested = cell h.rows i .cancelRequested := by
          apply cell_updAll_frame
          intro r; simp [Row.set]
        simp only
        split
        · split <;> exact ⟨rfl, this⟩
        · exact ⟨rfl, this⟩
    rw [hx.1, hx.2]
  · have hx : (apply h (.giveGen inds t)).1.index = h.index ∧
        cell (apply h (.giveGen inds t)).1.rows i .cancelRequested = cell h.rows i .cancelRequested := by
      simp only [apply]
      unfold updateToGen
      split
      · exact ⟨rfl, rfl⟩
      · split
        · exact ⟨rfl, rfl⟩
        · refine ⟨rfl, ?_⟩
          simp only
          rw [cell_updAll_frame _ _ (by intro r; simp [Row.set])]
          split
          · rw [cell_updAll_frame _ _ (by intro r; simp [Row.set])]
          · split
            · rw [cell_updAll_frame _ _ (by intro r; simp [Row.set])]
            · rfl
    rw [hx.1, hx.2]

theorem handOut_cancel (s : St) (wk : Work) (w : Nat) (t : Int) (i : Nat) :
    CancelRequested (handOut sp s wk w t).1.hist i ↔ CancelRequested s.hist i := by
  refine (micros_handOut (sp := sp) s wk w t).inv (I := fun b => CancelRequested b.hist i ↔ CancelRequested s.hist i) (fun a b m ih => ?_) Iff.rfl
  cases m with
  | op o hq =>
    refine Iff.trans (give_cancel ?_ i) ih
    cases hq with
    | send h => cases h
    | sim h => exact .inl ⟨_, _, _, _, rfl⟩
    | gen h => exact .inr ⟨_, _, rfl⟩
  | mod w f h => rw [modW_hist]; exact ih
  | _ => exact ih

/-- Orders of the bundled functions name no row whose cancellation was requested. -/
theorem not_cancelled {c : Start} {b : Bundled} (hbeh : b.behind c.pinfo []) {env : AllocEnv} {p : Ph} {s : St}
    (h : Reach c.sp (b.P env c.sp) c.st p s) :
    Always (onOrder fun pre _ _ wk => wk.tag = EVAL_SIM → ∀ i ∈ wk.rows, ¬ CancelRequested (histAt c.hist pre) i) s.tr := by
  have h1 : Always (onOrder fun pre _ _ wk => Manager.hasFinal pre = false → wk.tag = EVAL_SIM → ∀ i ∈ wk.rows, ¬ CancelRequested (histAt c.hist pre) i) s.tr := by
    refine h.orders (by rw [start_tr]; exact .nil) (by rw [start_tr]; rfl) (fun pre to key wk hf h => by rw [hf] at h; simp at h) ?_
    intro s w wk t rest k wk' l0 hr _ _ _ hwk hl0 _ ht i hi
    have ht' : wk.tag = EVAL_SIM := by rw [hwk] at ht; exact ht
    have hi' : i ∈ wk.rows := by rw [hwk] at hi; exact hi
    have hq := hr.handQ (Q := fun h _ wk => wk.tag = EVAL_SIM → ∀ i ∈ wk.rows, ¬ CancelRequested h i) (fun s cs work p hr hP e he ht i hi => ?_) ?_
      _ rfl (w, wk, t) (by simp) ht' i hi'
    · rw [start_histAt hr] at hq
      rw [histAt_skips _ _ (by
        intro e he o
        rcases hl0 with rfl | ⟨team, rfl⟩
        · simp at he
        · simp only [List.mem_singleton] at he; rw [he]; simp)]
      exact hq
    · obtain ⟨now, ord, hord, rfl, hcall⟩ := hP.ok
      have hW : IdsOk (ctxOf env c.sp ord (b.marked now s)).W := by have h9 := start_idsOk hr; exact h9
      have h2 := sim_rows_answer hW hord (behind_any hbeh hr rfl) hcall i (by
        simp only [workRows, List.mem_flatMap]
        exact ⟨e, he, by rw [if_pos ht]; exact hi⟩)
      exact fun h => h2 (cancelled_iff.mpr h)
    · intro s wk w t w' wk' hq ht i hi
      rw [handOut_cancel]
      exact hq ht i hi
  intro post e pre he
  cases e with
  | order to key wk =>
    intro ht
    cases hf : Manager.hasFinal pre with
    | false => exact h1 post _ pre he hf ht
    | true =>
      have := h.lateOrders start_tr post _ pre he hf
      rw [this] at ht
      simp [PERSIS_STOP, EVAL_SIM] at ht
  | _ => trivial

end Verif.Manager
