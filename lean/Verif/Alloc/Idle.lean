import Verif.Alloc.Lemmas
/-!
Why an allocation function gives no work although no worker is busy.
-/
namespace Verif.Alloc
open Verif.History Verif.Res Verif.Sched

/-- Requests of this call are not refused for lack of free sets. -/
def Served (c : Ctx) (s : Sched) : Prop :=
  ∀ (p : PInfo) (wid : Nat) (rows given : Option (List Nat)), (updateTeam c p s wid rows given).2 ≠ .error .insufficientFree

theorem served_unmanaged {c : Ctx} (h : c.manage = false) (s : Sched) : Served c s := by
  intro p wid rows given
  simp [updateTeam, h]

theorem simWork_served {c : Ctx} {s : Sched} (h : Served c s) (p : PInfo) (w : Nat) (rows : List Nat) (b : Bool) :
    (simWork c p s w rows b).2 ≠ .error .insufficientFree := by
  simp only [simWork]
  have := h p w (some rows) none
  split
  · rename_i e he
    intro hx; rw [he] at this; simp only [Except.error.injEq] at hx; exact this (by rw [hx])
  · simp

theorem genWork_served {c : Ctx} {s : Sched} (h : Served c s) (p : PInfo) (w : Nat) (fs rows b ar given) :
    (genWork c p s w fs rows b ar given).2 ≠ .error .insufficientFree := by
  simp only [genWork]
  have := h p w none given
  split
  · rename_i e he
    intro hx; rw [he] at this; simp only [Except.error.injEq] at hx; exact this (by rw [hx])
  · simp

theorem dset_ne_nil {β} (l : List (Nat × β)) (k : Nat) (v : β) : dset l k v ≠ [] := by
  cases l with
  | nil => simp [dset]
  | cons x l => obtain ⟨a, b⟩ := x; simp only [dset]; split <;> simp

/-- All workers idle. -/
def AllIdle (W : List Wrk) : Prop := ∀ k ∈ W, k.active = 0

theorem allIdle_countGens {W : List Wrk} (h : AllIdle W) : countGens W = 0 := by
  simp only [countGens, List.countP_eq_zero, decide_eq_true_eq]
  intro k hk; rw [h k hk]; simp [EVAL_GEN]

theorem allIdle_testAnyGen {W : List Wrk} (h : AllIdle W) : testAnyGen W = false := by
  simp only [testAnyGen, List.any_eq_false, decide_eq_true_eq]
  intro k hk; rw [h k hk]; simp [EVAL_GEN]

/-- There is a worker for simulations: the generator workers are not all workers. -/
def HasSimWorker (W : List Wrk) : Prop := ∃ k ∈ W, k.genWorker = false

theorem avail_sims {W : List Wrk} (h : AllIdle W) (hs : HasSimWorker W) :
    ∃ w ws, availIds W none false none (some false) = .ok (w :: ws) := by
  obtain ⟨k, hk, hg⟩ := hs
  simp only [availIds, Bool.false_eq_true, false_and, if_false]
  have hm : k ∈ W.filter fun k => (if false = true then k.activeRecv else decide (k.active = 0)) &&
      (match (none : Option Nat) with | none => true | some p => decide (k.persis = p)) &&
      (!W.any (·.zrw) || match (none : Option Bool) with | none => true | some b => decide (k.zrw = b)) &&
      (!W.any (·.genWorker) || match some false with | none => true | some b => decide (k.genWorker = b)) := by
    rw [List.mem_filter]
    exact ⟨hk, by simp [h k hk, hg]⟩
  cases hx : (W.filter fun k => (if false = true then k.activeRecv else decide (k.active = 0)) &&
      (match (none : Option Nat) with | none => true | some p => decide (k.persis = p)) &&
      (!W.any (·.zrw) || match (none : Option Bool) with | none => true | some b => decide (k.zrw = b)) &&
      (!W.any (·.genWorker) || match some false with | none => true | some b => decide (k.genWorker = b))).map (·.id) with
  | nil => rw [List.map_eq_nil_iff] at hx; rw [hx] at hm; simp at hm
  | cons a l => exact ⟨a, l, by rw [← hx]; rfl⟩

theorem avail_gens {W : List Wrk} (h : AllIdle W) (hs : W ≠ []) :
    ∃ w ws, availIds W none false none (some true) = .ok (w :: ws) := by
  have hm : ∃ k ∈ W, (!W.any (·.genWorker) || decide (k.genWorker = true)) = true := by
    by_cases ha : W.any (·.genWorker) = true
    · obtain ⟨k, hk, hg⟩ := List.any_eq_true.mp ha
      exact ⟨k, hk, by simp [hg]⟩
    · obtain ⟨k, hk⟩ := List.exists_mem_of_ne_nil W hs
      exact ⟨k, hk, by simp [Bool.not_eq_true _ ▸ ha]⟩
  obtain ⟨k, hk, hg⟩ := hm
  cases hx : availIds W none false none (some true) with
  | error e => simp [availIds] at hx
  | ok l =>
    cases l with
    | cons a l => exact ⟨a, l, rfl⟩
    | nil =>
      exfalso
      simp only [availIds, Bool.false_eq_true, false_and, if_false, Except.ok.injEq, List.map_eq_nil_iff, List.filter_eq_nil_iff] at hx
      refine hx k hk ?_
      simp only [h k hk]
      simpa using hg

/-! ### give_sim_work_first -/

theorem gswfSims_keep {c : Ctx} {b : Bool} (ws : List Nat) {st st' : LoopSt} (h : gswfSims c b ws st = .ok st') (hw : st.work ≠ []) :
    st'.work ≠ [] := by
  induction ws generalizing st with
  | nil => simp only [gswfSims, Except.ok.injEq] at h; rw [← h]; exact hw
  | cons w ws ih =>
    simp only [gswfSims] at h
    repeat' split at h
    all_goals first
      | (cases h; done)
      | (cases h; first | exact hw | exact dset_ne_nil _ _ _)
      | exact ih h (dset_ne_nil _ _ _)

theorem gswfSims_gives {c : Ctx} {b : Bool} {w : Nat} {ws : List Nat} {st st' : LoopSt} (hs : Served c st.s)
    (h : gswfSims c b (w :: ws) st = .ok st') : st'.work ≠ [] := by
  simp only [gswfSims] at h
  split at h
  · cases h
  · rename_i l hl
    have h1 := simWork_served hs st.p w l false
    split at h
    · rename_i he; rw [he] at h1; exact absurd rfl h1
    · cases h
    · split at h
      · cases h; exact dset_ne_nil _ _ _
      · exact gswfSims_keep ws h (dset_ne_nil _ _ _)

theorem gswfGens_keep {c : Ctx} {o : UserOpts} (ws : List Nat) {st st' : LoopSt} (h : gswfGens c o ws st = .ok st') (hw : st.work ≠ []) :
    st'.work ≠ [] := by
  induction ws generalizing st with
  | nil => simp only [gswfGens, Except.ok.injEq] at h; rw [← h]; exact hw
  | cons w ws ih =>
    simp only [gswfGens] at h
    repeat' split at h
    all_goals first
      | (cases h; done)
      | (cases h; exact hw)
      | exact ih h (dset_ne_nil _ _ _)

theorem gswfGens_gives {c : Ctx} {o : UserOpts} {w : Nat} {ws : List Nat} {st st' : LoopSt} (hs : Served c st.s)
    (h : gswfGens c o (w :: ws) st = .ok st') (hw : st'.work = []) :
    st.gens ≥ o.numActiveGens.getD (st.gens + 1) ∨ (o.batchMode = true ∧ allSimEnded c.H (fun _ => true) = false) := by
  simp only [gswfGens] at h
  split at h
  · exact .inl ‹_›
  · split at h
    · rename_i hb; right; simpa using hb
    · exfalso
      have h1 := genWork_served hs st.p w c.genIn (if c.genIn.isEmpty then [] else List.range c.H.length) false none none
      split at h
      · rename_i he; rw [he] at h1; exact absurd rfl h1
      · cases h
      · exact gswfGens_keep ws h (dset_ne_nil _ _ _) hw

/-- `give_sim_work_first` with no worker busy gives no work only if no simulations may be given, or no row is waiting and no generator may be called. -/
theorem gswf_idle {c : Ctx} {o : UserOpts} {p : PInfo} {s : Sched} {a : Answer} (hs : Served c s) (hi : AllIdle c.W) (hw : HasSimWorker c.W)
    (ha : c.anyIdle = true) (h : giveSimWorkFirst c o p s = .ok a) (hn : a.work = []) :
    c.simMaxGiven = true ∨ o.numActiveGens = some 0 ∨ (waiting c.H = [] ∧ o.batchMode = true ∧ allSimEnded c.H (fun _ => true) = false) := by
  have hne : c.W ≠ [] := by obtain ⟨k, hk, _⟩ := hw; exact List.ne_nil_of_mem hk
  unfold giveSimWorkFirst at h
  split at h
  · rename_i h1
    left
    simpa [ha] using h1
  · right
    dsimp only at h
    split at h
    · rename_i hp
      obtain ⟨w, ws, hws⟩ := avail_gens hi hne
      rw [hws] at h
      simp only at h
      cases hg : gswfGens c o (w :: ws) ⟨s, [], waiting c.H, countGens c.W, p⟩ with
      | error e => rw [hg] at h; cases h
      | ok st =>
        rw [hg] at h
        cases h
        rcases gswfGens_gives hs hg hn with h2 | h2
        · left
          simp only [allIdle_countGens hi] at h2
          cases hx : o.numActiveGens with
          | none => rw [hx] at h2; simp at h2
          | some m => rw [hx] at h2; simp at h2; rw [h2]
        · right; exact ⟨by simpa using hp, h2⟩
    · obtain ⟨w, ws, hws⟩ := avail_sims hi hw
      rw [hws] at h
      simp only at h
      cases hg : gswfSims c o.batchGive (w :: ws) ⟨s, [], waiting c.H, countGens c.W, p⟩ with
      | error e => rw [hg] at h; cases h
      | ok st => rw [hg] at h; cases h; exact absurd hn (gswfSims_gives hs hg)

/-! ### fast_alloc -/

theorem fastSims_keep {c : Ctx} (ws : List Nat) {st st' : LoopSt} (h : fastSims c ws st = .ok st') (hw : st.work ≠ []) :
    st'.work ≠ [] := by
  induction ws generalizing st with
  | nil => simp only [fastSims, Except.ok.injEq] at h; rw [← h]; exact hw
  | cons w ws ih =>
    simp only [fastSims] at h
    repeat' split at h
    all_goals first
      | (cases h; done)
      | (cases h; exact hw)
      | exact ih h (dset_ne_nil _ _ _)
      | exact ih h hw

/-- Without work the pointer is behind the last row and the scheduler is as before. -/
theorem fastSims_gives {c : Ctx} (ws : List Nat) {st st' : LoopSt} (hs : Served c st.s) (hne : ws ≠ [])
    (h : fastSims c ws st = .ok st') (hw : st'.work = []) :
    st'.s = st.s ∧ st'.gens = st.gens ∧ ∀ n, st'.p.nextToGive = some n → c.H.length ≤ n := by
  induction ws generalizing st with
  | nil => exact absurd rfl hne
  | cons w ws ih =>
    simp only [fastSims] at h
    split at h
    · cases h
    · rename_i n0 hn0
      split at h
      · exfalso
        have h1 := simWork_served hs { st.p with nextToGive := some (skipCanceled c.H n0) } w [skipCanceled c.H n0] false
        split at h
        · rename_i he; rw [he] at h1; exact absurd rfl h1
        · cases h
        · exact fastSims_keep ws h (dset_ne_nil _ _ _) hw
      · rename_i hlt
        by_cases hws : ws = []
        · subst hws
          simp only [fastSims, Except.ok.injEq] at h
          subst h
          refine ⟨rfl, rfl, fun n hn => ?_⟩
          simp only [Option.some.injEq] at hn
          omega
        · exact ih (st := { st with p := { st.p with nextToGive := some (skipCanceled c.H n0) } }) hs hws h

theorem fastGens_keep {c : Ctx} {o : UserOpts} (ws : List Nat) {st st' : LoopSt} (h : fastGens c o ws st = .ok st') (hw : st.work ≠ []) :
    st'.work ≠ [] := by
  induction ws generalizing st with
  | nil => simp only [fastGens, Except.ok.injEq] at h; rw [← h]; exact hw
  | cons w ws ih =>
    simp only [fastGens] at h
    repeat' split at h
    all_goals first
      | (cases h; done)
      | (cases h; exact hw)
      | exact ih h (dset_ne_nil _ _ _)
      | exact ih h hw

theorem fast_idle {c : Ctx} {o : UserOpts} {p : PInfo} {s : Sched} {a : Answer} (hs : Served c s) (hi : AllIdle c.W) (hw : HasSimWorker c.W)
    (ha : c.anyIdle = true) (h : fastAlloc c o p s = .ok a) (hn : a.work = []) :
    c.simMaxGiven = true ∨ o.numActiveGens = some 0 := by
  have hne : c.W ≠ [] := by obtain ⟨k, hk, _⟩ := hw; exact List.ne_nil_of_mem hk
  unfold fastAlloc at h
  split at h
  · rename_i h1
    left
    simpa [ha] using h1
  · right
    obtain ⟨w, ws, hws⟩ := avail_sims hi hw
    obtain ⟨w', ws', hws'⟩ := avail_gens hi hne
    rw [hws, hws'] at h
    simp only at h
    cases hg : fastSims c (w :: ws) ⟨s, [], [], countGens c.W, p⟩ with
    | error e => rw [hg] at h; cases h
    | ok st =>
      rw [hg] at h
      simp only at h
      split at h
      · cases h
      · rename_i n hn0
        by_cases hwk : st.work = []
        · obtain ⟨h1, h2, h3⟩ := fastSims_gives (w :: ws) hs (by simp) hg hwk
          rw [if_pos (h3 n hn0)] at h
          cases hf : fastGens c o (w' :: ws') st with
          | error e => rw [hf] at h; cases h
          | ok st2 =>
            rw [hf] at h
            cases h
            simp only [fastGens, hwk, List.map_nil, List.not_mem_nil, not_false_eq_true, true_and] at hf
            rw [h2, allIdle_countGens hi] at hf
            cases hx : o.numActiveGens with
            | some m =>
              cases m with
              | zero => rfl
              | succ m =>
                exfalso
                rw [hx] at hf
                rw [if_pos (by simp)] at hf
                have h4 := genWork_served (by rw [h1]; exact hs : Served c st.s) st.p w' c.genIn (if c.genIn.isEmpty then [] else List.range c.H.length) false none none
                split at hf
                · rename_i he; rw [he] at h4; exact absurd rfl h4
                · cases hf
                · split at hf
                  · cases hf
                  · exact fastGens_keep ws' hf (dset_ne_nil _ _ _) hn
            | none =>
                exfalso
                rw [hx] at hf
                rw [if_pos (by simp)] at hf
                have h4 := genWork_served (by rw [h1]; exact hs : Served c st.s) st.p w' c.genIn (if c.genIn.isEmpty then [] else List.range c.H.length) false none none
                split at hf
                · rename_i he; rw [he] at h4; exact absurd rfl h4
                · cases hf
                · split at hf
                  · cases hf
                  · exact fastGens_keep ws' hf (dset_ne_nil _ _ _) hn
        · exfalso
          split at h
          · cases hf : fastGens c o (w' :: ws') st with
            | error e => rw [hf] at h; cases h
            | ok st2 => rw [hf] at h; cases h; exact fastGens_keep _ hf hwk hn
          · cases h; exact hwk hn

/-! ### ensure_one_active_gen, give_pregenerated_sim_work -/

theorem orderSims_keep {c : Ctx} (ws : List Nat) {st st' : LoopSt} (h : orderSims c ws st = .ok st') (hw : st.work ≠ []) :
    st'.work ≠ [] := by
  induction ws generalizing st with
  | nil => simp only [orderSims, Except.ok.injEq] at h; rw [← h]; exact hw
  | cons w ws ih =>
    simp only [orderSims] at h
    repeat' split at h
    all_goals first
      | (cases h; done)
      | (cases h; first | exact hw | exact dset_ne_nil _ _ _)
      | exact ih h (dset_ne_nil _ _ _)

theorem orderSims_gives {c : Ctx} {w : Nat} {ws : List Nat} {st st' : LoopSt} (hs : Served c st.s)
    (h : orderSims c (w :: ws) st = .ok st') : st'.work ≠ [] := by
  simp only [orderSims] at h
  split at h
  · cases h
  · rename_i n0 _
    have h1 := simWork_served hs { st.p with nextToGive := some (skipCanceled c.H n0) } w [skipCanceled c.H n0] false
    split at h
    · rename_i he; rw [he] at h1; exact absurd rfl h1
    · cases h
    · split at h
      · cases h; exact dset_ne_nil _ _ _
      · exact orderSims_keep ws h (dset_ne_nil _ _ _)

theorem pregen_idle {c : Ctx} {p : PInfo} {s : Sched} {a : Answer} (hs : Served c s) (hi : AllIdle c.W) (hw : HasSimWorker c.W)
    (ha : c.anyIdle = true) (h : pregenAlloc c p s = .ok a) (hn : a.work = []) : c.simMaxGiven = true ∨ a.flag = true := by
  unfold pregenAlloc at h
  split at h
  · rename_i h1
    left
    simpa [ha] using h1
  · right
    dsimp only at h
    split at h
    · cases h; rfl
    · obtain ⟨w, ws, hws⟩ := avail_sims hi hw
      rw [hws] at h
      simp only at h
      cases hg : orderSims c (w :: ws) ⟨s, [], [], 0, { p with nextToGive := some (p.nextToGive.getD 0) }⟩ with
      | error e => rw [hg] at h; cases h
      | ok st => rw [hg] at h; cases h; exact absurd hn (orderSims_gives hs hg)

/-- `ensure_one_active_gen`: all rows are given or passed over, and some are not evaluated. -/
theorem oneGen_idle {c : Ctx} {p : PInfo} {s : Sched} {a : Answer} (hs : Served c s) (hi : AllIdle c.W) (hw : HasSimWorker c.W)
    (ha : c.anyIdle = true) (h : oneGenAlloc c p s = .ok a) (hn : a.work = []) :
    c.simMaxGiven = true ∨ ∃ n, p.nextToGive = some n ∧ c.H.length ≤ n ∧ allSimEnded c.H (fun _ => true) = false := by
  have hne : c.W ≠ [] := by obtain ⟨k, hk, _⟩ := hw; exact List.ne_nil_of_mem hk
  unfold oneGenAlloc at h
  split at h
  · rename_i h1
    left
    simpa [ha] using h1
  · right
    obtain ⟨w, ws, hws⟩ := avail_sims hi hw
    obtain ⟨w', ws', hws'⟩ := avail_gens hi hne
    rw [hws, hws', allIdle_testAnyGen hi] at h
    split at h
    · cases h
    · rename_i n hn0
      split at h
      · exfalso
        simp only at h
        cases hg : orderSims c (w :: ws) ⟨s, [], [], 0, p⟩ with
        | error e => rw [hg] at h; cases h
        | ok st => rw [hg] at h; cases h; exact orderSims_gives hs hg hn
      · rename_i hlt
        refine ⟨n, hn0, by omega, ?_⟩
        simp only [Bool.false_eq_true, if_false] at h
        split at h
        · rename_i hb; simpa using hb
        · exfalso
          have h4 := genWork_served hs p w' c.genIn (if c.genIn.isEmpty then [] else List.range c.H.length) false none none
          split at h
          · rename_i he; rw [he] at h4; exact absurd rfl h4
          · cases h
          · split at h
            · cases h
            · cases h; simp at hn

/-! ### only_persistent_gens -/

theorem opgReturns_keep {c : Ctx} {o : UserOpts} {b : Bool} (ws : List Nat) {st st' : LoopSt} (h : opgReturns c o b ws st = .ok st')
    (hw : st.work ≠ []) : st'.work ≠ [] := by
  induction ws generalizing st with
  | nil => simp only [opgReturns, Except.ok.injEq] at h; rw [← h]; exact hw
  | cons w ws ih =>
    simp only [opgReturns] at h
    repeat' split at h
    all_goals first
      | (cases h; done)
      | exact ih h (dset_ne_nil _ _ _)
      | exact ih h hw

theorem opgReturns_none {c : Ctx} {o : UserOpts} {b : Bool} (ws : List Nat) {st st' : LoopSt} (h : opgReturns c o b ws st = .ok st')
    (hw : st'.work = []) :
    st' = st ∧ ∀ w ∈ ws, rowsWhere c.H (fun r => r.flag .simEnded && !r.flag .genInformed && ofGen w r) = [] ∨
      (b = false ∧ allSimEnded c.H (ofGen w) = false) := by
  induction ws generalizing st with
  | nil => simp only [opgReturns, Except.ok.injEq] at h; exact ⟨h.symm, by simp⟩
  | cons w ws ih =>
    simp only [opgReturns] at h
    split at h
    · exfalso
      split at h
      · cases h
      · exact opgReturns_keep ws h (dset_ne_nil _ _ _) hw
    · rename_i hc
      obtain ⟨h1, h2⟩ := ih h
      refine ⟨h1, fun w' hw' => ?_⟩
      rcases List.mem_cons.mp hw' with rfl | hw'
      · by_cases he : rowsWhere c.H (fun r => r.flag .simEnded && !r.flag .genInformed && ofGen w' r) = []
        · exact .inl he
        · right
          simp only [Bool.and_eq_true, Bool.not_eq_true', List.isEmpty_eq_false_iff, ne_eq, Bool.or_eq_true, not_and, not_or] at hc
          have := hc he
          simpa using this
      · exact h2 w' hw'

theorem opgSims_keep {c : Ctx} {o : UserOpts} (ws : List Nat) {st st' : LoopSt} (h : opgSims c o ws st = .ok st') (hw : st.work ≠ []) :
    st'.work ≠ [] := by
  induction ws generalizing st with
  | nil => simp only [opgSims, Except.ok.injEq] at h; rw [← h]; exact hw
  | cons w ws ih =>
    simp only [opgSims] at h
    repeat' split at h
    all_goals first
      | (cases h; done)
      | (cases h; exact hw)
      | exact ih h (dset_ne_nil _ _ _)

theorem opgSims_none {c : Ctx} {o : UserOpts} (ws : List Nat) {st st' : LoopSt} (hs : Served c st.s) (h : opgSims c o ws st = .ok st')
    (hw : st'.work = []) : st' = st ∧ (ws = [] ∨ st.pts = []) := by
  cases ws with
  | nil => simp only [opgSims, Except.ok.injEq] at h; exact ⟨h.symm, .inl rfl⟩
  | cons w ws =>
    simp only [opgSims] at h
    split at h
    · rename_i he; cases h; exact ⟨rfl, .inr (by simpa using he)⟩
    · exfalso
      split at h
      · cases h
      · rename_i ids _
        have h1 := simWork_served hs st.p w ids o.altType
        split at h
        · rename_i he; rw [he] at h1; exact absurd rfl h1
        · cases h
        · exact opgSims_keep ws h (dset_ne_nil _ _ _) hw

theorem opgGens_keep {c : Ctx} {o : UserOpts} (ws : List Nat) {st st' : LoopSt} (h : opgGens c o ws st = .ok st') (hw : st.work ≠ []) :
    st'.work ≠ [] := by
  induction ws generalizing st with
  | nil => simp only [opgGens, Except.ok.injEq] at h; rw [← h]; exact hw
  | cons w ws ih =>
    simp only [opgGens] at h
    repeat' split at h
    all_goals first
      | (cases h; done)
      | (cases h; exact hw)
      | exact ih h (dset_ne_nil _ _ _)
      | exact ih h hw

theorem opgGens_none {c : Ctx} {o : UserOpts} (ws : List Nat) {st st' : LoopSt} (hs : Served c st.s) (h : opgGens c o ws st = .ok st')
    (hw : st'.work = []) : ws = [] ∨ o.numActiveGens.getD 1 ≤ st.gens := by
  induction ws generalizing st with
  | nil => exact .inl rfl
  | cons w ws ih =>
    simp only [opgGens] at h
    split at h
    · exfalso
      have h1 := genWork_served hs st.p w c.genIn (List.range c.H.length) true (some o.activeRecvGen) none
      split at h
      · rename_i he; rw [he] at h1; exact absurd rfl h1
      · cases h
      · exact opgGens_keep ws h (dset_ne_nil _ _ _) hw
    · rename_i hg; right; omega

/-- `only_persistent_gens` without work. -/
theorem opg_idle {c : Ctx} {o : UserOpts} {p : PInfo} {s : Sched} {a : Answer} (hs : Served c s)
    (ha : c.anyIdle = true) (h : onlyPersistentGens c o p s = .ok a) (hn : a.work = []) (hf : a.flag = false) :
    c.simMaxGiven = true ∨
    (waiting c.H ≠ [] ∧ opgSimWorkers c o = .ok []) ∨
    (waiting c.H = [] ∧
      (∀ ws, availIds c.W (some EVAL_GEN) o.activeRecvGen none none = .ok ws → ∀ w ∈ ws,
        rowsWhere c.H (fun r => r.flag .simEnded && !r.flag .genInformed && ofGen w r) = [] ∨ allSimEnded c.H (ofGen w) = false) ∧
      (availIds c.W (some 0) false (some true) (some true) = .ok [] ∨ o.numActiveGens.getD 1 ≤ countPersisGens c.W)) := by
  unfold onlyPersistentGens at h
  split at h
  · rename_i h1
    left
    simpa [ha] using h1
  · right
    dsimp only at h
    split at h
    · cases h; cases hf
    · split at h
      · cases h
      · rename_i ws0 hws0
        split at h
        · cases h
        · rename_i st1 hst1
          split at h
          · cases h
          · rename_i ws1 hws1
            split at h
            · cases h
            · rename_i st2 hst2
              have key : st2.work = [] := by
                rcases Classical.em (st2.work = []) with h5 | h5
                · exact h5
                · exfalso
                  split at h
                  · split at h
                    · cases h
                    · rename_i ws2 _
                      cases hg : opgGens c o ws2 st2 with
                      | error e => rw [hg] at h; cases h
                      | ok st3 => rw [hg] at h; cases h; exact opgGens_keep _ hg h5 hn
                  · cases h; exact h5 hn
              have key1 : st1.work = [] := by
                rcases Classical.em (st1.work = []) with h5 | h5
                · exact h5
                · exact absurd key (opgSims_keep _ hst2 h5)
              obtain ⟨r1, r2⟩ := opgReturns_none ws0 hst1 key1
              subst r1
              obtain ⟨q1, q2⟩ := opgSims_none ws1 hs hst2 key
              subst q1
              dsimp only at h q2
              split at h
              · rename_i hp
                right
                refine ⟨by simpa using hp, fun ws hws w hw => ?_, ?_⟩
                · rw [hws0] at hws
                  cases hws
                  exact (r2 w hw).imp id (·.2)
                · split at h
                  · cases h
                  · rename_i ws2 hws2
                    cases hg : opgGens c o ws2 ⟨s, [], waiting c.H, countPersisGens c.W, p⟩ with
                    | error e => rw [hg] at h; cases h
                    | ok st3 =>
                      rw [hg] at h; cases h
                      rcases opgGens_none ws2 hs hg hn with h6 | h6
                      · left; rw [hws2, h6]
                      · right; exact h6
              · rename_i hp
                left
                have hp' : waiting c.H ≠ [] := by simpa using hp
                refine ⟨hp', ?_⟩
                rcases q2 with q2 | q2
                · rw [hws1, q2]
                · exact absurd q2 hp'

end Verif.Alloc
