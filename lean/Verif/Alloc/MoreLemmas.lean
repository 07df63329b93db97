import Verif.Alloc.More
import Verif.Alloc.Funcs
/-! Helper lemmas: what the functions of `More.lean` hand out. -/
namespace Verif.Alloc
open Verif.History Verif.Res Verif.Sched

/-- Rows handed out chunk by chunk, each chosen by `pick` from what is left. -/
def Picked (pick : List Nat → List Nat) : List Nat → List (List Nat) → List Nat → Prop
  | pts, [], pts' => pts' = pts
  | pts, ids :: r, pts' => pts ≠ [] ∧ ids = pick pts ∧ Picked pick (pts.filter fun i => decide (i ∉ ids)) r pts'

theorem Picked.parts {pick : List Nat → List Nat} (hpick : ∀ pts, (pick pts).Sublist pts) :
    ∀ {chunks : List (List Nat)} {pts pts' : List Nat}, Picked pick pts chunks pts' → pts.Nodup →
    chunks.flatten.Nodup ∧ (∀ i ∈ chunks.flatten, i ∈ pts) ∧ pts' = pts.filter (fun i => decide (i ∉ chunks.flatten)) := by
  intro chunks
  induction chunks with
  | nil =>
    intro pts pts' h _
    refine ⟨by simp, by simp, ?_⟩
    rw [show pts' = pts from h, List.filter_eq_self.mpr (by simp)]
  | cons ids r ih =>
    intro pts pts' h hnd
    obtain ⟨_, h1, h2⟩ := h
    have hsub : ids.Sublist pts := by rw [h1]; exact hpick pts
    obtain ⟨i1, i2, i3⟩ := ih h2 (List.Pairwise.filter _ hnd)
    rw [List.flatten_cons]
    refine ⟨?_, ?_, ?_⟩
    · rw [List.nodup_append]
      refine ⟨hsub.nodup hnd, i1, ?_⟩
      intro a ha b hb hab
      subst hab
      have := i2 a hb
      rw [List.mem_filter] at this
      simp at this
      exact this.2 ha
    · intro i hi
      rcases List.mem_append.mp hi with hi | hi
      · exact hsub.subset hi
      · exact (List.mem_filter.mp (i2 i hi)).1
    · rw [i3, List.filter_filter]
      apply List.filter_congr
      intro x _
      rw [Bool.eq_iff_iff]
      simp [not_or]
      exact and_comm

theorem simWork_free {c : Ctx} (hm : c.manage = false) (p : PInfo) (s : Sched) (w : Nat) (rows : List Nat) (pers : Bool) :
    ∃ wk, simWork c p s w rows pers = (s, .ok wk) := by
  unfold simWork updateTeam
  rw [if_neg (by simp [hm])]
  exact ⟨_, rfl⟩

theorem pickSims_spec (c : Ctx) (pick : List Nat → List Nat) : ∀ (ws : List Nat) (st st' : LoopSt), pickSims c pick ws st = .ok st' →
    ∃ es : WorkD, Steps c st.s es st'.s ∧ st'.work = puts st.work es ∧ (keys es).Sublist ws ∧
      (∀ e ∈ es, SimShape c false e.2) ∧ Picked pick st.pts (rowsOf es) st'.pts ∧ st'.p = st.p ∧
      st'.gens = st.gens ∧ (c.manage = false → st'.pts = [] ∨ keys es = ws) := by
  intro ws
  induction ws with
  | nil =>
    intro st st' h
    unfold pickSims at h
    cases h
    exact ⟨[], .nil _, rfl, List.Sublist.refl _, by simp, rfl, rfl, rfl, fun _ => .inr rfl⟩
  | cons w ws ih =>
    intro st st' h
    unfold pickSims at h
    split at h
    · rename_i he
      cases h
      exact ⟨[], .nil _, rfl, List.nil_sublist _, by simp, rfl, rfl, rfl, fun _ => .inl (by simpa using he)⟩
    · rename_i hne
      split at h
      · rename_i s' hsw
        cases h
        refine ⟨[], .fail _ w _ _ (simWork_err hsw) (.nil _), rfl, List.nil_sublist _, by simp, rfl, rfl, rfl, fun hm => ?_⟩
        obtain ⟨wk, hwk⟩ := simWork_free hm st.p st.s w (pick st.pts) false
        rw [hwk] at hsw
        injection hsw with _ h2; cases h2
      · cases h
      · rename_i s' wk hsw
        obtain ⟨hu, ht, hf, hr, hp, ha⟩ := simWork_ok hsw
        obtain ⟨es, h1, h2, h3, h4, h5, h6, h7, h8⟩ := ih _ _ h
        refine ⟨(w, wk) :: es, .cons _ w _ wk hu h1, h2, ?_, ?_, ?_, h6, h7, fun hm => ?_⟩
        · exact List.Sublist.cons_cons w h3
        · intro e he
          rcases List.mem_cons.mp he with e1 | he
          · subst e1; exact ⟨ht, hf, hp, ha⟩
          · exact h4 e he
        · exact ⟨by simpa using hne, hr, by show Picked pick (st.pts.filter fun i => decide (i ∉ wk.rows)) _ _; rw [hr]; exact h5⟩
        · rcases h8 hm with h | h
          · exact .inl h
          · exact .inr (by simp only [keys, List.map_cons] at h ⊢; rw [h])

theorem startFirst_spec {c : Ctx} {pers : Bool} {given : Option (List Nat)} (hg : given = none ∨ given = some []) {st st' : LoopSt}
    (h : startFirst c pers given st = .ok st') :
    ∃ w wk ws, availIds c.W (some 0) false none (some true) = .ok (w :: ws) ∧ Steps c st.s [(w, wk)] st'.s ∧
      st'.work = puts st.work [(w, wk)] ∧ GenShape c.genIn [] pers none wk ∧ st'.p = st.p := by
  unfold startFirst at h
  split at h
  · cases h
  · cases h
  · rename_i w ws hws
    split at h
    · cases h
    · rename_i s' wk hgw
      obtain ⟨hu, ht, hf, hr, hp, ha⟩ := genWork_ok hgw
      cases h
      refine ⟨w, wk, ws, hws, ?_, rfl, ⟨ht, hf, hr, hp, ha⟩, rfl⟩
      rcases hg with rfl | rfl
      · exact .cons _ w _ wk hu (.nil _)
      · by_cases hm : c.manage = true
        · refine .cons st.p w none wk ?_ (.nil _)
          rw [← hu]
          unfold updateTeam
          simp [hm]
        · unfold updateTeam at hu
          rw [if_neg (fun h => hm h.1)] at hu
          injection hu with h1 h2
          injection h2 with h2
          rw [h1]
          exact .free w wk (by simpa using hm) h2.symm (.nil _)

theorem fdReturns_spec (c : Ctx) (o : FdOpts) : ∀ (ws : List Nat) (st st' : LoopSt), fdReturns c o ws st = .ok st' →
    ∃ es : WorkD, Steps c st.s es st'.s ∧ st'.work = puts st.work es ∧ keys es = (if fdBack c.H o = [] then [] else ws) ∧
      (∀ e ∈ es, GenShape c.persisIn (fdBack c.H o) true none e.2) ∧ st'.p = st.p ∧ st'.gens = st.gens ∧ st'.pts = st.pts := by
  intro ws
  induction ws with
  | nil =>
    intro st st' h
    unfold fdReturns at h
    cases h
    exact ⟨[], .nil _, rfl, by simp [keys], by simp, rfl, rfl, rfl⟩
  | cons w ws ih =>
    intro st st' h
    unfold fdReturns at h
    split at h
    · rename_i he
      have he' : fdBack c.H o = [] := by simpa using he
      obtain ⟨es, h1, h2, h3, h4, h5⟩ := ih _ _ h
      exact ⟨es, h1, h2, by rw [h3, if_pos he', if_pos he'], h4, h5⟩
    · rename_i hne
      have hne' : fdBack c.H o ≠ [] := by simpa using hne
      split at h
      · cases h
      · rename_i s' wk hgw
        obtain ⟨hu, ht, hf, hr, hp, ha⟩ := genWork_ok hgw
        obtain ⟨es, h1, h2, h3, h4, h5⟩ := ih _ _ h
        refine ⟨(w, wk) :: es, .cons _ w _ wk hu h1, h2, ?_, ?_, h5⟩
        · rw [if_neg hne'] at h3 ⊢
          simp only [keys, List.map_cons] at h3 ⊢
          rw [h3]
        · intro e he
          rcases List.mem_cons.mp he with e1 | he
          · subst e1; exact ⟨ht, hf, hr, hp, ha⟩
          · exact h4 e he

theorem ibReturns_spec (c : Ctx) (o : IbOpts) (like : Field) : ∀ (ws : List Nat) (st st' : LoopSt), ibReturns c o like ws st = .ok st' →
    ∃ es : WorkD, Steps c st.s es st'.s ∧ st'.work = puts st.work es ∧ keys es = ws.filter (fun w => allSimEnded c.H (ofGen w)) ∧
      (∀ e ∈ es, e.2.tag = EVAL_GEN ∧ ∃ rows, ibBack c.H o e.1 = .ok rows ∧ GenShape [like] rows true none e.2) ∧
      st'.p = st.p ∧ st'.gens = st.gens ∧ st'.pts = st.pts := by
  intro ws
  induction ws with
  | nil =>
    intro st st' h
    unfold ibReturns at h
    cases h
    exact ⟨[], .nil _, rfl, by simp [keys], by simp, rfl, rfl, rfl⟩
  | cons w ws ih =>
    intro st st' h
    unfold ibReturns at h
    split at h
    · rename_i hall
      split at h
      · cases h
      · rename_i rows hrows
        split at h
        · split at h
          · cases h
          · rename_i s' wk hgw
            obtain ⟨hu, ht, hf, hr, hp, ha⟩ := genWork_ok hgw
            obtain ⟨es, h1, h2, h3, h4, h5⟩ := ih _ _ h
            refine ⟨(w, wk) :: es, .cons _ w _ wk hu h1, h2, ?_, ?_, h5⟩
            · rw [List.filter_cons, if_pos hall, ← h3]; rfl
            · intro e he
              rcases List.mem_cons.mp he with e1 | he
              · subst e1; exact ⟨ht, rows, hrows, ht, hf, hr, hp, ha⟩
              · exact h4 e he
        · cases h
    · rename_i hall
      obtain ⟨es, h1, h2, h3, h4, h5⟩ := ih _ _ h
      exact ⟨es, h1, h2, by rw [List.filter_cons, if_neg hall, h3], h4, h5⟩

theorem loReturns_spec (c : Ctx) : ∀ (ws : List Nat) (st st' : LoopSt), loReturns c ws st = .ok st' →
    ∃ es : WorkD, Steps c st.s es st'.s ∧ st'.work = puts st.work es ∧ keys es = ws.filter (fun w => allSimEnded c.H (ofGen w)) ∧
      (∀ e ∈ es, ∃ i is, rowsWhere c.H (ofGen e.1) = i :: is ∧
        GenShape c.persisIn [argMax (intAt c.H .simStartedTime) i is] true none e.2) ∧
      st'.p = st.p ∧ st'.gens = st.gens ∧ st'.pts = st.pts := by
  intro ws
  induction ws with
  | nil =>
    intro st st' h
    unfold loReturns at h
    cases h
    exact ⟨[], .nil _, rfl, by simp [keys], by simp, rfl, rfl, rfl⟩
  | cons w ws ih =>
    intro st st' h
    unfold loReturns at h
    split at h
    · rename_i hall
      split at h
      · cases h
      · rename_i i is hrows
        split at h
        · cases h
        · rename_i s' wk hgw
          obtain ⟨hu, ht, hf, hr, hp, ha⟩ := genWork_ok hgw
          obtain ⟨es, h1, h2, h3, h4, h5⟩ := ih _ _ h
          refine ⟨(w, wk) :: es, .cons _ w _ wk hu h1, h2, ?_, ?_, h5⟩
          · rw [List.filter_cons, if_pos hall, ← h3]; rfl
          · intro e he
            rcases List.mem_cons.mp he with e1 | he
            · subst e1; exact ⟨i, is, hrows, ht, hf, hr, hp, ha⟩
            · exact h4 e he
    · rename_i hall
      obtain ⟨es, h1, h2, h3, h4, h5⟩ := ih _ _ h
      exact ⟨es, h1, h2, by rw [List.filter_cons, if_neg hall, h3], h4, h5⟩

/-- Runs started one after the other. -/
def Started (c : Ctx) (o : LoOpts) : List Nat → WorkD → Prop
  | _, [] => True
  | started, e :: es => ∃ i is, loCand c o started = i :: is ∧
      GenShape c.persisIn [argMax (fun j => -intAt c.H o.f j) i is] true none e.2 ∧
      Started c o (started ++ [argMax (fun j => -intAt c.H o.f j) i is]) es

theorem loStarts_spec (c : Ctx) (o : LoOpts) : ∀ (ws started : List Nat) (st st' : LoopSt), loStarts c o ws started st = .ok st' →
    ∃ es : WorkD, Steps c st.s es st'.s ∧ st'.work = puts st.work es ∧ (keys es).Sublist ws ∧ Started c o started es ∧
      st'.gens = st.gens + es.length ∧ (es ≠ [] → st.gens + es.length < c.W.length) ∧ st'.p = st.p ∧ st'.pts = st.pts := by
  intro ws
  induction ws with
  | nil =>
    intro started st st' h
    unfold loStarts at h
    cases h
    exact ⟨[], .nil _, rfl, List.Sublist.refl _, trivial, rfl, by simp, rfl, rfl⟩
  | cons w ws ih =>
    intro started st st' h
    unfold loStarts at h
    split at h
    · obtain ⟨es, h1, h2, h3, h4⟩ := ih _ _ _ h
      exact ⟨es, h1, h2, List.Sublist.cons w h3, h4⟩
    · rename_i i is hc
      split at h
      · rename_i hlt
        simp only at h
        split at h
        · rename_i s' hgw
          cases h
          exact ⟨[], .fail _ w _ _ (genWork_err hgw) (.nil _), rfl, List.nil_sublist _, trivial, rfl, by simp, rfl, rfl⟩
        · cases h
        · rename_i s' wk hgw
          obtain ⟨hu, ht, hf, hr, hp, ha⟩ := genWork_ok hgw
          obtain ⟨es, h1, h2, h3, h4, h5, h6, h7, h8⟩ := ih _ _ _ h
          refine ⟨(w, wk) :: es, .cons _ w _ wk hu h1, h2, List.Sublist.cons_cons w h3, ⟨i, is, hc, ⟨ht, hf, hr, hp, ha⟩, h4⟩, ?_, ?_, h7, h8⟩
          · rw [h5, List.length_cons]; simp only; omega
          · intro _
            simp only [List.length_cons] at *
            cases es with
            | nil => simpa using hlt
            | cons e es => have := h6 (by simp); omega
      · obtain ⟨es, h1, h2, h3, h4⟩ := ih _ _ _ h
        exact ⟨es, h1, h2, List.Sublist.cons w h3, h4⟩

/-! ### The answers -/

/-- The parts of an answer, in the order in which they are written into the dictionary: results returned to running generators,
generators started, evaluations, a last generator. -/
structure MoreParts (c : Ctx) (pick : List Nat → List Nat) (p : PInfo) (s : Sched) (a : Answer) (rets starts sims gens : WorkD)
    (wr wg wsim pts' : List Nat) : Prop where
  steps : ∃ s', Steps c s (rets ++ starts ++ sims ++ gens) s'
  work : a.work = puts [] (rets ++ starts ++ sims ++ gens)
  retw : availIds c.W (some EVAL_GEN) false none none = .ok wr
  retk : (keys rets).Sublist wr
  ret : ∀ e ∈ rets, e.2.tag = EVAL_GEN ∧ e.2.persistent = true ∧ e.2.activeRecv = none
  genw : availIds c.W (some 0) false none (some true) = .ok wg
  startk : (keys starts).Sublist wg
  start : ∀ e ∈ starts, e.2.tag = EVAL_GEN ∧ e.2.persistent = true ∧ e.2.activeRecv = none
  simw : availIds c.W (some 0) false none (some false) = .ok wsim
  simk : (keys sims).Sublist wsim
  shape : ∀ e ∈ sims, SimShape c false e.2
  picked : Picked pick (waiting c.H) (rowsOf sims) pts'
  genk : (keys gens).Sublist wg
  gen : ∀ e ∈ gens, e.2.tag = EVAL_GEN ∧ e.2.rows = [] ∧ e.2.activeRecv = none
  pinfo : a.pinfo = p
  flag : a.flag = false

theorem puts_append {β} (d x y : List (Nat × β)) : puts d (x ++ y) = puts (puts d x) y := by simp [puts]

theorem fd_spec {c : Ctx} {o : FdOpts} {p : PInfo} {s : Sched} {a : Answer} (h : fdAlloc c o p s = .ok a) :
    (a = ⟨[], p, false⟩ ∧ (c.simMaxGiven = true ∨ c.anyIdle = false)) ∨
    (a = ⟨[], p, true⟩ ∧ c.simMaxGiven = false ∧ c.anyIdle = true ∧ c.H ≠ [] ∧ countPersisGens c.W = 0) ∨
    (c.simMaxGiven = false ∧ c.anyIdle = true ∧ (c.H = [] ∨ countPersisGens c.W ≠ 0) ∧
      ∃ rets sims gens wr wg wsim pts', MoreParts c oldest p s a rets [] sims gens wr wg wsim pts' ∧
        keys rets = (if fdBack c.H o = [] then [] else wr) ∧ (∀ e ∈ rets, GenShape c.persisIn (fdBack c.H o) true none e.2) ∧
        (c.manage = false → pts' = [] ∨ keys sims = wsim) ∧
        (countPersisGens c.W ≠ 0 → gens = []) ∧
        (countPersisGens c.W = 0 → ∃ w wk, gens = [(w, wk)] ∧ GenShape c.genIn [] true none wk)) := by
  unfold fdAlloc at h
  split at h
  · rename_i hg; cases h; exact .inl ⟨rfl, by simpa using hg⟩
  · rename_i hg
    have hg' : c.simMaxGiven = false ∧ c.anyIdle = true := by
      revert hg; cases c.simMaxGiven <;> cases c.anyIdle <;> simp
    simp only at h
    split at h
    · rename_i hz
      cases h
      exact .inr (.inl ⟨rfl, hg'.1, hg'.2, by simpa using hz⟩)
    · rename_i hz
      have hz' : c.H = [] ∨ countPersisGens c.W ≠ 0 := by
        rw [Bool.and_eq_true, not_and] at hz
        cases hH : c.H with
        | nil => exact .inl rfl
        | cons r H => exact .inr (by simpa [hH] using hz)
      refine .inr (.inr ⟨hg'.1, hg'.2, hz', ?_⟩)
      obtain ⟨wg, hwg⟩ := availIds_noRecv c.W (some 0) none (some true)
      split at h
      · cases h
      · rename_i wr hwr
        split at h
        · cases h
        · rename_i st hst
          obtain ⟨rets, r1, r2, r3, r4, r5, r6, r7⟩ := fdReturns_spec c o wr _ st hst
          have hretk : (keys rets).Sublist wr := by rw [r3]; split <;> simp
          have hret : ∀ e ∈ rets, e.2.tag = EVAL_GEN ∧ e.2.persistent = true ∧ e.2.activeRecv = none :=
            fun e he => ⟨(r4 e he).tag, (r4 e he).pers, (r4 e he).recv⟩
          simp only at r1 r2 r5 r6 r7
          split at h
          · cases h
          · rename_i wsim hwsim
            split at h
            · cases h
            · rename_i st2 hst2
              obtain ⟨sims, m1, m2, m3, m4, m5, m6, m7, m8⟩ := pickSims_spec c oldest wsim st st2 hst2
              rw [r7] at m5
              split at h
              · rename_i h0
                obtain ⟨st3, hst3, ha⟩ := map_ok h
                subst ha
                obtain ⟨w, wk, ws, g1, g2, g3, g4, g5⟩ := startFirst_spec (.inl rfl) hst3
                refine ⟨rets, sims, [(w, wk)], wr, wg, wsim, st2.pts, ?_, r3, r4, m8, fun h => absurd h0 h, fun _ => ⟨w, wk, rfl, g4⟩⟩
                have hw : wg = w :: ws := by rw [hwg] at g1; injection g1
                refine ⟨⟨st3.s, ?_⟩, ?_, hwr, hretk, hret, hwg, List.nil_sublist _, by simp, hwsim, m3, m4, m5, ?_, ?_, ?_, rfl⟩
                · rw [List.append_nil]; exact (r1.trans m1).trans g2
                · rw [List.append_nil, puts_append, puts_append]
                  show st3.work = _
                  rw [g3, m2, r2]
                · rw [hw]; exact List.Sublist.cons_cons w (List.nil_sublist _)
                · intro e he; rw [List.mem_singleton] at he; subst he; exact ⟨g4.tag, g4.rows, g4.recv⟩
                · show st3.p = p
                  rw [g5, m6, r5]
              · rename_i h0
                cases h
                refine ⟨rets, sims, [], wr, wg, wsim, st2.pts, ?_, r3, r4, m8, fun _ => rfl, fun h => absurd h h0⟩
                refine ⟨⟨st2.s, ?_⟩, ?_, hwr, hretk, hret, hwg, List.nil_sublist _, by simp, hwsim, m3, m4, m5, List.nil_sublist _, by simp, ?_, rfl⟩
                · rw [List.append_nil, List.append_nil]; exact r1.trans m1
                · rw [List.append_nil, List.append_nil, puts_append]
                  show st2.work = _
                  rw [m2, r2]
                · show st2.p = p
                  rw [m6, r5]

theorem ib_spec {c : Ctx} {o : IbOpts} {like : Field} {p : PInfo} {s : Sched} {a : Answer} (h : ibAlloc c o like p s = .ok a) :
    (a = ⟨[], p, false⟩ ∧ (c.simMaxGiven = true ∨ c.anyIdle = false)) ∨
    (c.simMaxGiven = false ∧ c.anyIdle = true ∧
      ∃ rets sims gens wr wg wsim pts', MoreParts c (firstSub c.H o.sub) p s a rets [] sims gens wr wg wsim pts' ∧
        keys rets = wr.filter (fun w => allSimEnded c.H (ofGen w)) ∧
        (∀ e ∈ rets, ∃ rows, ibBack c.H o e.1 = .ok rows ∧ GenShape [like] rows true none e.2) ∧
        (c.manage = false → pts' = [] ∨ keys sims = wsim) ∧
        (countPersisGens c.W ≠ 0 ∨ waiting c.H ≠ [] → gens = []) ∧
        (countPersisGens c.W = 0 → waiting c.H = [] → ∃ w wk, gens = [(w, wk)] ∧ GenShape c.genIn [] true none wk)) := by
  unfold ibAlloc at h
  split at h
  · rename_i hg; cases h; exact .inl ⟨rfl, by simpa using hg⟩
  · rename_i hg
    have hg' : c.simMaxGiven = false ∧ c.anyIdle = true := by
      revert hg; cases c.simMaxGiven <;> cases c.anyIdle <;> simp
    simp only at h
    refine .inr ⟨hg'.1, hg'.2, ?_⟩
    obtain ⟨wg, hwg⟩ := availIds_noRecv c.W (some 0) none (some true)
    obtain ⟨wsim, hwsim⟩ := availIds_noRecv c.W (some 0) none (some false)
    split at h
    · cases h
    · rename_i wr hwr
      split at h
      · cases h
      · rename_i st hst
        obtain ⟨rets, r1, r2, r3, r4, r5, r6, r7⟩ := ibReturns_spec c o like wr _ st hst
        have hretk : (keys rets).Sublist wr := by rw [r3]; exact List.filter_sublist
        have hret : ∀ e ∈ rets, e.2.tag = EVAL_GEN ∧ e.2.persistent = true ∧ e.2.activeRecv = none := by
          intro e he
          obtain ⟨h1, rows, h2, h3⟩ := r4 e he
          exact ⟨h1, h3.pers, h3.recv⟩
        simp only at r1 r2 r5 r6 r7
        split at h
        · rename_i hemp
          have hemp' : waiting c.H = [] := by rw [← r7]; simpa using hemp
          split at h
          · rename_i h0
            obtain ⟨st3, hst3, ha⟩ := map_ok h
            subst ha
            obtain ⟨w, wk, ws, g1, g2, g3, g4, g5⟩ := startFirst_spec (.inl rfl) hst3
            refine ⟨rets, [], [(w, wk)], wr, wg, wsim, [], ?_, r3, fun e he => (r4 e he).2, fun _ => .inl rfl, ?_, fun _ _ => ⟨w, wk, rfl, g4⟩⟩
            · have hw : wg = w :: ws := by rw [hwg] at g1; injection g1
              refine ⟨⟨st3.s, ?_⟩, ?_, hwr, hretk, hret, hwg, List.nil_sublist _, by simp, hwsim, List.nil_sublist _, by simp, hemp'.symm, ?_, ?_, ?_, rfl⟩
              · rw [List.append_nil, List.append_nil]; exact r1.trans g2
              · rw [List.append_nil, List.append_nil, puts_append]
                show st3.work = _
                rw [g3, r2]
              · rw [hw]; exact List.Sublist.cons_cons w (List.nil_sublist _)
              · intro e he; rw [List.mem_singleton] at he; subst he; exact ⟨g4.tag, g4.rows, g4.recv⟩
              · show st3.p = p
                rw [g5, r5]
            · rintro (h | h)
              · exact absurd h0 h
              · exact absurd hemp' h
          · rename_i h0
            cases h
            refine ⟨rets, [], [], wr, wg, wsim, [], ?_, r3, fun e he => (r4 e he).2, fun _ => .inl rfl, fun _ => rfl, fun h => absurd h h0⟩
            refine ⟨⟨st.s, ?_⟩, ?_, hwr, hretk, hret, hwg, List.nil_sublist _, by simp, hwsim, List.nil_sublist _, by simp, hemp'.symm, List.nil_sublist _, by simp, r5, rfl⟩
            · simpa using r1
            · show st.work = _
              simpa using r2
        · rename_i hemp
          have hemp' : waiting c.H ≠ [] := by rw [← r7]; simpa using hemp
          rw [hwsim] at h
          simp only at h
          obtain ⟨st2, hst2, ha⟩ := map_ok h
          subst ha
          obtain ⟨sims, m1, m2, m3, m4, m5, m6, m7, m8⟩ := pickSims_spec c _ wsim st st2 hst2
          rw [r7] at m5
          refine ⟨rets, sims, [], wr, wg, wsim, st2.pts, ?_, r3, fun e he => (r4 e he).2, m8, fun _ => rfl, fun _ h => absurd h hemp'⟩
          refine ⟨⟨st2.s, ?_⟩, ?_, hwr, hretk, hret, hwg, List.nil_sublist _, by simp, hwsim, m3, m4, m5, List.nil_sublist _, by simp, ?_, rfl⟩
          · rw [List.append_nil, List.append_nil]; exact r1.trans m1
          · rw [List.append_nil, List.append_nil, puts_append]
            show st2.work = _
            rw [m2, r2]
          · show st2.p = p
            rw [m6, r5]

theorem Started.mem {c : Ctx} {o : LoOpts} : ∀ {es : WorkD} {started : List Nat}, Started c o started es →
    ∀ e ∈ es, ∃ l i is, loCand c o l = i :: is ∧ GenShape c.persisIn [argMax (fun j => -intAt c.H o.f j) i is] true none e.2 := by
  intro es
  induction es with
  | nil => intro _ _ e he; simp at he
  | cons x es ih =>
    intro started h e he
    obtain ⟨i, is, h1, h2, h3⟩ := h
    rcases List.mem_cons.mp he with rfl | he
    · exact ⟨_, i, is, h1, h2⟩
    · exact ih h3 e he

theorem loStarts_some {c : Ctx} {o : LoOpts} (hm : c.manage = false) {ws : List Nat} (hw : ws ≠ []) {started : List Nat} {st st' : LoopSt}
    (hc : loCand c o started ≠ []) (hl : st.gens + 1 < c.W.length) (h : loStarts c o ws started st = .ok st') : st.gens < st'.gens := by
  cases ws with
  | nil => exact absurd rfl hw
  | cons w ws =>
    unfold loStarts at h
    split at h
    · rename_i h0; exact absurd h0 hc
    · rw [if_pos hl] at h
      simp only at h
      split at h
      · rename_i h1
        unfold genWork updateTeam at h1
        rw [if_neg (by simp [hm])] at h1
        simp at h1
      · cases h
      · obtain ⟨es, _, _, _, _, h5, _⟩ := loStarts_spec c o ws _ _ _ h
        rw [h5]
        simp only
        omega

theorem lo_spec {c : Ctx} {o : LoOpts} {p : PInfo} {s : Sched} {a : Answer} (h : loAlloc c o p s = .ok a) :
    (a = ⟨[], p, false⟩ ∧ (c.simMaxGiven = true ∨ c.anyIdle = false)) ∨
    (c.simMaxGiven = false ∧ c.anyIdle = true ∧
      ∃ rets starts sims gens wr wg wsim pts', MoreParts c (localFirst c.H o.localPt) p s a rets starts sims gens wr wg wsim pts' ∧
        keys rets = wr.filter (fun w => allSimEnded c.H (ofGen w)) ∧
        (∀ e ∈ rets, ∃ i is, rowsWhere c.H (ofGen e.1) = i :: is ∧
          GenShape c.persisIn [argMax (intAt c.H .simStartedTime) i is] true none e.2) ∧
        Started c o [] starts ∧ (starts ≠ [] → countPersisGens c.W + starts.length < c.W.length) ∧
        (c.manage = false → pts' = [] ∨ keys sims = wsim) ∧
        (gens = [] ↔ (countPersisGens c.W ≠ 0 ∨ starts ≠ [] ∨ ∃ k ∈ c.W, k.active = EVAL_GEN ∧ k.persis = 0)) ∧
        (gens = [] ∨ ∃ w wk, gens = [(w, wk)] ∧ GenShape c.genIn [] false none wk) ∧
        (c.manage = false → wg ≠ [] → loCand c o [] ≠ [] → countPersisGens c.W + 1 < c.W.length → starts ≠ [])) := by
  unfold loAlloc at h
  split at h
  · rename_i hg; cases h; exact .inl ⟨rfl, by simpa using hg⟩
  · rename_i hg
    have hg' : c.simMaxGiven = false ∧ c.anyIdle = true := by
      revert hg; cases c.simMaxGiven <;> cases c.anyIdle <;> simp
    refine .inr ⟨hg'.1, hg'.2, ?_⟩
    split at h
    · cases h
    · rename_i wr hwr
      split at h
      · cases h
      · rename_i st hst
        obtain ⟨rets, r1, r2, r3, r4, r5, r6, r7⟩ := loReturns_spec c wr _ st hst
        have hretk : (keys rets).Sublist wr := by rw [r3]; exact List.filter_sublist
        have hret : ∀ e ∈ rets, e.2.tag = EVAL_GEN ∧ e.2.persistent = true ∧ e.2.activeRecv = none := by
          intro e he
          obtain ⟨i, is, h2, h3⟩ := r4 e he
          exact ⟨h3.tag, h3.pers, h3.recv⟩
        simp only at r1 r2 r5 r6 r7
        split at h
        · cases h
        · rename_i wg hwg
          split at h
          · cases h
          · rename_i st1 hst1
            obtain ⟨starts, t1, t2, t3, t4, t5, t6, t7, t8⟩ := loStarts_spec c o wg [] st st1 hst1
            have hstart : ∀ e ∈ starts, e.2.tag = EVAL_GEN ∧ e.2.persistent = true ∧ e.2.activeRecv = none := by
              intro e he
              obtain ⟨_, i, is, _, h3⟩ := t4.mem e he
              exact ⟨h3.tag, h3.pers, h3.recv⟩
            rw [r6] at t5 t6
            have t9 : c.manage = false → wg ≠ [] → loCand c o [] ≠ [] → countPersisGens c.W + 1 < c.W.length → starts ≠ [] := by
              intro hm hw hc hl
              have := loStarts_some hm hw hc (by rw [r6]; exact hl) hst1
              rw [t5, r6] at this
              intro e
              rw [e] at this
              simp at this
            split at h
            · cases h
            · rename_i wsim hwsim
              split at h
              · cases h
              · rename_i st2 hst2
                obtain ⟨sims, m1, m2, m3, m4, m5, m6, m7, m8⟩ := pickSims_spec c _ wsim st1 st2 hst2
                rw [t8, r7] at m5
                rw [m7, t5] at h
                have hz : (decide (countPersisGens c.W + starts.length = 0) && !c.W.any (fun k => decide (k.active = EVAL_GEN) && decide (k.persis = 0))) = false ↔
                    (countPersisGens c.W ≠ 0 ∨ starts ≠ [] ∨ ∃ k ∈ c.W, k.active = EVAL_GEN ∧ k.persis = 0) := by
                  cases starts with
                  | nil => simp [← Bool.not_eq_true, Decidable.imp_iff_not_or]
                  | cons x xs => simp
                split at h
                · rename_i h0
                  obtain ⟨st3, hst3, ha⟩ := map_ok h
                  subst ha
                  obtain ⟨w, wk, ws, g1, g2, g3, g4, g5⟩ := startFirst_spec (.inr rfl) hst3
                  refine ⟨rets, starts, sims, [(w, wk)], wr, wg, wsim, st2.pts, ?_, r3, r4, t4, t6, m8, ?_, .inr ⟨w, wk, rfl, g4⟩, t9⟩
                  · have hw : wg = w :: ws := by rw [hwg] at g1; injection g1
                    refine ⟨⟨st3.s, ((r1.trans t1).trans m1).trans g2⟩, ?_, hwr, hretk, hret, hwg, t3, hstart, hwsim, m3, m4, m5, ?_, ?_, ?_, rfl⟩
                    · rw [puts_append, puts_append, puts_append]
                      show st3.work = _
                      rw [g3, m2, t2, r2]
                    · rw [hw]; exact List.Sublist.cons_cons w (List.nil_sublist _)
                    · intro e he; rw [List.mem_singleton] at he; subst he; exact ⟨g4.tag, g4.rows, g4.recv⟩
                    · show st3.p = p
                      rw [g5, m6, t7, r5]
                  · rw [← hz, h0]; simp
                · rename_i h0
                  cases h
                  refine ⟨rets, starts, sims, [], wr, wg, wsim, st2.pts, ?_, r3, r4, t4, t6, m8, ?_, .inl rfl, t9⟩
                  · refine ⟨⟨st2.s, ?_⟩, ?_, hwr, hretk, hret, hwg, t3, hstart, hwsim, m3, m4, m5, List.nil_sublist _, by simp, ?_, rfl⟩
                    · rw [List.append_nil]; exact (r1.trans t1).trans m1
                    · rw [List.append_nil, puts_append, puts_append]
                      show st2.work = _
                      rw [m2, t2, r2]
                    · show st2.p = p
                      rw [m6, t7, r5]
                  · rw [← hz]; simpa using h0

/-! ### Consequences for all of them -/

theorem puts_sub {β} : ∀ (es : List (Nat × β)), ∃ l, (puts [] es).Perm l ∧ l.Sublist es := by
  intro es
  rw [← List.reverse_reverse es]
  induction es.reverse with
  | nil => exact ⟨[], .refl _, List.Sublist.refl _⟩
  | cons e r ih =>
    obtain ⟨l, h1, h2⟩ := ih
    rw [List.reverse_cons, puts_append]
    refine ⟨l.filter (fun x => decide (x.1 ∉ [e].map (·.1))) ++ [e], ?_, (List.filter_sublist.trans h2).append (List.Sublist.refl _)⟩
    exact (puts_perm (puts_nodup (by simp)) (by simp)).trans ((h1.filter _).append_right _)

variable {c : Ctx} {pick : List Nat → List Nat} {p : PInfo} {s : Sched} {a : Answer} {rets starts sims gens : WorkD} {wr wg wsim pts' : List Nat}

theorem MoreParts.mem (h : MoreParts c pick p s a rets starts sims gens wr wg wsim pts') {e : Nat × Work} (he : e ∈ a.work) :
    e ∈ rets ∨ e ∈ starts ∨ e ∈ sims ∨ e ∈ gens := by
  rw [h.work] at he
  rcases mem_puts (by simp) he with h1 | ⟨h1, _⟩
  · simpa [or_assoc] using h1
  · simp at h1

/-- Every order goes to an idle worker. -/
theorem MoreParts.idle (h : MoreParts c pick p s a rets starts sims gens wr wg wsim pts') {e : Nat × Work} (he : e ∈ a.work) :
    ∃ k ∈ c.W, k.id = e.1 ∧ k.active = 0 := by
  have key : ∀ {l : List Nat} {es : WorkD} {q g}, availIds c.W q false none g = .ok l → (keys es).Sublist l → e ∈ es →
      ∃ k ∈ c.W, k.id = e.1 ∧ k.active = 0 := by
    intro l es q g hl hk he
    obtain ⟨k, k1, k2, k3, _⟩ := availIds_idle hl (hk.subset (List.mem_map_of_mem he))
    exact ⟨k, k1, k2, k3⟩
  rcases h.mem he with h1 | h1 | h1 | h1
  · exact key h.retw h.retk h1
  · exact key h.genw h.startk h1
  · exact key h.simw h.simk h1
  · exact key h.genw h.genk h1

theorem MoreParts.recv (h : MoreParts c pick p s a rets starts sims gens wr wg wsim pts') {e : Nat × Work} (he : e ∈ a.work) :
    e.2.activeRecv = none := by
  rcases h.mem he with h1 | h1 | h1 | h1
  · exact (h.ret e h1).2.2
  · exact (h.start e h1).2.2
  · exact (h.shape e h1).recv
  · exact (h.gen e h1).2.2

theorem MoreParts.simMem (h : MoreParts c pick p s a rets starts sims gens wr wg wsim pts') {e : Nat × Work} (he : e ∈ a.work)
    (ht : e.2.tag = EVAL_SIM) : e ∈ sims := by
  have no : ∀ {Q : Prop}, e.2.tag = EVAL_GEN → Q := by intro Q h1; rw [h1] at ht; simp [EVAL_GEN, EVAL_SIM] at ht
  rcases h.mem he with h1 | h1 | h1 | h1
  · exact no (h.ret e h1).1
  · exact no (h.start e h1).1
  · exact h1
  · exact no (h.gen e h1).1

theorem MoreParts.nodup (h : MoreParts c pick p s a rets starts sims gens wr wg wsim pts') : (keys a.work).Nodup := by
  rw [h.work]; exact puts_nodup (by simp)

theorem MoreParts.sub (h : MoreParts c pick p s a rets starts sims gens wr wg wsim pts') :
    ∃ l, a.work.Perm l ∧ l.Sublist (rets ++ starts ++ sims ++ gens) := by
  rw [h.work]; exact puts_sub _

theorem oldest_sub (pts : List Nat) : (oldest pts).Sublist pts := List.take_sublist _ _

theorem firstSub_sub (H : List Row) (f : Field) (pts : List Nat) : (firstSub H f pts).Sublist pts := by
  cases pts with
  | nil => exact List.Sublist.refl _
  | cons i is => exact List.filter_sublist

theorem localFirst_sub (H : List Row) (f : Field) (pts : List Nat) : (localFirst H f pts).Sublist pts := by
  unfold localFirst
  simp only
  split
  · exact List.take_sublist _ _
  · exact (List.take_sublist _ _).trans List.filter_sublist

end Verif.Alloc
