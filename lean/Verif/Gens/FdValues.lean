import Verif.Gens.FdProps
/-!
Property C72, second part: the values that the noise estimate gets, and what it means that the generator has ended.
-/
namespace Verif.Gens.Fd

/-! ### Specification -/

/-- The line of values for a pair: `f0` in the middle, the values of an array elsewhere. -/
def IsValues (c : Cfg) (q : Pair) (rows : List Row) (l : List Int) : Prop :=
  l.length = c.nf + 1 ∧ ∀ k ≤ c.nf, (k = c.nf / 2 → l[k]? = some (c.f0 q.2)) ∧ (k ≠ c.nf / 2 → ∃ r ∈ rows, r.key = ⟨q, k⟩ ∧ l[k]? = some r.f)

/-! ### One round -/

theorem mapM_some {α β : Type} {f : α → Option β} : ∀ {l : List α} {l' : List β}, l.mapM f = some l' → l'.length = l.length ∧ ∀ (k : Nat) (x : α), l[k]? = some x → f x = l'[k]?
  | [], l', h => by
    simp only [List.mapM_nil, Option.pure_def, Option.some.injEq] at h
    subst h
    exact ⟨rfl, by simp⟩
  | a :: l, l', h => by
    rw [List.mapM_cons] at h
    cases ha : f a with
    | none => simp [ha] at h
    | some b =>
      cases hl : l.mapM f with
      | none => simp [ha, hl] at h
      | some l2 =>
        simp only [ha, hl, Option.bind_eq_bind, Option.bind_some, Option.pure_def, Option.some.injEq] at h
        subst h
        obtain ⟨h1, h2⟩ := mapM_some hl
        refine ⟨by simp [h1], fun k x hx => ?_⟩
        cases k with
        | zero => simp at hx; subst hx; simpa using ha
        | succ k => simpa using h2 k x (by simpa using hx)

theorem line_values {c : Cfg} (he : c.nf % 2 = 0) {st : St} {rows : List Row} {q : Pair} {l : List Int} (hh : st.hist q (c.nf / 2) = c.f0 q.2)
    (hl : line c st rows q = some l) : IsValues c q rows l := by
  obtain ⟨h1, h2⟩ := mapM_some hl
  rw [List.length_range] at h1
  refine ⟨h1, fun k hk => ?_⟩
  have h := h2 k k (by rw [List.getElem?_range (by omega)])
  constructor
  · intro e
    rw [if_pos (by omega), e, hh] at h
    rw [e]; exact h.symm
  · intro e
    rw [if_neg (by omega)] at h
    cases hf : rows.find? (·.key = ⟨q, k⟩) with
    | none =>
      simp only [look, hf, Option.map_none] at h
      have := List.getElem?_eq_none_iff.mp h.symm
      omega
    | some r =>
      simp only [look, hf, Option.map_some] at h
      exact ⟨r, List.mem_of_find?_eq_some hf, by simpa using List.find?_some hf, h.symm⟩

/-- What the judgement of a list of pairs does to the values. -/
theorem judgeAll_values {c : Cfg} {rows : List Row} : ∀ (qs : List Pair) (a b : St × List Pair), qs.Nodup → judgeAll c rows qs a = some b →
    (∀ q ∈ qs, ∃ l, (∀ st : St, st.hist q = a.1.hist q → line c st rows q = some l) ∧ b.1.inform q = c.ec l ∧ b.1.hist q = (fun k => l.getD k 0) ∧ (q ∈ b.2 → q ∈ a.2 ∨ 2 ≤ c.ec l)) ∧
    (∀ q, q ∉ qs → b.1.hist q = a.1.hist q ∧ b.1.inform q = a.1.inform q ∧ (q ∈ b.2 → q ∈ a.2)) := by
  intro qs
  induction qs with
  | nil =>
    intro a b _ h
    simp only [judgeAll, Option.some.injEq] at h
    subst h
    exact ⟨by simp, fun q _ => ⟨rfl, rfl, fun h => h⟩⟩
  | cons q qs ih =>
    intro a b hnd h
    obtain ⟨hq, hnd⟩ := List.nodup_cons.mp hnd
    have hline : ∀ st : St, st.hist q = a.1.hist q → line c st rows q = line c a.1 rows q := by
      intro st hs; unfold line; rw [hs]
    cases hl : line c a.1 rows q with
    | none => simp [judgeAll, judge, hl] at h
    | some l =>
      rw [hl] at hline
      obtain ⟨a', ha', h1, h2, h3, h4⟩ : ∃ a', judge c rows a q = some a' ∧ a'.1.hist = put a.1.hist q (fun k => l.getD k 0) ∧ a'.1.inform = put a.1.inform q (c.ec l) ∧
          (a'.2 = a.2 ∨ (a'.2 = a.2 ++ [q] ∧ 2 ≤ c.ec l)) ∧ True := by
        simp only [judge, hl]
        split
        · rename_i h2
          split
          · exact ⟨_, rfl, rfl, rfl, .inr ⟨rfl, h2⟩, trivial⟩
          · exact ⟨_, rfl, rfl, rfl, .inl rfl, trivial⟩
        · exact ⟨_, rfl, rfl, rfl, .inl rfl, trivial⟩
      simp only [judgeAll, ha'] at h
      obtain ⟨i1, i2⟩ := ih a' b hnd h
      constructor
      · intro q' hq'
        rcases List.mem_cons.mp hq' with rfl | hq'
        · obtain ⟨j1, j2, j3⟩ := i2 q' hq
          refine ⟨l, hline, ?_, ?_, fun hb => ?_⟩
          · rw [j2, h2]; simp [put]
          · rw [j1, h1]; simp [put]
          · rcases h3 with h3 | ⟨h3, h5⟩
            · exact .inl (h3 ▸ j3 hb)
            · exact .inr h5
        · have hne : q' ≠ q := fun e => hq (e ▸ hq')
          obtain ⟨l', k1, k2, k3, k4⟩ := i1 q' hq'
          refine ⟨l', fun st hs => k1 st (by rw [hs, h1]; simp [put, hne]), k2, k3, fun hb => ?_⟩
          rcases k4 hb with k4 | k4
          · rcases h3 with h3 | ⟨h3, _⟩
            · exact .inl (h3 ▸ k4)
            · rw [h3] at k4
              exact .inl ((List.mem_append.mp k4).resolve_right (by simpa using hne))
          · exact .inr k4
      · intro q' hq'
        have hne : q' ≠ q := fun e => hq' (e ▸ List.mem_cons_self)
        obtain ⟨j1, j2, j3⟩ := i2 q' (fun hm => hq' (List.mem_cons_of_mem _ hm))
        refine ⟨by rw [j1, h1]; simp [put, hne], by rw [j2, h2]; simp [put, hne], fun hb => ?_⟩
        have := j3 hb
        rcases h3 with h3 | ⟨h3, _⟩
        · exact h3 ▸ this
        · rw [h3] at this
          exact (List.mem_append.mp this).resolve_right (by simpa using hne)

/-! ### All rounds -/

/-- The last array with the pair is the answer to the message after `pre`; its values give `v`. -/
def Last (c : Cfg) (rs : List (List Row)) (q : Pair) (v : Int) : Prop :=
  ∃ pre rows post, rs = pre ++ rows :: post ∧ q ∈ (after c pre).pairs ∧ (∃ l, IsValues c q rows l ∧ c.ec l = v) ∧
    ∀ mid more, post = mid ++ more → more ≠ [] → q ∉ (after c (pre ++ rows :: mid)).pairs

theorem Last.snoc {c : Cfg} {rs : List (List Row)} {q : Pair} {v : Int} (h : Last c rs q v) (rows : List Row) (hq : q ∉ (after c rs).pairs) : Last c (rs ++ [rows]) q v := by
  obtain ⟨pre, r, post, e, h1, h2, h3⟩ := h
  refine ⟨pre, r, post ++ [rows], by rw [e]; simp, h1, h2, fun mid more hm hne => ?_⟩
  by_cases hx : mid = post
  · subst hx; rw [← e]; exact hq
  · obtain ⟨more', x, rfl⟩ : ∃ more' x, more = more' ++ [x] := ⟨more.dropLast, more.getLast hne, (List.dropLast_concat_getLast hne).symm⟩
    rw [← List.append_assoc] at hm
    have hm := (List.append_inj' hm rfl).1
    refine h3 mid more' hm ?_
    rintro rfl
    exact hx (by simpa using hm.symm)

structure VInv (c : Cfg) (rs : List (List Row)) : Prop where
  mid : ∀ st ps, after c rs = .asks st ps → ∀ q ∈ grid c.n c.p, st.hist q (c.nf / 2) = c.f0 q.2
  last : ∀ st ps, after c rs = .asks st ps → ∀ q ∈ grid c.n c.p, rs = [] ∨ (Last c rs q (st.inform q) ∧ (q ∈ ps → 2 ≤ st.inform q))
  over : after c rs = .done → ∀ q ∈ grid c.n c.p, Last c rs q 1

theorem Faithful.vinv {c : Cfg} (hn : c.n = 2) (hp : 0 < c.p) (h0 : 0 < c.nf) (he : c.nf % 2 = 0) {rs : List (List Row)} (h : Faithful c rs) : VInv c rs := by
  have hrev : ∀ l : List (List Row), Faithful c l.reverse → VInv c l.reverse := by
    intro l
    induction l with
    | nil =>
      intro _
      have hs : after c [] = .asks (.init c) (grid c.n c.p) := by simp [after, start, hn, C72_first]
      rw [List.reverse_nil]
      refine { mid := ?_, last := fun _ _ _ _ _ => .inl rfl, over := ?_ }
      · intro st ps h q _
        rw [hs] at h
        injection h with h1 h2
        subst h1
        simp [St.init]
      · rw [hs]; nofun
    | cons rows l ih =>
      rw [List.reverse_cons]
      intro h
      obtain ⟨h1, h2⟩ := h.init
      have V := ih h1
      have I := h1.inv hn hp h0 he
      generalize l.reverse = rs at I V h1 h2
      cases hr : after c rs with
      | failed => exact absurd hr I.ok
      | done =>
        have hd : after c (rs ++ [rows]) = .done := by rw [after_snoc, hr]; rfl
        refine ⟨fun st ps e => (by rw [hd] at e; cases e), fun st ps e => (by rw [hd] at e; cases e), fun _ q hq => ?_⟩
        exact (V.over hr q hq).snoc rows (by rw [hr]; simp [Res.pairs])
      | asks st ps =>
        obtain ⟨f1, f2, f3, f4, f5, f6⟩ := I.fine st ps hr
        have hmid := V.mid st ps hr
        rw [hr] at h2
        have hmem : ∀ q, q ∈ pairsIn c rows ↔ q ∈ ps := fun q => mem_pairsIn h0 f1 h2
        obtain ⟨st', new, e, n1, n2, n3, n4, n5, n6⟩ := judgeAll_spec (c := c) (rows := rows) (pairsIn c rows) (st, []) (pairsIn_nodup c rows)
          (fun st q hq => line_some he h2 st ((hmem q).mp hq))
        simp only [List.nil_append] at e n3 n4 n6
        obtain ⟨j1, j2⟩ := judgeAll_values (pairsIn c rows) (st, []) (st', new) (pairsIn_nodup c rows) e
        have hnx : after c (rs ++ [rows]) = if (grid c.n c.p).all (fun q => st'.inform q = 1) then .done else .asks st' new := by
          rw [after_snoc, hr]; simp only [next, e]
        have hL : ∀ q ∈ grid c.n c.p, Last c (rs ++ [rows]) q (st'.inform q) ∧ (q ∈ new → 2 ≤ st'.inform q) := by
          intro q hq
          by_cases hqp : q ∈ ps
          · obtain ⟨l, k1, k2, k3, k4⟩ := j1 q ((hmem q).mpr hqp)
            refine ⟨⟨rs, rows, [], rfl, by rw [hr]; exact hqp, ⟨l, line_values he (hmid q hq) (k1 st rfl), k2.symm⟩, ?_⟩, fun hqn => ?_⟩
            · intro mid more hm hne
              exact absurd (List.append_eq_nil_iff.mp hm.symm).2 hne
            · rw [k2]; exact (k4 hqn).resolve_left (by simp)
          · have hqq : q ∉ pairsIn c rows := fun h => hqp ((hmem q).mp h)
            obtain ⟨k1, k2, k3⟩ := j2 q hqq
            rcases V.last st ps hr q hq with hnil | ⟨hlast, _⟩
            · exfalso
              subst hnil
              have hs : after c [] = .asks (.init c) (grid c.n c.p) := by simp [after, start, hn, C72_first]
              rw [hs] at hr
              injection hr with _ h2
              exact hqp (h2 ▸ hq)
            · rw [k2]
              exact ⟨hlast.snoc rows (by rw [hr]; exact hqp), fun hqn => absurd (n2 q hqn) hqq⟩
        have hmid' : ∀ q ∈ grid c.n c.p, st'.hist q (c.nf / 2) = c.f0 q.2 := by
          intro q hq
          by_cases hqp : q ∈ pairsIn c rows
          · obtain ⟨l, k1, k2, k3, k4⟩ := j1 q hqp
            rw [k3]
            have := ((line_values he (hmid q hq) (k1 st rfl)).2 (c.nf / 2) (by omega)).1 rfl
            simp [List.getD, this]
          · rw [(j2 q hqp).1]; exact hmid q hq
        split at hnx
        · rename_i hall
          refine ⟨fun st ps e => (by rw [hnx] at e; cases e), fun st ps e => (by rw [hnx] at e; cases e), fun _ q hq => ?_⟩
          have := (hL q hq).1
          rw [show st'.inform q = 1 by simpa using List.all_eq_true.mp hall q hq] at this
          exact this
        · refine ⟨fun st ps e q hq => ?_, fun st ps e q hq => .inr ?_, fun e => (by rw [hnx] at e; cases e)⟩
          · rw [hnx] at e
            injection e with e1 e2
            subst e1
            exact hmid' q hq
          · rw [hnx] at e
            injection e with e1 e2
            subst e1; subst e2
            exact hL q hq
  have := hrev rs.reverse
  rw [List.reverse_reverse] at this
  exact this h

/-- The generator ends by itself only when the last values it asked for, for each pair, together with `f0` in the middle, gave 1. -/
theorem C72_done_partial (c : Cfg) (hn : c.n = 2) (hp : 0 < c.p) (h0 : 0 < c.nf) (he : c.nf % 2 = 0) (rs : List (List Row)) (h : Faithful c rs)
    (hd : after c rs = .done) (q : Pair) (hq : q.1 < 2 ∧ q.2 < c.p) : Last c rs q 1 :=
  (h.vinv hn hp h0 he).over hd q (mem_grid.mpr (by rwa [hn]))

/-- A pair is asked for again only when the values just received for it, together with `f0` in the middle, gave 2 or more. -/
theorem C72_again_partial (c : Cfg) (hn : c.n = 2) (hp : 0 < c.p) (h0 : 0 < c.nf) (he : c.nf % 2 = 0) (rs : List (List Row)) (rows : List Row)
    (h : Faithful c (rs ++ [rows])) (q : Pair) (hq : q ∈ (after c (rs ++ [rows])).pairs) : q ∈ (after c rs).pairs ∧ ∃ l, IsValues c q rows l ∧ 2 ≤ c.ec l := by
  have V := h.vinv hn hp h0 he
  have I := h.inv hn hp h0 he
  cases hr : after c (rs ++ [rows]) with
  | failed => rw [hr] at hq; cases hq
  | done => rw [hr] at hq; cases hq
  | asks st ps =>
    rw [hr] at hq
    have hc := (I.fine st ps hr).2.2.2.1 q hq
    have hg := (I.fine st ps hr).1 q hq
    rcases V.last st ps hr q hg with hx | ⟨⟨pre, r, post, e, h1, ⟨l, h2, h3⟩, h4⟩, h5⟩
    · simp at hx
    · by_cases hpost : post = []
      · subst hpost
        obtain ⟨e1, e2⟩ := List.append_inj' e rfl
        injection e2 with e2 _
        subst e1; subst e2
        exact ⟨h1, l, h2, by rw [h3]; exact h5 hq⟩
      · exfalso
        have hnq := h4 [] post rfl hpost
        have hlen := (h.init.1.inv hn hp h0 he).few
        -- the pair was asked for in every round, also in the one after `pre`
        have hall : ∀ l : List (List Row), Faithful c l → q ∈ (after c l).pairs → ∀ k ≤ l.length, q ∈ (after c (l.take k)).pairs := by
          intro l hl hql k hk
          have Il := hl.inv hn hp h0 he
          cases hrl : after c l with
          | failed => rw [hrl] at hql; cases hql
          | done => rw [hrl] at hql; cases hql
          | asks st ps =>
            rw [hrl] at hql
            have hcount := (Il.fine st ps hrl).2.2.2.1 q hql
            refine Classical.byContradiction fun hnot => ?_
            have hle : ∀ j ∈ List.range (l.length + 1), ((after c (l.take j)).pairs).count q ≤ 1 := by
              intro j _
              have hf : Faithful c (l.take j) := fun pre rows post e => hl pre rows (post ++ l.drop j) (by rw [← List.cons_append, ← List.append_assoc, ← e, List.take_append_drop])
              have Ij := hf.inv hn hp h0 he
              cases hj : after c (l.take j) with
              | failed => simp [Res.pairs]
              | done => simp [Res.pairs]
              | asks s p => exact List.nodup_iff_count.mp (Ij.fine s p hj).2.1 q
            have hsum : ∀ (js : List Nat), (∀ j ∈ js, ((after c (l.take j)).pairs).count q ≤ 1) → (js.flatMap fun j => (after c (l.take j)).pairs).count q ≤ js.length ∧
                (∀ j ∈ js, q ∉ (after c (l.take j)).pairs → (js.flatMap fun j => (after c (l.take j)).pairs).count q < js.length) := by
              intro js
              induction js with
              | nil => intro _; simp
              | cons j js ih =>
                intro hjs
                obtain ⟨i1, i2⟩ := ih (fun j h => hjs j (List.mem_cons_of_mem _ h))
                have hj := hjs j List.mem_cons_self
                simp only [List.flatMap_cons, List.count_append, List.length_cons]
                refine ⟨by omega, fun j' hj' hn' => ?_⟩
                rcases List.mem_cons.mp hj' with rfl | hj'
                · rw [List.count_eq_zero_of_not_mem hn']; omega
                · have := i2 j' hj' hn'; omega
            have := (hsum _ hle).2 k (List.mem_range.mpr (by omega)) hnot
            rw [List.length_range] at this
            unfold asked at hcount
            omega
        refine hnq ?_
        have := hall (rs ++ [rows]) h (by rw [hr]; exact hq) (pre.length + 1) (by rw [e]; simp)
        rw [e, List.take_append, List.take_of_length_le (Nat.le_succ _)] at this
        simpa using this

/-- The lines of the example of two rounds: in the first round the pair (1, 0) has a negative value at the beginning. -/
example : ∃ l, IsValues demo (1, 0) (fill demo [(1, 0)] fun _ => 5) l ∧ l = [5, 7, 5] ∧ demo.ec l = 1 := by
  refine ⟨_, ⟨rfl, fun k hk => ?_⟩, rfl, by decide⟩
  have hk : k ≤ 2 := hk
  constructor
  · intro e
    have e : k = 1 := e
    subst e; rfl
  · intro e
    refine ⟨⟨⟨(1, 0), k⟩, 5⟩, ?_, rfl, ?_⟩
    · refine List.mem_map.mpr ⟨⟨(1, 0), k⟩, (C72_batch _ _ _ _).1.mpr ⟨by simp, hk, e⟩, rfl⟩
    · have e : k ≠ 1 := e
      match k, hk, e with
      | 0, _, _ => rfl
      | 2, _, _ => rfl

example : Last demo demoRounds (1, 0) 1 ∧ Last demo demoRounds (0, 1) 1 := by
  have hd : after demo demoRounds = .done := by
    have h : (after demo demoRounds).isDone = true := by decide
    cases hr : after demo demoRounds with
    | done => rfl
    | asks st ps => rw [hr] at h; cases h
    | failed => rw [hr] at h; cases h
  exact ⟨C72_done_partial demo rfl (by decide) (by decide) (by decide) _ demo_faithful hd _ (by decide),
    C72_done_partial demo rfl (by decide) (by decide) (by decide) _ demo_faithful hd _ (by decide)⟩

example : ((1, 0) : Pair) ∈ (after demo ([] ++ [fill demo (grid 2 2) fun k => if k.pair = (1, 0) then -1 else 5])).pairs := by decide

end Verif.Gens.Fd
