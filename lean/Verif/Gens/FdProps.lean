import Verif.Gens.Fd
/-!
Property C72: what `fd_param_finder` asks for.
-/
namespace Verif.Gens.Fd

/-! ### Specification -/

/-- The array received has a value for each point asked for, and no others, in any order. -/
def Answers (nf : Nat) (ps : List Pair) (rows : List Row) : Prop :=
  (∀ r ∈ rows, r.key ∈ build nf ps) ∧ ∀ key ∈ build nf ps, ∃ r ∈ rows, r.key = key

/-- The pairs of the message sent last. -/
def Res.pairs : Res → List Pair
  | .asks _ ps => ps
  | _ => []

/-- Every message was answered. -/
def Faithful (c : Cfg) (rs : List (List Row)) : Prop :=
  ∀ pre rows post, rs = pre ++ rows :: post → Answers c.nf (after c pre).pairs rows

/-- All pairs in all messages sent. -/
def asked (c : Cfg) (rs : List (List Row)) : List Pair := (List.range (rs.length + 1)).flatMap fun k => (after c (rs.take k)).pairs

/-! ### The first batch -/

theorem chunks_pairs (l : List Pair) (fuel : Nat) (hf : l.length ≤ fuel) : chunks 2 fuel (l.flatMap fun q => [q.1, q.2]) = l.map fun q => [q.1, q.2] := by
  induction l generalizing fuel with
  | nil => cases fuel <;> rfl
  | cons q l ih =>
    cases fuel with
    | zero => simp at hf
    | succ fuel =>
      simp only [List.flatMap_cons, List.map_cons, List.cons_append, List.nil_append, chunks, List.take_succ_cons, List.take_zero, List.drop_succ_cons, List.drop_zero]
      rw [ih fuel (by simpa using hf)]
      simp

theorem grid_length (n p : Nat) : (grid n p).length = n * p := by
  unfold grid
  induction n with
  | zero => simp
  | succ n ih => rw [List.range_succ, List.flatMap_append, List.length_append, ih]; simp [Nat.succ_mul]

theorem mem_grid {n p : Nat} {q : Pair} : q ∈ grid n p ↔ q.1 < n ∧ q.2 < p := by
  obtain ⟨i, j⟩ := q
  simp [grid]

theorem grid_nodup (n p : Nat) : (grid n p).Nodup := by
  unfold grid
  induction n with
  | zero => simp
  | succ n ih =>
    rw [List.range_succ, List.flatMap_append]
    refine List.nodup_append.mpr ⟨ih, ?_, ?_⟩
    · simp only [List.flatMap_cons, List.flatMap_nil, List.append_nil]
      exact List.Pairwise.map _ (fun a b hab h => hab (by injection h)) List.nodup_range
    · intro a ha b hb hab
      simp only [List.mem_flatMap, List.mem_range, List.mem_map, List.mem_cons, List.not_mem_nil, or_false] at ha hb
      obtain ⟨i, hi, _, _, rfl⟩ := ha
      obtain ⟨_, rfl, _, _, rfl⟩ := hb
      injection hab with h _
      omega

/-- With two variables the first message is about all pairs of a variable and a component. -/
theorem C72_first (p : Nat) : firstPairs 2 p = some (grid 2 p) := by
  unfold firstPairs
  rw [chunks_pairs _ _ (by rw [grid_length]; omega)]
  generalize grid 2 p = l
  induction l with
  | nil => rfl
  | cons q l ih => simp [List.mapM_cons, unpack, ih]

/-- With any other number of variables the generator fails before it sends anything: the array of pairs is cut into rows of the wrong length. -/
theorem C72_dimension (c : Cfg) (hn : c.n ≠ 2) (h0 : 0 < c.n) (hp : 0 < c.p) : start c = .failed := by
  have : firstPairs c.n c.p = none := by
    unfold firstPairs
    generalize hl : ((grid c.n c.p).flatMap fun q => [q.1, q.2]) = l
    have hlen : l.length = 2 * (c.n * c.p) := by
      rw [← hl, ← grid_length c.n c.p]
      generalize grid c.n c.p = g
      induction g with
      | nil => rfl
      | cons q g ih => simp only [List.flatMap_cons, List.length_append, ih, List.length_cons, List.length_nil]; omega
    have hpos : c.n * 1 ≤ c.n * c.p := Nat.mul_le_mul_left _ hp
    have hf : 2 * c.n * c.p = 2 * (c.n * c.p) := Nat.mul_assoc ..
    rw [hf]
    obtain ⟨fuel, hfuel⟩ : ∃ k, 2 * (c.n * c.p) = k + 1 := ⟨2 * (c.n * c.p) - 1, by omega⟩
    rw [hfuel]
    have hne : l ≠ [] := by intro h; rw [h] at hlen; simp at hlen; omega
    simp only [chunks, hne, if_false, List.mapM_cons]
    have : unpack (l.take c.n) = none := by
      have hlt : (l.take c.n).length = c.n := by rw [List.length_take, hlen]; omega
      unfold unpack
      split
      · rename_i i j h; rw [h] at hlt; simp at hlt; omega
      · rfl
    rw [this]
    rfl
  simp [start, this]

/-- The points of a message: for each pair `nf` of them, with all numbers up to `nf` except that of the base point. -/
theorem C72_batch (nf : Nat) (ps : List Pair) (q : Pair) (k : Nat) : (⟨q, k⟩ ∈ build nf ps ↔ q ∈ ps ∧ k ≤ nf ∧ k ≠ nf / 2) ∧ (build nf ps).length = nf * ps.length := by
  constructor
  · unfold build
    simp only [List.mem_flatMap, List.mem_map, List.mem_filter, List.mem_range, decide_eq_true_eq]
    constructor
    · rintro ⟨q', hq, k', ⟨h1, h2⟩, h⟩
      injection h with e1 e2
      subst e1; subst e2
      exact ⟨hq, by omega, h2⟩
    · rintro ⟨h1, h2, h3⟩
      exact ⟨q, h1, k, ⟨by omega, h3⟩, rfl⟩
  · have hc : ((List.range (nf + 1)).filter (· ≠ nf / 2)).length = nf := by
      have h1 := List.length_eq_countP_add_countP (fun k => decide (k ≠ nf / 2)) (l := List.range (nf + 1))
      have h2 : (List.range (nf + 1)).countP (fun k => decide ¬(decide (k ≠ nf / 2) = true)) = 1 := by
        have : (List.range (nf + 1)).countP (fun k => decide ¬(decide (k ≠ nf / 2) = true)) = (List.range (nf + 1)).count (nf / 2) := by
          rw [List.count]; apply List.countP_congr; intro x _; simp
        rw [this, List.nodup_range.count, if_pos (List.mem_range.mpr (by omega))]
      rw [h2, List.length_range] at h1
      rw [← List.countP_eq_length_filter]
      omega
    unfold build
    induction ps with
    | nil => rfl
    | cons q ps ih => rw [List.flatMap_cons, List.length_append, ih, List.length_map, hc, List.length_cons, Nat.mul_succ]; omega

/-! ### One round -/

theorem mapM_none {α β : Type} {f : α → Option β} {l : List α} : l.mapM f = none ↔ ∃ x ∈ l, f x = none := by
  induction l with
  | nil => simp
  | cons a l ih =>
    rw [List.mapM_cons]
    cases ha : f a with
    | none => simp [ha]
    | some b =>
      cases hl : l.mapM f with
      | none =>
        obtain ⟨x, hx, hf⟩ := ih.mp hl
        simp only [Option.bind_eq_bind, Option.bind_some, Option.bind_none, true_iff]
        exact ⟨x, List.mem_cons_of_mem _ hx, hf⟩
      | some l' =>
        simp only [Option.bind_eq_bind, Option.bind_some, Option.pure_def, reduceCtorEq, false_iff]
        rintro ⟨x, hx, hf⟩
        rcases List.mem_cons.mp hx with rfl | hx
        · rw [ha] at hf; cases hf
        · have := ih.mpr ⟨x, hx, hf⟩; rw [hl] at this; cases this

theorem look_none {rows : List Row} {key : Key} : look rows key = none ↔ ∀ r ∈ rows, r.key ≠ key := by
  simp [look, List.find?_eq_none]

theorem line_some {c : Cfg} (he : c.nf % 2 = 0) {ps : List Pair} {rows : List Row} (ha : Answers c.nf ps rows) (st : St) {q : Pair} (hq : q ∈ ps) :
    line c st rows q ≠ none := by
  intro h
  obtain ⟨k, hk, hn⟩ := mapM_none.mp h
  split at hn
  · cases hn
  · rename_i h2
    obtain ⟨r, hr, hkey⟩ := ha.2 ⟨q, k⟩ ((C72_batch c.nf ps q k).1.mpr ⟨hq, by have := List.mem_range.mp hk; omega, by omega⟩)
    exact look_none.mp hn r hr hkey

/-- What the judgement of one list of pairs does. -/
theorem judgeAll_spec {c : Cfg} {rows : List Row} : ∀ (qs : List Pair) (a : St × List Pair), qs.Nodup → (∀ st, ∀ q ∈ qs, line c st rows q ≠ none) →
    ∃ st new, judgeAll c rows qs a = some (st, a.2 ++ new) ∧ new.Nodup ∧ (∀ q ∈ new, q ∈ qs) ∧
      (∀ q, st.iters q = a.1.iters q + if q ∈ new then 1 else 0) ∧
      (∀ q ∈ new, a.1.iters q < c.maxIts) ∧
      (∀ q ∈ qs, q ∈ new ∨ st.inform q < 2 ∨ c.maxIts ≤ st.iters q) ∧
      (∀ q, q ∉ qs → st.inform q = a.1.inform q) := by
  intro qs
  induction qs with
  | nil =>
    intro a _ _
    exact ⟨a.1, [], by simp [judgeAll], by simp, by simp, by simp, by simp, by simp, by simp⟩
  | cons q qs ih =>
    intro a hnd hl
    obtain ⟨hq, hnd⟩ := List.nodup_cons.mp hnd
    have ih := fun a => ih a hnd (fun st q' h => hl st q' (List.mem_cons_of_mem _ h))
    cases hline : line c a.1 rows q with
    | none => exact absurd hline (hl a.1 q List.mem_cons_self)
    | some l =>
      by_cases h2 : 2 ≤ c.ec l
      · by_cases h3 : a.1.iters q < c.maxIts
        · obtain ⟨st, new, e, n1, n2, n3, n4, n5, n6⟩ := ih ({ a.1 with hist := put a.1.hist q (fun k => l.getD k 0), inform := put a.1.inform q (c.ec l), iters := put a.1.iters q (a.1.iters q + 1) }, a.2 ++ [q])
          have hqn : q ∉ new := fun h => hq (n2 q h)
          refine ⟨st, q :: new, ?_, List.nodup_cons.mpr ⟨hqn, n1⟩, ?_, ?_, ?_, ?_, ?_⟩
          · simp only [judgeAll, judge, hline, h2, h3, if_true]
            rw [e, List.append_assoc]; rfl
          · intro q' h
            rcases List.mem_cons.mp h with rfl | h
            · exact List.mem_cons_self
            · exact List.mem_cons_of_mem _ (n2 q' h)
          · intro q'
            rw [n3]
            by_cases h : q' = q
            · subst h; simp [put, hqn]
            · simp [put, h]
          · intro q' h
            rcases List.mem_cons.mp h with rfl | h
            · exact h3
            · have := n4 q' h
              have hne : q' ≠ q := fun e => hqn (e ▸ h)
              simpa [put, hne] using this
          · intro q' h
            rcases List.mem_cons.mp h with rfl | h
            · exact .inl List.mem_cons_self
            · rcases n5 q' h with h | h
              · exact .inl (List.mem_cons_of_mem _ h)
              · exact .inr h
          · intro q' h
            have h1 : q' ≠ q := fun e => h (e ▸ List.mem_cons_self)
            rw [n6 q' (fun hm => h (List.mem_cons_of_mem _ hm))]
            simp [put, h1]
        · obtain ⟨st, new, e, n1, n2, n3, n4, n5, n6⟩ := ih ({ a.1 with hist := put a.1.hist q (fun k => l.getD k 0), inform := put a.1.inform q (c.ec l) }, a.2)
          refine ⟨st, new, ?_, n1, fun q' h => List.mem_cons_of_mem _ (n2 q' h), n3, n4, ?_, ?_⟩
          · simp only [judgeAll, judge, hline, h2, h3, if_true, if_false]
            exact e
          · intro q' h
            rcases List.mem_cons.mp h with rfl | h
            · refine .inr (.inr ?_)
              rw [n3, if_neg (fun h => hq (n2 _ h))]
              simp only; omega
            · exact n5 q' h
          · intro q' h
            have h1 : q' ≠ q := fun e => h (e ▸ List.mem_cons_self)
            rw [n6 q' (fun hm => h (List.mem_cons_of_mem _ hm))]
            simp [put, h1]
      · obtain ⟨st, new, e, n1, n2, n3, n4, n5, n6⟩ := ih ({ a.1 with hist := put a.1.hist q (fun k => l.getD k 0), inform := put a.1.inform q (c.ec l) }, a.2)
        refine ⟨st, new, ?_, n1, fun q' h => List.mem_cons_of_mem _ (n2 q' h), n3, n4, ?_, ?_⟩
        · simp only [judgeAll, judge, hline, h2, if_false]
          exact e
        · intro q' h
          rcases List.mem_cons.mp h with rfl | h
          · refine .inr (.inl ?_)
            rw [n6 _ hq]
            simp only [put, if_true]; omega
          · exact n5 q' h
        · intro q' h
          have h1 : q' ≠ q := fun e => h (e ▸ List.mem_cons_self)
          rw [n6 q' (fun hm => h (List.mem_cons_of_mem _ hm))]
          simp [put, h1]

theorem mem_pairsIn {c : Cfg} (h0 : 0 < c.nf) {ps : List Pair} (hg : ∀ q ∈ ps, q ∈ grid c.n c.p) {rows : List Row} (ha : Answers c.nf ps rows) {q : Pair} :
    q ∈ pairsIn c rows ↔ q ∈ ps := by
  unfold pairsIn
  simp only [List.mem_filter, List.any_eq_true, decide_eq_true_eq]
  constructor
  · rintro ⟨_, r, hr, rfl⟩
    exact ((C72_batch c.nf ps r.key.pair r.key.k).1.mp (ha.1 r hr)).1
  · intro hq
    refine ⟨hg q hq, ?_⟩
    have : ∃ k, k ≤ c.nf ∧ k ≠ c.nf / 2 := ⟨c.nf, Nat.le_refl _, by omega⟩
    obtain ⟨k, h1, h2⟩ := this
    obtain ⟨r, hr, hk⟩ := ha.2 ⟨q, k⟩ ((C72_batch c.nf ps q k).1.mpr ⟨hq, h1, h2⟩)
    exact ⟨r, hr, by rw [hk]⟩

theorem pairsIn_nodup (c : Cfg) (rows : List Row) : (pairsIn c rows).Nodup := (grid_nodup _ _).filter _

/-! ### All rounds -/

theorem after_snoc (c : Cfg) (rs : List (List Row)) (rows : List Row) : after c (rs ++ [rows]) = next c (after c rs) rows := by
  simp [after, List.foldl_append]

theorem asked_snoc (c : Cfg) (rs : List (List Row)) (rows : List Row) : asked c (rs ++ [rows]) = asked c rs ++ (after c (rs ++ [rows])).pairs := by
  unfold asked
  rw [List.length_append, List.length_singleton, List.range_succ, List.flatMap_append]
  congr 1
  · rw [List.flatMap_def, List.flatMap_def]
    congr 1
    apply List.map_congr_left
    intro k hk
    rw [List.take_append_of_le_length (by have := List.mem_range.mp hk; omega)]
  · simp [List.take_of_length_le]

/-- The state after any number of rounds. -/
structure Inv (c : Cfg) (rs : List (List Row)) : Prop where
  fine : ∀ st ps, after c rs = .asks st ps → (∀ q ∈ ps, q ∈ grid c.n c.p) ∧ ps.Nodup ∧ (∀ q ∈ grid c.n c.p, st.iters q = (asked c rs).count q) ∧
    (∀ q ∈ ps, (asked c rs).count q = rs.length + 1) ∧
    (∀ q ∈ grid c.n c.p, q ∈ ps ∨ st.inform q < 2 ∨ c.maxIts ≤ st.iters q) ∧ (ps ≠ [] ∨ ∃ q ∈ grid c.n c.p, st.inform q ≠ 1)
  ok : after c rs ≠ .failed
  few : ∀ q, (asked c rs).count q ≤ max 1 c.maxIts
  inside : ∀ q ∈ asked c rs, q ∈ grid c.n c.p

theorem Faithful.init {c : Cfg} {rs : List (List Row)} {rows : List Row} (h : Faithful c (rs ++ [rows])) : Faithful c rs ∧ Answers c.nf (after c rs).pairs rows :=
  ⟨fun pre r post e => h pre r (post ++ [rows]) (by rw [e]; simp), h rs rows [] rfl⟩

theorem Faithful.inv {c : Cfg} (hn : c.n = 2) (hp : 0 < c.p) (h0 : 0 < c.nf) (he : c.nf % 2 = 0) {rs : List (List Row)} (h : Faithful c rs) : Inv c rs := by
  have hrev : ∀ l : List (List Row), Faithful c l.reverse → Inv c l.reverse := by
    intro l
    induction l with
    | nil =>
      intro _
      have hs : after c [] = .asks (.init c) (grid c.n c.p) := by simp [after, start, hn, C72_first]
      have ha : asked c [] = grid c.n c.p := by simp [asked, hs, Res.pairs]
      have hc : ∀ q ∈ grid c.n c.p, (grid c.n c.p).count q = 1 := fun q hq => by rw [(grid_nodup _ _).count, if_pos hq]
      refine { fine := ?_, ok := ?_, few := ?_, inside := ?_ }
      · intro st ps h
        rw [List.reverse_nil, hs] at h
        injection h with h1 h2
        subst h1; subst h2
        rw [List.reverse_nil, ha]
        refine ⟨fun q hq => hq, grid_nodup _ _, fun q hq => (hc q hq).symm, fun q hq => hc q hq, fun q hq => .inl hq, .inl ?_⟩
        intro hnil
        have := grid_length c.n c.p
        rw [hnil, hn] at this
        simp at this
        omega
      · rw [List.reverse_nil, hs]; nofun
      · intro q
        rw [List.reverse_nil, ha]
        have : (grid c.n c.p).count q ≤ 1 := List.nodup_iff_count.mp (grid_nodup _ _) q
        omega
      · rw [List.reverse_nil, ha]; exact fun q hq => hq
    | cons rows l ih =>
      rw [List.reverse_cons]
      intro h
      obtain ⟨h1, h2⟩ := h.init
      have I := ih h1
      generalize l.reverse = rs at I h1 h2
      cases hr : after c rs with
      | failed => exact absurd hr I.ok
      | done =>
        have hd : after c (rs ++ [rows]) = .done := by rw [after_snoc, hr]; rfl
        have ha : asked c (rs ++ [rows]) = asked c rs := by rw [asked_snoc, hd]; simp [Res.pairs]
        exact ⟨fun st ps e => (by rw [hd] at e; cases e), by rw [hd]; nofun, by rw [ha]; exact I.few, by rw [ha]; exact I.inside⟩
      | asks st ps =>
        obtain ⟨f1, f2, f3, f4, f5, f6⟩ := I.fine st ps hr
        rw [hr] at h2
        have hmem : ∀ q, q ∈ pairsIn c rows ↔ q ∈ ps := fun q => mem_pairsIn h0 f1 h2
        obtain ⟨st', new, e, n1, n2, n3, n4, n5, n6⟩ := judgeAll_spec (c := c) (rows := rows) (pairsIn c rows) (st, []) (pairsIn_nodup c rows)
          (fun st q hq => line_some he h2 st ((hmem q).mp hq))
        simp only [List.nil_append] at e n3 n4 n6
        have hnx : after c (rs ++ [rows]) = if (grid c.n c.p).all (fun q => st'.inform q = 1) then .done else .asks st' new := by
          rw [after_snoc, hr]; simp only [next, e]
        have hle : ∀ q, ((asked c rs) ++ new).count q ≤ max 1 c.maxIts := by
          intro q
          rw [List.count_append]
          by_cases hq : q ∈ new
          · have hg : q ∈ grid c.n c.p := f1 q ((hmem q).mp (n2 q hq))
            have := f3 q hg
            have := n4 q hq
            have : new.count q ≤ 1 := List.nodup_iff_count.mp n1 q
            omega
          · rw [List.count_eq_zero_of_not_mem hq]; exact I.few q
        have hin : ∀ q ∈ new, q ∈ grid c.n c.p := fun q hq => f1 q ((hmem q).mp (n2 q hq))
        split at hnx
        · have ha : asked c (rs ++ [rows]) = asked c rs := by rw [asked_snoc, hnx]; simp [Res.pairs]
          exact ⟨fun st ps e => (by rw [hnx] at e; cases e), by rw [hnx]; nofun, by rw [ha]; exact I.few, by rw [ha]; exact I.inside⟩
        · rename_i hall
          have ha : asked c (rs ++ [rows]) = asked c rs ++ new := by rw [asked_snoc, hnx]; rfl
          refine ⟨fun st ps e => ?_, by rw [hnx]; nofun, by rw [ha]; exact hle, by rw [ha]; intro q hq; exact (List.mem_append.mp hq).elim (I.inside q) (hin q)⟩
          rw [hnx] at e
          injection e with e1 e2
          subst e1; subst e2
          have hcn : ∀ q, new.count q = if q ∈ new then 1 else 0 := fun q => n1.count
          refine ⟨hin, n1, fun q hq => ?_, fun q hq => ?_, fun q hq => ?_, .inr ?_⟩
          · rw [n3, ha, List.count_append, f3 q hq, hcn]
          · rw [ha, List.count_append, f4 q ((hmem q).mp (n2 q hq)), hcn, if_pos hq, List.length_append]; rfl
          · by_cases hqp : q ∈ pairsIn c rows
            · exact n5 q hqp
            · rcases f5 q hq with h | h
              · exact absurd ((hmem q).mpr h) hqp
              · refine .inr ?_
                rw [n6 q hqp, n3, if_neg (fun h => hqp (n2 q h))]
                exact h
          · simp only [Bool.not_eq_true, List.all_eq_false, decide_eq_true_eq] at hall
            obtain ⟨q, hq, hne⟩ := hall
            exact ⟨q, hq, by simpa using hne⟩
  have := hrev rs.reverse
  rw [List.reverse_reverse] at this
  exact this h

/-- With two variables and even `nf`, every value looked for is there, as long as messages are answered completely.  Partial: with odd
`nf` or another number of variables the generator fails, see `C72_odd` and `C72_dimension`. -/
theorem C72_answered_partial (c : Cfg) (hn : c.n = 2) (hp : 0 < c.p) (h0 : 0 < c.nf) (he : c.nf % 2 = 0) (rs : List (List Row)) (h : Faithful c rs) :
    after c rs ≠ .failed := (h.inv hn hp h0 he).ok

/-- No pair is asked for more than `maxnoiseits` times (or once). -/
theorem C72_bound_partial (c : Cfg) (hn : c.n = 2) (hp : 0 < c.p) (h0 : 0 < c.nf) (he : c.nf % 2 = 0) (rs : List (List Row)) (h : Faithful c rs) (q : Pair) :
    (asked c rs).count q ≤ max 1 c.maxIts ∧ (q ∈ asked c rs → q.1 < 2 ∧ q.2 < c.p) := by
  have I := h.inv hn hp h0 he
  exact ⟨I.few q, fun hq => by have := mem_grid.mp (I.inside q hq); rwa [hn] at this⟩

/-- After `maxnoiseits` rounds the generator has ended or asks for nothing any more. -/
theorem C72_rounds_partial (c : Cfg) (hn : c.n = 2) (hp : 0 < c.p) (h0 : 0 < c.nf) (he : c.nf % 2 = 0) (rs : List (List Row)) (h : Faithful c rs)
    (hl : max 1 c.maxIts ≤ rs.length) : after c rs = .done ∨ ∃ st, after c rs = .asks st [] := by
  have I := h.inv hn hp h0 he
  cases hr : after c rs with
  | failed => exact absurd hr I.ok
  | done => exact .inl rfl
  | asks st ps =>
    refine .inr ⟨st, ?_⟩
    cases ps with
    | nil => rfl
    | cons q ps =>
      have h1 := (I.fine st _ hr).2.2.2.1 q List.mem_cons_self
      have h2 := I.few q
      omega

/-- When the generator asks for nothing and waits, there is a pair that it has given up: it has been asked for `maxnoiseits` times, or its
estimate ended with a value below 2 other than 1. -/
theorem C72_silent_partial (c : Cfg) (hn : c.n = 2) (hp : 0 < c.p) (h0 : 0 < c.nf) (he : c.nf % 2 = 0) (rs : List (List Row)) (h : Faithful c rs) (st : St)
    (hs : after c rs = .asks st []) : ∃ q ∈ grid 2 c.p, st.inform q ≠ 1 ∧ (st.inform q < 2 ∨ c.maxIts ≤ (asked c rs).count q) := by
  have I := h.inv hn hp h0 he
  obtain ⟨_, _, f3, _, f5, f6⟩ := I.fine st [] hs
  rcases f6 with h | ⟨q, hq, hne⟩
  · exact absurd rfl h
  · rw [hn] at hq
    refine ⟨q, hq, hne, ?_⟩
    rw [← hn] at hq
    rw [← f3 q hq]
    exact (f5 q hq).resolve_left (by simp)

/-- Once it asks for nothing, nothing can be answered, and it waits for ever: an empty array changes nothing. -/
theorem C72_stuck (c : Cfg) (rs : List (List Row)) (st : St) (hs : after c rs = .asks st []) (hne : ∃ q ∈ grid c.n c.p, st.inform q ≠ 1) (n : Nat) :
    after c (rs ++ List.replicate n []) = .asks st [] := by
  induction n with
  | zero => simpa using hs
  | succ n ih =>
    rw [List.replicate_succ', ← List.append_assoc, after_snoc, ih]
    have : pairsIn c [] = [] := by simp [pairsIn]
    simp only [next, this, judgeAll]
    rw [if_neg]
    obtain ⟨q, hq, h1⟩ := hne
    simp only [Bool.not_eq_true, List.all_eq_false, decide_eq_true_eq]
    exact ⟨q, hq, by simpa using h1⟩

/-- With odd `nf` the generator fails on the first answer: it looks for the value of a point that it has not asked for. -/
theorem C72_odd (c : Cfg) (hn : c.n = 2) (hp : 0 < c.p) (ho : c.nf % 2 = 1) (rows : List Row) (h : Answers c.nf (grid 2 c.p) rows) : after c [rows] = .failed := by
  have hs : start c = .asks (.init c) (grid c.n c.p) := by simp [start, hn, C72_first]
  have hm := fun q => mem_pairsIn (c := c) (by omega) (fun q hq => by rw [hn]; exact hq) h (q := q)
  have hq0 : ((0, 0) : Pair) ∈ pairsIn c rows := (hm _).mpr (mem_grid.mpr ⟨by simp, hp⟩)
  have hl : ∀ st, ∀ q, line c st rows q = none := by
    intro st q
    refine mapM_none.mpr ⟨c.nf / 2, List.mem_range.mpr (by omega), ?_⟩
    rw [if_neg (by omega)]
    refine look_none.mpr fun r hr hk => ?_
    have := (C72_batch c.nf _ r.key.pair r.key.k).1.mp (h.1 r hr)
    rw [hk] at this
    exact this.2.2 rfl
  simp only [after, List.foldl_cons, List.foldl_nil, next, hs]
  cases hp : pairsIn c rows with
  | nil => rw [hp] at hq0; cases hq0
  | cons q qs => simp [judgeAll, judge, hl]

/-! ### Examples -/

/-- Two variables, two components, `nf = 2`, at most two rounds; estimates succeed for lines that do not begin with a negative number. -/
def demo : Cfg := { n := 2, p := 2, nf := 2, maxIts := 2, f0 := fun _ => 7, ec := fun l => if l.headD 0 < 0 then 3 else 1 }

/-- All values as asked for: `g` gives the value. -/
def fill (c : Cfg) (ps : List Pair) (g : Key → Int) : List Row := (build c.nf ps).map fun k => ⟨k, g k⟩

theorem fill_answers (c : Cfg) (ps : List Pair) (g : Key → Int) : Answers c.nf ps (fill c ps g) := by
  constructor
  · intro r hr
    obtain ⟨k, hk, rfl⟩ := List.mem_map.mp hr
    exact hk
  · exact fun k hk => ⟨_, List.mem_map.mpr ⟨k, hk, rfl⟩, rfl⟩

/-- One pair is asked for again, and then all is well. -/
def demoRounds : List (List Row) :=
  [fill demo (grid 2 2) fun k => if k.pair = (1, 0) then -1 else 5, fill demo [(1, 0)] fun _ => 5]

theorem demo_faithful : Faithful demo demoRounds := by
  intro pre rows post e
  match pre with
  | [] =>
    injection e with e _
    rw [← e]
    exact fill_answers demo (grid 2 2) _
  | [a] =>
    injection e with e1 e2
    injection e2 with e2 _
    rw [← e1, ← e2]
    exact fill_answers demo [(1, 0)] _
  | _ :: _ :: _ :: _ => simp [demoRounds] at e
  | [_, _] => simp [demoRounds] at e

def Res.isDone : Res → Bool
  | .done => true
  | _ => false

example : Faithful demo demoRounds ∧ asked demo demoRounds = [(0, 0), (0, 1), (1, 0), (1, 1), (1, 0)] ∧ (after demo demoRounds).isDone = true ∧
    (after demo (demoRounds.take 1)).isDone = false := ⟨demo_faithful, by decide, by decide, by decide⟩

/-- One pair never succeeds: after two rounds it is given up, the generator sends an empty array and waits. -/
def lostRounds : List (List Row) :=
  [fill demo (grid 2 2) fun k => if k.pair = (1, 0) then -1 else 5, fill demo [(1, 0)] fun _ => -1]

theorem lost_faithful : Faithful demo lostRounds := by
  intro pre rows post e
  match pre with
  | [] =>
    injection e with e _
    rw [← e]
    exact fill_answers demo (grid 2 2) _
  | [a] =>
    injection e with e1 e2
    injection e2 with e2 _
    rw [← e1, ← e2]
    exact fill_answers demo [(1, 0)] _
  | _ :: _ :: _ :: _ => simp [lostRounds] at e
  | [_, _] => simp [lostRounds] at e

/-- The run in which the generator waits for ever without having asked for anything. -/
theorem C72_silent_witness : Faithful demo lostRounds ∧ (∃ st, after demo lostRounds = .asks st [] ∧ st.inform (1, 0) = 3) ∧ (asked demo lostRounds).count (1, 0) = 2 :=
  ⟨lost_faithful, ⟨_, rfl, by decide⟩, by decide⟩

example : Answers 3 (grid 2 2) (fill { demo with nf := 3 } (grid 2 2) fun _ => 0) := fill_answers { demo with nf := 3 } (grid 2 2) _

end Verif.Gens.Fd
