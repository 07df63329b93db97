import Verif.Alloc.MoreLemmas
/-
Which rows the loops of Verif.Alloc.More take, and that no order of an answer is overwritten by another.
-/
namespace Verif.Alloc
open Verif.History Verif.Res Verif.Sched

theorem argMax_spec (v : Nat → Int) : ∀ (is : List Nat) (i : Nat), (i :: is).Pairwise (· < ·) →
    argMax v i is ∈ i :: is ∧ ∀ j ∈ i :: is, v j ≤ v (argMax v i is) ∧ (v j = v (argMax v i is) → argMax v i is ≤ j) := by
  intro is
  induction is with
  | nil => intro i _; simp [argMax]
  | cons a is ih =>
    intro i hs
    rw [List.pairwise_cons, List.pairwise_cons] at hs
    obtain ⟨h1, h2, h3⟩ := hs
    have hia := h1 a (by simp)
    unfold argMax
    split
    · rename_i hv
      obtain ⟨g1, g2⟩ := ih a (List.pairwise_cons.mpr ⟨h2, h3⟩)
      refine ⟨List.mem_cons_of_mem _ g1, ?_⟩
      intro j hj
      rcases List.mem_cons.mp hj with rfl | hj
      · have := (g2 a (by simp)).1
        exact ⟨by omega, fun h => by omega⟩
      · exact g2 j hj
    · rename_i hv
      obtain ⟨g1, g2⟩ := ih i (List.pairwise_cons.mpr ⟨fun j hj => h1 j (List.mem_cons_of_mem _ hj), h3⟩)
      refine ⟨?_, ?_⟩
      · rcases List.mem_cons.mp g1 with h | h
        · rw [h]; simp
        · exact List.mem_cons_of_mem _ (List.mem_cons_of_mem _ h)
      · intro j hj
        rcases List.mem_cons.mp hj with rfl | hj
        · exact g2 j (by simp)
        rcases List.mem_cons.mp hj with rfl | hj
        · have g3 := g2 i (by simp)
          refine ⟨by omega, fun h => ?_⟩
          have := g3.2 (by omega)
          omega
        · exact g2 j (List.mem_cons_of_mem _ hj)

/-- Without an order on the list: a largest element. -/
theorem argMax_max (v : Nat → Int) : ∀ (is : List Nat) (i : Nat),
    argMax v i is ∈ i :: is ∧ ∀ j ∈ i :: is, v j ≤ v (argMax v i is) := by
  intro is
  induction is with
  | nil => intro i; simp [argMax]
  | cons a is ih =>
    intro i
    unfold argMax
    split
    · rename_i hv
      obtain ⟨g1, g2⟩ := ih a
      refine ⟨List.mem_cons_of_mem _ g1, ?_⟩
      intro j hj
      rcases List.mem_cons.mp hj with rfl | hj
      · have := g2 a (by simp); omega
      · exact g2 j hj
    · rename_i hv
      obtain ⟨g1, g2⟩ := ih i
      refine ⟨?_, ?_⟩
      · rcases List.mem_cons.mp g1 with h | h
        · rw [h]; simp
        · exact List.mem_cons_of_mem _ (List.mem_cons_of_mem _ h)
      · intro j hj
        rcases List.mem_cons.mp hj with rfl | hj
        · exact g2 j (by simp)
        rcases List.mem_cons.mp hj with rfl | hj
        · have := g2 i (by simp); omega
        · exact g2 j (List.mem_cons_of_mem _ hj)

theorem maxOf_spec : ∀ (l : List Int) (a : Int), maxOf a l ∈ a :: l ∧ ∀ x ∈ a :: l, x ≤ maxOf a l := by
  intro l
  induction l with
  | nil => intro a; simp [maxOf]
  | cons b l ih =>
    intro a
    have h : maxOf a (b :: l) = maxOf (max a b) l := rfl
    rw [h]
    obtain ⟨g1, g2⟩ := ih (max a b)
    have g3 := g2 (max a b) (by simp)
    refine ⟨?_, ?_⟩
    · rcases List.mem_cons.mp g1 with h | h
      · rw [h]
        rcases Int.le_total a b with h' | h'
        · rw [Int.max_eq_right h']; simp
        · rw [Int.max_eq_left h']; simp
      · exact List.mem_cons_of_mem _ (List.mem_cons_of_mem _ h)
    · intro x hx
      rcases List.mem_cons.mp hx with rfl | hx
      · omega
      rcases List.mem_cons.mp hx with rfl | hx
      · omega
      · exact g2 x (List.mem_cons_of_mem _ hx)

theorem minOf_spec : ∀ (l : List Int) (a : Int), minOf a l ∈ a :: l ∧ ∀ x ∈ a :: l, minOf a l ≤ x := by
  intro l
  induction l with
  | nil => intro a; simp [minOf]
  | cons b l ih =>
    intro a
    have h : minOf a (b :: l) = minOf (min a b) l := rfl
    rw [h]
    obtain ⟨g1, g2⟩ := ih (min a b)
    have g3 := g2 (min a b) (by simp)
    refine ⟨?_, ?_⟩
    · rcases List.mem_cons.mp g1 with h | h
      · rw [h]
        rcases Int.le_total a b with h' | h'
        · rw [Int.min_eq_left h']; simp
        · rw [Int.min_eq_right h']; simp
      · exact List.mem_cons_of_mem _ (List.mem_cons_of_mem _ h)
    · intro x hx
      rcases List.mem_cons.mp hx with rfl | hx
      · omega
      rcases List.mem_cons.mp hx with rfl | hx
      · omega
      · exact g2 x (List.mem_cons_of_mem _ hx)

/-! ### Rows taken -/

theorem Picked.nil_of {pick : List Nat → List Nat} {chunks : List (List Nat)} {pts' : List Nat} (h : Picked pick [] chunks pts') : chunks = [] := by
  cases chunks with
  | nil => rfl
  | cons ids r => exact absurd rfl h.1

/-- What is left was there. -/
theorem Picked.left {pick : List Nat → List Nat} : ∀ {chunks : List (List Nat)} {pts pts' : List Nat}, Picked pick pts chunks pts' →
    ∀ j ∈ pts', j ∈ pts ∧ j ∉ chunks.flatten := by
  intro chunks
  induction chunks with
  | nil => intro pts pts' h j hj; rw [show pts' = pts from h] at hj; exact ⟨hj, by simp⟩
  | cons ids r ih =>
    intro pts pts' h j hj
    obtain ⟨_, h1, h2⟩ := h
    obtain ⟨g1, g2⟩ := ih h2 j hj
    rw [List.mem_filter] at g1
    refine ⟨g1.1, ?_⟩
    rw [List.flatten_cons, List.mem_append]
    rintro (h | h)
    · simp at g1; exact g1.2 h
    · exact g2 h

theorem Picked.oldest : ∀ {chunks : List (List Nat)} {pts pts' : List Nat}, Picked oldest pts chunks pts' → pts.Pairwise (· < ·) →
    (∀ ids ∈ chunks, ∃ i, ids = [i]) ∧ ∀ i ∈ chunks.flatten, ∀ j ∈ pts', i < j := by
  intro chunks
  induction chunks with
  | nil => intro pts pts' _ _; simp
  | cons ids r ih =>
    intro pts pts' h hs
    have hleft := h.left
    obtain ⟨hne, h1, h2⟩ := h
    cases pts with
    | nil => exact absurd rfl hne
    | cons x pts =>
      have hids : ids = [x] := by rw [h1]; rfl
      obtain ⟨g1, g2⟩ := ih h2 (List.Pairwise.filter _ hs)
      refine ⟨?_, ?_⟩
      · intro l hl
        rcases List.mem_cons.mp hl with rfl | hl
        · exact ⟨x, hids⟩
        · exact g1 l hl
      · intro i hi j hj
        rw [List.flatten_cons, List.mem_append] at hi
        rcases hi with hi | hi
        · rw [hids, List.mem_singleton] at hi
          subst hi
          obtain ⟨k1, k2⟩ := hleft j hj
          rcases List.mem_cons.mp k1 with rfl | k1
          · exact absurd (by rw [List.flatten_cons, List.mem_append, hids]; simp) k2
          · exact (List.pairwise_cons.mp hs).1 j k1
        · exact g2 i hi j hj

theorem Picked.sub {H : List Row} {f : Field} : ∀ {chunks : List (List Nat)} {pts pts' : List Nat}, Picked (firstSub H f) pts chunks pts' →
    (∀ ids ∈ chunks, ids ≠ [] ∧ ∃ v, ∀ i, i ∈ ids ↔ i ∈ pts ∧ intAt H f i = v) ∧
      ∀ i ∈ chunks.flatten, ∀ j ∈ pts', intAt H f i < intAt H f j := by
  intro chunks
  induction chunks with
  | nil => intro pts pts' _; simp
  | cons ids r ih =>
    intro pts pts' h
    have hleft := h.left
    obtain ⟨hne, h1, h2⟩ := h
    cases pts with
    | nil => exact absurd rfl hne
    | cons x pts =>
      obtain ⟨g1, g2⟩ := ih h2
      have hm := minOf_spec (pts.map (intAt H f)) (intAt H f x)
      generalize hv : minOf (intAt H f x) (pts.map (intAt H f)) = v at hm
      have hids : ∀ i, i ∈ ids ↔ i ∈ x :: pts ∧ intAt H f i = v := by
        intro i; rw [h1, firstSub, List.mem_filter, hv]; simp
      have hmin : ∀ j ∈ x :: pts, v ≤ intAt H f j := fun j hj => hm.2 _ (by
        rw [← List.map_cons]; exact List.mem_map_of_mem hj)
      refine ⟨?_, ?_⟩
      · intro l hl
        rcases List.mem_cons.mp hl with rfl | hl
        · refine ⟨?_, v, hids⟩
          have := hm.1
          rw [← List.map_cons, List.mem_map] at this
          obtain ⟨j, hj, hjv⟩ := this
          exact List.ne_nil_of_mem ((hids j).mpr ⟨hj, hjv⟩)
        · obtain ⟨k1, v', k2⟩ := g1 l hl
          refine ⟨k1, v', fun i => ?_⟩
          rw [k2, List.mem_filter]
          simp only [decide_not, Bool.not_eq_eq_eq_not, Bool.not_true, decide_eq_false_iff_not, hids]
          obtain ⟨i0, hi0⟩ := List.exists_mem_of_ne_nil _ k1
          have hv' := (k2 i0).mp hi0
          rw [List.mem_filter] at hv'
          simp only [decide_not, Bool.not_eq_eq_eq_not, Bool.not_true, decide_eq_false_iff_not, hids] at hv'
          have hvv : v' ≠ v := fun e => hv'.1.2 ⟨hv'.1.1, by rw [hv'.2, e]⟩
          constructor
          · rintro ⟨⟨a, _⟩, c⟩; exact ⟨a, c⟩
          · rintro ⟨a, c⟩; exact ⟨⟨a, fun h => hvv (by rw [← c, h.2])⟩, c⟩
      · intro i hi j hj
        rw [List.flatten_cons, List.mem_append] at hi
        rcases hi with hi | hi
        · obtain ⟨k1, k2⟩ := hleft j hj
          have hvi := ((hids i).mp hi).2
          have hj1 := hmin j k1
          have hj2 : intAt H f j ≠ v := fun e => k2 (by rw [List.flatten_cons, List.mem_append]; exact .inl ((hids j).mpr ⟨k1, e⟩))
          omega
        · exact g2 i hi j hj

/-- Is row `i` a row of a run? -/
def isLocal (H : List Row) (f : Field) (i : Nat) : Bool := ((H[i]?).map (·.flag f)).getD false

theorem localFirst_cases {H : List Row} {f : Field} {pts : List Nat} (hne : pts ≠ []) :
    ∃ x, localFirst H f pts = [x] ∧ x ∈ pts ∧ (pts.Pairwise (· < ·) → ∀ j ∈ pts, j ≠ x →
      (isLocal H f j = true → isLocal H f x = true) ∧ (isLocal H f j = isLocal H f x → x < j)) := by
  have hdef : localFirst H f pts = if (pts.filter (isLocal H f)).isEmpty then pts.take 1 else (pts.filter (isLocal H f)).take 1 := rfl
  have head : ∀ {l : List Nat} {x : Nat} {l' : List Nat}, l = x :: l' → l.Pairwise (· < ·) → ∀ j ∈ l, j ≠ x → x < j := by
    intro l x l' e hs j hj hn
    subst e
    rcases List.mem_cons.mp hj with h | h
    · exact absurd h hn
    · exact (List.pairwise_cons.mp hs).1 j h
  cases ho : pts.filter (isLocal H f) with
  | nil =>
    cases hp : pts with
    | nil => exact absurd hp hne
    | cons x l =>
      refine ⟨x, by rw [← hp, hdef, ho, hp]; rfl, by simp, fun hs j hj hn => ?_⟩
      have hno : ∀ j ∈ x :: l, isLocal H f j = false := by
        intro j hj
        rw [← hp] at hj
        cases hl : isLocal H f j with
        | false => rfl
        | true =>
          have : j ∈ pts.filter (isLocal H f) := List.mem_filter.mpr ⟨hj, hl⟩
          rw [ho] at this; simp at this
      exact ⟨fun h => by rw [hno j hj] at h; simp at h, fun _ => head rfl hs j hj hn⟩
  | cons x l =>
    have hx : x ∈ pts.filter (isLocal H f) := by rw [ho]; simp
    rw [List.mem_filter] at hx
    refine ⟨x, by rw [hdef, ho]; rfl, hx.1, fun hs j hj hn => ⟨fun _ => hx.2, fun h => ?_⟩⟩
    rw [hx.2] at h
    exact head ho (List.Pairwise.filter _ hs) j (List.mem_filter.mpr ⟨hj, h⟩) hn

theorem Picked.local {H : List Row} {f : Field} : ∀ {chunks : List (List Nat)} {pts pts' : List Nat}, Picked (localFirst H f) pts chunks pts' →
    pts.Pairwise (· < ·) → (∀ ids ∈ chunks, ∃ i, ids = [i]) ∧ ∀ i ∈ chunks.flatten, ∀ j ∈ pts',
      (isLocal H f j = true → isLocal H f i = true) ∧ (isLocal H f j = isLocal H f i → i < j) := by
  intro chunks
  induction chunks with
  | nil => intro pts pts' _ _; simp
  | cons ids r ih =>
    intro pts pts' h hs
    have hleft := h.left
    obtain ⟨hne, h1, h2⟩ := h
    obtain ⟨x, hx1, hx2, hx3⟩ := localFirst_cases (H := H) (f := f) hne
    rw [hx1] at h1
    obtain ⟨g1, g2⟩ := ih h2 (List.Pairwise.filter _ hs)
    refine ⟨?_, ?_⟩
    · intro l hl
      rcases List.mem_cons.mp hl with rfl | hl
      · exact ⟨x, h1⟩
      · exact g1 l hl
    · intro i hi j hj
      rw [List.flatten_cons, List.mem_append] at hi
      rcases hi with hi | hi
      · rw [h1, List.mem_singleton] at hi
        subst hi
        obtain ⟨k1, k2⟩ := hleft j hj
        refine hx3 hs j k1 (fun e => k2 ?_)
        rw [List.flatten_cons, List.mem_append, h1, e]; simp
      · exact g2 i hi j hj

/-! ### Nothing is overwritten -/

variable {c : Ctx} {pick : List Nat → List Nat} {p : PInfo} {s : Sched} {a : Answer} {rets starts sims gens : WorkD} {wr wg wsim pts' : List Nat}

theorem availIds_state {W : List Wrk} {q : Nat} {z g : Option Bool} {l : List Nat} (h : availIds W (some q) false z g = .ok l) {w : Nat}
    (hw : w ∈ l) : ∃ k ∈ W, k.id = w ∧ k.active = 0 ∧ k.persis = q := by
  obtain ⟨k, h1, h2, h3, h4⟩ := availIds_idle h hw
  exact ⟨k, h1, h2, h3, h4 _ rfl⟩

theorem availIds_disj {W : List Wrk} (hW : IdsOk W) {q q' : Nat} (hq : q ≠ q') {z g z' g' : Option Bool} {l l' : List Nat}
    (h : availIds W (some q) false z g = .ok l) (h' : availIds W (some q') false z' g' = .ok l') {w : Nat} (hw : w ∈ l) : w ∉ l' := by
  intro hw'
  obtain ⟨k, k1, k2, _, k3⟩ := availIds_state h hw
  obtain ⟨k', k1', k2', _, k3'⟩ := availIds_state h' hw'
  have : k = k' := same_wrk hW k1 k1' (by rw [k2, k2'])
  subst this
  exact hq (k3.symm.trans k3')

/-- If the orders for idle workers that are not persistent do not collide, all orders are in the answer. -/
theorem MoreParts.whole (h : MoreParts c pick p s a rets starts sims gens wr wg wsim pts') (hW : IdsOk c.W)
    (hd : (keys (starts ++ sims ++ gens)).Nodup) : a.work = rets ++ starts ++ sims ++ gens := by
  rw [h.work]
  apply puts_nil_left
  have hr := h.retk.nodup (availIds_nodup hW h.retw)
  have e1 : rets ++ starts ++ sims ++ gens = rets ++ (starts ++ sims ++ gens) := by simp
  rw [e1]
  unfold keys at hr hd ⊢
  rw [List.map_append, List.nodup_append]
  refine ⟨hr, hd, ?_⟩
  intro x hx y hy e
  subst e
  have hx' := h.retk.subset hx
  simp only [List.map_append, List.mem_append] at hy
  rcases hy with (hy | hy) | hy
  · exact availIds_disj hW (by decide) h.retw h.genw hx' (h.startk.subset hy)
  · exact availIds_disj hW (by decide) h.retw h.simw hx' (h.simk.subset hy)
  · exact availIds_disj hW (by decide) h.retw h.genw hx' (h.genk.subset hy)

end Verif.Alloc
