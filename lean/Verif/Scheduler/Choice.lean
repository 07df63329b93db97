import Verif.Scheduler.LayoutWF
/-! Helper lemmas: what the selection loops of the scheduler choose. -/
namespace Verif.Sched
open Verif.Res

/-- A dictionary of resource sets by group, as kept by the scheduler. -/
structure DWF (rm : RM) (d : ByGroup) : Prop where
  keys : (d.map (·.1)).Nodup
  sorted : ∀ p ∈ d, p.2.Pairwise (· < ·)
  elems : ∀ p ∈ d, ∀ i ∈ p.2, i < rm.rsets.length ∧ grpOf rm i = p.1

def lookup (d : ByGroup) (g : Nat) : List Nat := ((d.find? fun p => decide (p.1 = g)).map (·.2)).getD []

theorem lookup_of_mem : ∀ {d : ByGroup} {g : Nat} {l : List Nat}, (d.map (·.1)).Nodup → (g, l) ∈ d → lookup d g = l := by
  intro d
  induction d with
  | nil => intro g l _ h; cases h
  | cons p rest ih =>
    intro g l hnd h
    rw [List.map_cons, List.nodup_cons] at hnd
    unfold lookup
    rw [List.find?_cons]
    rcases List.mem_cons.mp h with e | h
    · subst e; simp
    · have hne : p.1 ≠ g := by
        intro e; apply hnd.1; rw [List.mem_map]; exact ⟨(g, l), h, e.symm⟩
      simp only [hne, decide_false]
      exact ih hnd.2 h

/-! ### Teams made of the same number of sets from different groups -/

structure TeamOf (rm : RM) (matching : Bool) (valid : ByGroup) (need : Nat) (team : List Nat) : Prop where
  mem : ∀ i ∈ team, ∃ p ∈ valid, i ∈ p.2
  sorted : team.Pairwise (· < ·)
  enough : need ≤ team.length
  even : ∃ m, ∀ i ∈ team, team.countP (fun j => decide (grpOf rm j = grpOf rm i)) = m
  slots : matching = true → ∀ i ∈ team, ∀ j ∈ team, ∃ k ∈ team, grpOf rm k = grpOf rm j ∧ slotOf rm k = slotOf rm i

theorem sorted_sortNat_nodup {l : List Nat} (h : l.Nodup) : (sortNat l).Pairwise (· < ·) := by
  have h1 : (sortNat l).Pairwise (fun a b => decide (a ≤ b) = true) := by
    apply pairwise_isort
    · intro a b c h1 h2; simp at *; omega
    · intro a b; simp; omega
  have h2 : (sortNat l).Nodup := (sortNat_perm _).nodup_iff.mpr h
  have h3 := h1.and h2
  apply h3.imp
  intro a b hab
  simp at hab
  omega

theorem flatMap_nodup {α} {gs : List α} {f : α → List Nat} {key : Nat → α} (hg : gs.Nodup)
    (hf : ∀ g ∈ gs, (f g).Nodup) (hk : ∀ g ∈ gs, ∀ i ∈ f g, key i = g) : (gs.flatMap f).Nodup := by
  induction gs with
  | nil => exact List.nodup_nil
  | cons g gs ih =>
    rw [List.nodup_cons] at hg
    rw [List.flatMap_cons, List.nodup_append]
    refine ⟨hf g List.mem_cons_self, ih hg.2 (fun x hx => hf x (List.mem_cons_of_mem _ hx))
      (fun x hx => hk x (List.mem_cons_of_mem _ hx)), ?_⟩
    intro a ha b hb e
    subst e
    rw [List.mem_flatMap] at hb
    obtain ⟨g', hg', ha'⟩ := hb
    have e1 := hk g List.mem_cons_self a ha
    have e2 := hk g' (List.mem_cons_of_mem _ hg') a ha'
    apply hg.1
    rw [← e1, e2]
    exact hg'

theorem flatMap_count {gs : List Nat} {f : Nat → List Nat} {key : Nat → Nat} {m : Nat} (hg : gs.Nodup)
    (hl : ∀ g ∈ gs, (f g).length = m) (hk : ∀ g ∈ gs, ∀ i ∈ f g, key i = g) (g : Nat) :
    (gs.flatMap f).countP (fun j => decide (key j = g)) = if g ∈ gs then m else 0 := by
  induction gs with
  | nil => simp
  | cons x xs ih =>
    rw [List.nodup_cons] at hg
    rw [List.flatMap_cons, List.countP_append, ih hg.2 (fun y hy => hl y (List.mem_cons_of_mem _ hy))
      (fun y hy => hk y (List.mem_cons_of_mem _ hy))]
    have hx := hk x List.mem_cons_self
    have hlx := hl x List.mem_cons_self
    by_cases e : x = g
    · subst e
      rw [List.countP_eq_length.mpr (by intro i hi; simpa using hx i hi), hlx]
      simp [hg.1]
    · rw [List.countP_eq_zero.mpr (by intro i hi; simp; rw [hx i hi]; exact e)]
      have : g ∈ x :: xs ↔ g ∈ xs := by
        rw [List.mem_cons]; constructor
        · rintro (h | h); exact absurd h.symm e; exact h
        · exact Or.inr
      simp [this]

theorem flatMap_length {α} {gs : List α} {f : α → List Nat} {m : Nat} (hl : ∀ g ∈ gs, (f g).length = m) :
    (gs.flatMap f).length = gs.length * m := by
  induction gs with
  | nil => simp
  | cons x xs ih =>
    rw [List.flatMap_cons, List.length_append, hl x List.mem_cons_self,
      ih (fun y hy => hl y (List.mem_cons_of_mem _ hy)), List.length_cons, Nat.succ_mul, Nat.add_comm]

theorem team_of_groups {rm : RM} {valid : ByGroup} {gs : List Nat} {f : Nat → List Nat} {m need : Nat}
    {matching : Bool}
    (hg : gs.Nodup) (hf : ∀ g ∈ gs, (f g).Nodup) (hk : ∀ g ∈ gs, ∀ i ∈ f g, grpOf rm i = g)
    (hl : ∀ g ∈ gs, (f g).length = m) (hm : ∀ g ∈ gs, ∀ i ∈ f g, ∃ p ∈ valid, i ∈ p.2)
    (hneed : need ≤ gs.length * m)
    (hslots : matching = true → ∀ g ∈ gs, ∀ g' ∈ gs, ∀ i ∈ f g, ∃ k ∈ f g', slotOf rm k = slotOf rm i) :
    TeamOf rm matching valid need (sortNat (gs.flatMap f)) := by
  have hp := sortNat_perm (gs.flatMap f)
  constructor
  · intro i hi
    rw [mem_sortNat, List.mem_flatMap] at hi
    obtain ⟨g, hg1, hi⟩ := hi
    exact hm g hg1 i hi
  · exact sorted_sortNat_nodup (flatMap_nodup hg hf hk)
  · rw [length_sortNat, flatMap_length hl]; exact hneed
  · refine ⟨m, ?_⟩
    intro i hi
    rw [mem_sortNat, List.mem_flatMap] at hi
    obtain ⟨g, hg1, hi⟩ := hi
    rw [hp.countP_eq, flatMap_count hg hl hk, hk g hg1 i hi, if_pos hg1]
  · intro hma i hi j hj
    rw [mem_sortNat, List.mem_flatMap] at hi hj
    obtain ⟨g, hg1, hi⟩ := hi
    obtain ⟨g', hg2, hj⟩ := hj
    obtain ⟨k, hk1, hk2⟩ := hslots hma g hg1 g' hg2 i hi
    refine ⟨k, ?_, ?_, hk2⟩
    · rw [mem_sortNat, List.mem_flatMap]; exact ⟨g', hg2, hk1⟩
    · rw [hk g' hg2 k hk1, hk g' hg2 j hj]

/-! ### `find_candidate` -/

theorem findCandidate_best (used : List Nat) (rpg : Nat) : ∀ (d : ByGroup) (ub : Nat) (c : Option (List Nat × Nat)),
    (findCandidate used rpg d ub c = c ∧
      ∀ p ∈ d, p.1 ∉ used → rpg ≤ p.2.length → ub ≤ p.2.length) ∨
    (∃ p ∈ d, p.1 ∉ used ∧ rpg ≤ p.2.length ∧ (p.2.length = rpg ∨ p.2.length < ub) ∧
      findCandidate used rpg d ub c = some (p.2.take rpg, p.1) ∧
      ∀ q ∈ d, q.1 ∉ used → rpg ≤ q.2.length → p.2.length ≤ q.2.length) := by
  intro d
  induction d with
  | nil => intro ub c; left; exact ⟨rfl, by simp⟩
  | cons p rest ih =>
    intro ub c
    obtain ⟨g, l⟩ := p
    unfold findCandidate
    by_cases hu : g ∈ used
    · rw [if_pos hu]
      rcases ih ub c with ⟨h1, h2⟩ | ⟨p, hp, h1, h2, h3, h4, h5⟩
      · left
        refine ⟨h1, ?_⟩
        intro q hq hqu
        rcases List.mem_cons.mp hq with e | hq
        · subst e; exact absurd hu hqu
        · exact h2 q hq hqu
      · right
        refine ⟨p, List.mem_cons_of_mem _ hp, h1, h2, h3, h4, ?_⟩
        intro q hq hqu
        rcases List.mem_cons.mp hq with e | hq
        · subst e; exact absurd hu hqu
        · exact h5 q hq hqu
    · rw [if_neg hu]
      by_cases he : l.length = rpg
      · rw [if_pos he]
        right
        refine ⟨(g, l), List.mem_cons_self, hu, by simp [he], Or.inl he, ?_, ?_⟩
        · simp [← he]
        · intro q _ _ hq; simp only; omega
      · rw [if_neg he]
        by_cases hb : rpg < l.length ∧ l.length < ub
        · rw [if_pos hb]
          right
          rcases ih l.length (some (l.take rpg, g)) with ⟨h1, h2⟩ | ⟨p, hp, h1, h2, h3, h4, h5⟩
          · refine ⟨(g, l), List.mem_cons_self, hu, by simp only; omega, Or.inr hb.2, h1, ?_⟩
            intro q hq hqu hqr
            rcases List.mem_cons.mp hq with e | hq
            · subst e; exact Nat.le_refl _
            · exact h2 q hq hqu hqr
          · refine ⟨p, List.mem_cons_of_mem _ hp, h1, h2, by omega, h4, ?_⟩
            intro q hq hqu hqr
            rcases List.mem_cons.mp hq with e | hq
            · subst e; simp only; omega
            · exact h5 q hq hqu hqr
        · rw [if_neg hb]
          rcases ih ub c with ⟨h1, h2⟩ | ⟨p, hp, h1, h2, h3, h4, h5⟩
          · left
            refine ⟨h1, ?_⟩
            intro q hq hqu hqr
            rcases List.mem_cons.mp hq with e | hq
            · subst e; simp only at hqr ⊢; omega
            · exact h2 q hq hqu hqr
          · right
            refine ⟨p, List.mem_cons_of_mem _ hp, h1, h2, h3, h4, ?_⟩
            intro q hq hqu hqr
            rcases List.mem_cons.mp hq with e | hq
            · subst e; simp only at hqr ⊢; omega
            · exact h5 q hq hqu hqr

theorem findCandidate_congr (used : List Nat) (rpg : Nat) (h : Nat × List Nat → List Nat)
    (hh : ∀ p, p.1 ∉ used → h p = p.2) : ∀ (d : ByGroup) (ub : Nat) (c : Option (List Nat × Nat)),
    findCandidate used rpg (d.map fun p => (p.1, h p)) ub c = findCandidate used rpg d ub c := by
  intro d
  induction d with
  | nil => intros; rfl
  | cons p rest ih =>
    intro ub c
    obtain ⟨g, l⟩ := p
    rw [List.map_cons]
    unfold findCandidate
    by_cases hu : g ∈ used
    · simp only [hu, if_true]; exact ih ub c
    · have := hh (g, l) hu
      simp only [hu, if_false, this]
      simp only [ih]

/-- The groups chosen by `find_rsets_any_slots`: distinct, unused before, each with enough sets. -/
theorem anySlotsLoop_groups (rpg ub : Nat) (d0 : ByGroup) (hnd : (d0.map (·.1)).Nodup) :
    ∀ (n : Nat) (h : Nat × List Nat → List Nat) (used acc : List Nat), (∀ p, p.1 ∉ used → h p = p.2) →
      ∃ gs : List Nat, anySlotsLoop rpg ub n (d0.map fun p => (p.1, h p)) used acc
          = acc ++ gs.flatMap (fun g => (lookup d0 g).take rpg) ∧
        gs.Nodup ∧ (∀ g ∈ gs, g ∉ used) ∧ (∀ g ∈ gs, ∃ l, (g, l) ∈ d0 ∧ rpg ≤ l.length) ∧ gs.length ≤ n := by
  intro n
  induction n with
  | zero => intro h used acc _; exact ⟨[], by simp [anySlotsLoop], List.nodup_nil, by simp, by simp, by simp⟩
  | succ n ih =>
    intro h used acc hh
    unfold anySlotsLoop
    rw [findCandidate_congr used rpg h hh]
    rcases findCandidate_best used rpg d0 ub none with ⟨h1, _⟩ | ⟨p, hp, h1, h2, h3, h4, _⟩
    · rw [h1]
      simp only
      obtain ⟨gs, a, b, c, d, e⟩ := ih h used acc hh
      exact ⟨gs, a, b, c, d, by omega⟩
    · rw [h4]
      simp only
      rw [List.map_map]
      have hfun : ((fun q : Nat × List Nat => if q.1 = p.1 then (q.1, q.2.filter fun i => decide (i ∉ p.2.take rpg)) else q) ∘
          fun p => (p.1, h p)) = fun q => (q.1, (fun q : Nat × List Nat =>
            if q.1 = p.1 then (h q).filter (fun i => decide (i ∉ p.2.take rpg)) else h q) q) := by
        funext q
        simp only [Function.comp_def]
        split <;> rfl
      rw [hfun]
      obtain ⟨gs, a, b, c, d, e⟩ := ih (fun q : Nat × List Nat =>
            if q.1 = p.1 then (h q).filter (fun i => decide (i ∉ p.2.take rpg)) else h q)
          (used ++ [p.1]) (acc ++ p.2.take rpg) (by
        intro q hq
        have hq1 : q.1 ∉ used := fun hm => hq (List.mem_append_left _ hm)
        have hq2 : q.1 ≠ p.1 := fun e => hq (List.mem_append_right _ (by simp [e]))
        simp only [hq2, if_false]
        exact hh q hq1)
      refine ⟨p.1 :: gs, ?_, ?_, ?_, ?_, ?_⟩
      · rw [a, List.flatMap_cons, lookup_of_mem hnd (l := p.2) (by exact hp), List.append_assoc]
      · rw [List.nodup_cons]
        exact ⟨fun hm => c p.1 hm (by simp), b⟩
      · intro g hg
        rcases List.mem_cons.mp hg with e | hg
        · rw [e]; exact h1
        · exact fun hm => c g hg (List.mem_append_left _ hm)
      · intro g hg
        rcases List.mem_cons.mp hg with e | hg
        · rw [e]; exact ⟨p.2, hp, h2⟩
        · exact d g hg
      · simp; omega

/-- If enough unused groups have enough sets, every round finds one. -/
theorem anySlotsLoop_all (rpg ub : Nat) (d0 : ByGroup) (hub : ∀ p ∈ d0, p.2.length < ub) :
    ∀ (n : Nat) (h : Nat × List Nat → List Nat) (used acc : List Nat), (∀ p, p.1 ∉ used → h p = p.2) →
      n ≤ (d0.filter fun p => decide (rpg ≤ p.2.length) && decide (p.1 ∉ used)).length →
      (d0.map (·.1)).Nodup →
      (anySlotsLoop rpg ub n (d0.map fun p => (p.1, h p)) used acc).length = acc.length + n * rpg := by
  intro n
  induction n with
  | zero => intros; simp [anySlotsLoop]
  | succ n ih =>
    intro h used acc hh hn hnd
    unfold anySlotsLoop
    rw [findCandidate_congr used rpg h hh]
    rcases findCandidate_best used rpg d0 ub none with ⟨_, h2⟩ | ⟨p, hp, h1, h2, h3, h4, _⟩
    · exfalso
      have : (d0.filter fun p => decide (rpg ≤ p.2.length) && decide (p.1 ∉ used)) = [] := by
        rw [List.filter_eq_nil_iff]
        intro q hq hcon
        simp at hcon
        have := h2 q hq hcon.2 hcon.1
        have := hub q hq
        omega
      rw [this] at hn
      simp at hn
    · rw [h4]
      simp only
      rw [List.map_map]
      have hfun : ((fun q : Nat × List Nat => if q.1 = p.1 then (q.1, q.2.filter fun i => decide (i ∉ p.2.take rpg)) else q) ∘
          fun p => (p.1, h p)) = fun q => (q.1, (fun q : Nat × List Nat =>
            if q.1 = p.1 then (h q).filter (fun i => decide (i ∉ p.2.take rpg)) else h q) q) := by
        funext q
        simp only [Function.comp_def]
        split <;> rfl
      rw [hfun, ih]
      · rw [List.length_append, List.length_take, Nat.succ_mul]; omega
      · intro q hq
        have hq1 : q.1 ∉ used := fun hm => hq (List.mem_append_left _ hm)
        have hq2 : q.1 ≠ p.1 := fun e => hq (List.mem_append_right _ (by simp [e]))
        simp only [hq2, if_false]
        exact hh q hq1
      · -- removing one group from the eligible ones
        have key : ∀ (d : ByGroup), (d.map (·.1)).Nodup →
            (d.filter fun p => decide (rpg ≤ p.2.length) && decide (p.1 ∉ used)).length ≤
            (d.filter fun q => decide (rpg ≤ q.2.length) && decide (q.1 ∉ used ++ [p.1])).length + 1 := by
          intro d
          induction d with
          | nil => intro _; simp
          | cons q d ihd =>
            intro hnd
            rw [List.map_cons, List.nodup_cons] at hnd
            by_cases hq : q.1 = p.1
            · have e : ∀ r ∈ d, r.1 ≠ p.1 := by
                intro r hr e
                apply hnd.1
                rw [hq, ← e]
                exact List.mem_map.mpr ⟨r, hr, rfl⟩
              have e2 : (d.filter fun q => decide (rpg ≤ q.2.length) && decide (q.1 ∉ used ++ [p.1]))
                  = d.filter fun p => decide (rpg ≤ p.2.length) && decide (p.1 ∉ used) := by
                apply List.filter_congr
                intro r hr
                simp [e r hr]
              rw [List.filter_cons, List.filter_cons, e2]
              split <;> split <;> simp <;> omega
            · have := ihd hnd.2
              rw [List.filter_cons, List.filter_cons]
              have e3 : (decide (q.1 ∉ used ++ [p.1])) = decide (q.1 ∉ used) := by simp [hq]
              rw [e3]
              split
              · simpa using this
              · exact this
        have := key d0 hnd
        omega
      · exact hnd

/-! ### Matching slots -/

theorem combs_sublist {α} : ∀ (n : Nat) (l : List α) (c : List α), c ∈ combs n l → c.Sublist l ∧ c.length = n := by
  intro n l
  induction l generalizing n with
  | nil =>
    intro c h
    cases n with
    | zero => simp [combs] at h; subst h; exact ⟨List.Sublist.refl _, rfl⟩
    | succ n => simp [combs] at h
  | cons x xs ih =>
    intro c h
    cases n with
    | zero => simp [combs] at h; subst h; exact ⟨List.nil_sublist _, rfl⟩
    | succ n =>
      rw [combs, List.mem_append, List.mem_map] at h
      rcases h with ⟨c', h1, rfl⟩ | h
      · obtain ⟨a, b⟩ := ih n c' h1
        exact ⟨a.cons_cons x, by simp [b]⟩
      · obtain ⟨a, b⟩ := ih (n + 1) c h
        exact ⟨a.cons x, b⟩

theorem mem_combs {α} : ∀ {l c : List α}, c.Sublist l → c ∈ combs c.length l := by
  intro l c h
  induction h with
  | slnil => simp [combs]
  | @cons l₁ l₂ a _ ih =>
    cases hl : l₁.length with
    | zero =>
      have : l₁ = [] := List.length_eq_zero_iff.mp hl
      subst this; simp [combs]
    | succ n =>
      rw [hl] at ih
      rw [combs, List.mem_append]
      exact Or.inr ih
  | @cons_cons l₁ l₂ a _ ih =>
    rw [List.length_cons, combs, List.mem_append, List.mem_map]
    exact Or.inl ⟨_, ih, rfl⟩

theorem matchLoop_best (rpg : Nat) : ∀ (cs : List (List (Nat × List Nat))) (ub : Nat) (c : Option (List Nat × List Nat)),
    (matchLoop rpg cs ub c = c ∧
      ∀ p ∈ cs, rpg ≤ (interAll (p.map (·.2))).length → ub ≤ (interAll (p.map (·.2))).length) ∨
    (∃ p ∈ cs, rpg ≤ (interAll (p.map (·.2))).length ∧
      ((interAll (p.map (·.2))).length = rpg ∨ (interAll (p.map (·.2))).length < ub) ∧
      matchLoop rpg cs ub c = some (p.map (·.1), interAll (p.map (·.2))) ∧
      ∀ q ∈ cs, rpg ≤ (interAll (q.map (·.2))).length →
        (interAll (p.map (·.2))).length ≤ (interAll (q.map (·.2))).length) := by
  intro cs
  induction cs with
  | nil => intro ub c; left; exact ⟨rfl, by simp⟩
  | cons x rest ih =>
    intro ub c
    unfold matchLoop
    simp only
    by_cases he : (interAll (x.map (·.2))).length = rpg
    · rw [if_pos he]
      right
      exact ⟨x, List.mem_cons_self, by omega, Or.inl he, rfl, fun q _ hq => by omega⟩
    · rw [if_neg he]
      by_cases hb : rpg < (interAll (x.map (·.2))).length ∧ (interAll (x.map (·.2))).length < ub
      · rw [if_pos hb]
        right
        rcases ih (interAll (x.map (·.2))).length (some (x.map (·.1), interAll (x.map (·.2)))) with
          ⟨h1, h2⟩ | ⟨p, hp, h2, h3, h4, h5⟩
        · refine ⟨x, List.mem_cons_self, by omega, Or.inr hb.2, h1, ?_⟩
          intro q hq hqr
          rcases List.mem_cons.mp hq with e | hq
          · rw [e]; exact Nat.le_refl _
          · exact h2 q hq hqr
        · refine ⟨p, List.mem_cons_of_mem _ hp, h2, by omega, h4, ?_⟩
          intro q hq hqr
          rcases List.mem_cons.mp hq with e | hq
          · rw [e]; omega
          · exact h5 q hq hqr
      · rw [if_neg hb]
        rcases ih ub c with ⟨h1, h2⟩ | ⟨p, hp, h2, h3, h4, h5⟩
        · left
          refine ⟨h1, ?_⟩
          intro q hq hqr
          rcases List.mem_cons.mp hq with e | hq
          · rw [e] at hqr ⊢; omega
          · exact h2 q hq hqr
        · right
          refine ⟨p, List.mem_cons_of_mem _ hp, h2, h3, h4, ?_⟩
          intro q hq hqr
          rcases List.mem_cons.mp hq with e | hq
          · rw [e] at hqr ⊢; omega
          · exact h5 q hq hqr

theorem interAll_mem {l : List (List Nat)} {x : Nat} (h : x ∈ interAll l) : ∀ t ∈ l, x ∈ t := by
  cases l with
  | nil => simp
  | cons s ss =>
    simp only [interAll, List.mem_filter, List.all_eq_true] at h
    intro t ht
    rcases List.mem_cons.mp ht with e | ht
    · rw [e]; exact h.1
    · simpa using h.2 t ht

theorem interAll_nodup {l : List (List Nat)} (h : ∀ t ∈ l, t.Nodup) : (interAll l).Nodup := by
  cases l with
  | nil => exact List.nodup_nil
  | cons s ss => exact List.Pairwise.filter _ (h s List.mem_cons_self)

theorem foldl_max_init : ∀ (l : List Nat) (a : Nat), a ≤ l.foldl max a := by
  intro l
  induction l with
  | nil => intro a; exact Nat.le_refl _
  | cons x xs ih => intro a; exact Nat.le_trans (Nat.le_max_left a x) (ih _)

theorem foldl_max_ge : ∀ (l : List Nat) (a : Nat), ∀ x ∈ l, x ≤ l.foldl max a := by
  intro l
  induction l with
  | nil => simp
  | cons y ys ih =>
    intro a x hx
    rcases List.mem_cons.mp hx with e | hx
    · rw [e]; exact Nat.le_trans (Nat.le_max_right a y) (foldl_max_init _ _)
    · exact ih _ x hx

/-- What `get_matching_slots` returns: distinct groups and enough slots free on all of them; the number of common
slots is minimal; nothing only if no combination has enough. -/
theorem matchingSlots_spec {slots : ByGroup} {ng rpg : Nat} (hng : 0 < ng) :
    (matchingSlots slots ng rpg = .ok none ∧
      ∀ c : List (Nat × List Nat), c.Sublist (slotsOfLen slots rpg) → c.length = ng →
        (interAll (c.map (·.2))).length < rpg) ∨
    (∃ c : List (Nat × List Nat), c.Sublist (slotsOfLen slots rpg) ∧ c.length = ng ∧
      rpg ≤ (interAll (c.map (·.2))).length ∧
      matchingSlots slots ng rpg = .ok (some (c.map (·.1), interAll (c.map (·.2)))) ∧
      ∀ q : List (Nat × List Nat), q.Sublist (slotsOfLen slots rpg) → q.length = ng →
        rpg ≤ (interAll (q.map (·.2))).length →
        (interAll (c.map (·.2))).length ≤ (interAll (q.map (·.2))).length) := by
  unfold matchingSlots
  simp only
  by_cases hlt : (slotsOfLen slots rpg).length < ng
  · rw [if_pos hlt]
    left
    refine ⟨rfl, ?_⟩
    intro c hc hcl
    have := hc.length_le
    omega
  · rw [if_neg hlt]
    have hne : ¬ (ng = 0 ∨ slotsOfLen slots rpg = []) := by
      rintro (h | h)
      · omega
      · rw [h] at hlt; simp at hlt; omega
    rw [if_neg hne]
    rcases matchLoop_best rpg (combs ng (slotsOfLen slots rpg))
      (((slotsOfLen slots rpg).map (·.2.length)).foldl max 0 + 1) none with ⟨h1, h2⟩ | ⟨p, hp, h2, h3, h4, h5⟩
    · left
      rw [h1]
      refine ⟨rfl, ?_⟩
      intro c hc hcl
      apply Nat.lt_of_not_le
      intro hge
      have hmem : c ∈ combs ng (slotsOfLen slots rpg) := by rw [← hcl]; exact mem_combs hc
      have h6 := h2 c hmem hge
      cases c with
      | nil => simp at hcl; omega
      | cons y ys =>
        have h7 : (interAll ((y :: ys).map (·.2))).length ≤ y.2.length := List.length_filter_le _ _
        have h8 := foldl_max_ge ((slotsOfLen slots rpg).map (·.2.length)) 0 y.2.length
          (List.mem_map.mpr ⟨y, hc.subset List.mem_cons_self, rfl⟩)
        omega
    · right
      obtain ⟨a, b⟩ := combs_sublist _ _ _ hp
      refine ⟨p, a, b, h2, by rw [h4], ?_⟩
      intro q hq hql
      exact h5 q (by rw [← hql]; exact mem_combs hq)

/-! ### Teams from slots -/

theorem findRset_eq {rm : RM} (hw : LWF rm) {i : Nat} (hi : i < rm.rsets.length) :
    findRset rm (grpOf rm i) (slotOf rm i) = some i := by
  unfold findRset
  cases hf : (List.range rm.rsets.length).find? fun j =>
      decide (grpOf rm j = grpOf rm i) && decide (slotOf rm j = slotOf rm i) with
  | none =>
    rw [List.find?_eq_none] at hf
    have := hf i (List.mem_range.mpr hi)
    simp at this
  | some j =>
    have h1 := List.find?_some hf
    have h2 := List.mem_of_find?_eq_some hf
    rw [List.mem_range] at h2
    simp at h1
    rw [hw.inj h2 hi h1.1 h1.2]

theorem filterMap_flatMap {α β γ} (f : β → Option γ) (l : List α) (g : α → List β) :
    (l.flatMap g).filterMap f = l.flatMap fun x => (g x).filterMap f := by
  induction l with
  | nil => rfl
  | cons x xs ih => rw [List.flatMap_cons, List.filterMap_append, ih, List.flatMap_cons]

theorem teamFromSlots_ok {rm : RM} (hw : LWF rm) {ord : List Nat → List Nat} (hord : ∀ l, (ord l).Perm l)
    {valid : ByGroup} (hd : DWF rm valid) {gs ss : List Nat} {rpg need : Nat} (hgs : gs.Nodup) (hss : ss.Nodup)
    (hr : rpg ≤ ss.length) (hmem : ∀ g ∈ gs, ∃ l, (g, l) ∈ valid ∧ ∀ s ∈ ss, ∃ i ∈ l, slotOf rm i = s)
    (hneed : need ≤ gs.length * rpg) :
    ∃ team, teamFromSlots rm ord gs ss rpg = .ok team ∧ TeamOf rm true valid need team ∧
      team.length = gs.length * rpg ∧ ∀ i ∈ team, grpOf rm i ∈ gs := by
  have hpick : ∀ g ∈ gs, ∀ s ∈ (ord ss).take rpg, ∃ i p, findRset rm g s = some i ∧ p ∈ valid ∧ i ∈ p.2 ∧
      grpOf rm i = g ∧ slotOf rm i = s := by
    intro g hg s hs
    have hs' : s ∈ ss := (hord ss).mem_iff.mp (List.mem_of_mem_take hs)
    obtain ⟨l, hl, hl2⟩ := hmem g hg
    obtain ⟨i, hi, his⟩ := hl2 s hs'
    have he := hd.elems (g, l) hl i hi
    refine ⟨i, (g, l), ?_, hl, hi, he.2, his⟩
    have := findRset_eq hw he.1
    rw [he.2, his] at this
    exact this
  have hord2 : ((ord ss).take rpg).Nodup :=
    ((hord ss).nodup_iff.mpr hss).sublist (List.take_sublist _ _)
  have hlen : ((ord ss).take rpg).length = rpg := by
    rw [List.length_take, (hord ss).length_eq]; omega
  have hall : (gs.flatMap fun g => ((ord ss).take rpg).map fun s => findRset rm g s).all Option.isSome = true := by
    rw [List.all_eq_true]
    intro o ho
    rw [List.mem_flatMap] at ho
    obtain ⟨g, hg, ho⟩ := ho
    rw [List.mem_map] at ho
    obtain ⟨s, hs, rfl⟩ := ho
    obtain ⟨i, p, h1, _⟩ := hpick g hg s hs
    rw [h1]; rfl
  let f : Nat → List Nat := fun g => (((ord ss).take rpg).map fun s => findRset rm g s).filterMap id
  have hfm : ∀ g, f g = ((ord ss).take rpg).filterMap (findRset rm g) := by
    intro g; show List.filterMap id _ = _; rw [List.filterMap_map]; rfl
  have hfg : ∀ g ∈ gs, ∀ i ∈ f g, grpOf rm i = g ∧ (∃ p ∈ valid, i ∈ p.2) ∧ slotOf rm i ∈ (ord ss).take rpg := by
    intro g hg i hi
    rw [hfm, List.mem_filterMap] at hi
    obtain ⟨s, hs, hi⟩ := hi
    obtain ⟨j, p, h1, h2, h3, h4, h5⟩ := hpick g hg s hs
    rw [hi] at h1
    cases h1
    exact ⟨h4, ⟨p, h2, h3⟩, by rw [h5]; exact hs⟩
  have hmapslot : ∀ g ∈ gs, (f g).map (slotOf rm) = (ord ss).take rpg := by
    intro g hg
    rw [hfm]
    have : ∀ l : List Nat, (∀ s ∈ l, s ∈ (ord ss).take rpg) → (l.filterMap (findRset rm g)).map (slotOf rm) = l := by
      intro l
      induction l with
      | nil => intro _; rfl
      | cons s l ih =>
        intro hl
        obtain ⟨j, p, h1, h2, h3, h4, h5⟩ := hpick g hg s (hl s List.mem_cons_self)
        rw [List.filterMap_cons, h1]
        simp only [List.map_cons, h5]
        rw [ih (fun x hx => hl x (List.mem_cons_of_mem _ hx))]
    exact this _ (fun s hs => hs)
  have hflen : ∀ g ∈ gs, (f g).length = rpg := by
    intro g hg
    have := congrArg List.length (hmapslot g hg)
    rw [List.length_map, hlen] at this
    exact this
  refine ⟨sortNat (gs.flatMap f), ?_, ?_, ?_, ?_⟩
  · unfold teamFromSlots
    simp only
    rw [if_pos hall, filterMap_flatMap]
  · apply team_of_groups hgs _ (fun g hg i hi => (hfg g hg i hi).1) hflen (fun g hg i hi => (hfg g hg i hi).2.1) hneed
    · intro _ g hg g' hg' i hi
      have h1 := (hfg g hg i hi).2.2
      rw [← hmapslot g' hg', List.mem_map] at h1
      exact h1
    · intro g hg
      have : ((f g).map (slotOf rm)).Nodup := by rw [hmapslot g hg]; exact hord2
      exact List.Pairwise.of_map (slotOf rm) (fun a b h e => h (by rw [e])) this
  · rw [length_sortNat, flatMap_length hflen]
  · intro i hi
    rw [mem_sortNat, List.mem_flatMap] at hi
    obtain ⟨g, hg, hi⟩ := hi
    rw [(hfg g hg i hi).1]; exact hg

end Verif.Sched
