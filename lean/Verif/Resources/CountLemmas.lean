import Verif.Resources.Model
/-! Helper lemmas about the free-resource counters. -/
namespace Verif.Res

/-- Number of unassigned sets of a resource manager satisfying `t`. -/
def numFree (rm : RM) (t : RS → Bool) : Nat := (rm.rsets.zip rm.assigned).countP (fun p => p.2.isNone && t p.1)

/-- The three counters equal the numbers of unassigned sets, and every set has an owner entry. -/
structure Exact (rm : RM) : Prop where
  len : rm.assigned.length = rm.rsets.length
  all : rm.rsetsFree = numFree rm (fun _ => true)
  gpu : rm.gpuFree = numFree rm (fun r => r.gpu)
  nongpu : rm.nongpuFree = numFree rm (fun r => !r.gpu)

theorem countP_zip_set {α β} (P : α × β → Bool) : ∀ (l : List α) (a : List β) (i : Nat) (r : α) (o b : β),
    l[i]? = some r → a[i]? = some o →
    (l.zip (a.set i b)).countP P + (if P (r, o) then 1 else 0) = (l.zip a).countP P + (if P (r, b) then 1 else 0) := by
  intro l
  induction l with
  | nil => intro a i r o b h; simp at h
  | cons x xs ih =>
    intro a i r o b hl ha
    cases a with
    | nil => simp at ha
    | cons y ys =>
      cases i with
      | zero =>
        simp at hl ha
        subst hl; subst ha
        simp only [List.set_cons_zero, List.zip_cons_cons, List.countP_cons]
        omega
      | succ i =>
        simp at hl ha
        have := ih ys i r o b hl ha
        simp only [List.set_cons_succ, List.zip_cons_cons, List.countP_cons]
        omega

theorem isGpu_eq {rm : RM} {i : Nat} {r : RS} (h : rm.rsets[i]? = some r) : rm.isGpu i = r.gpu := by
  unfold RM.isGpu; rw [h]; rfl

theorem assignLoop_exact (w : Nat) : ∀ (l : List (Nat × Option Nat)) (rm : RM), Exact rm →
    (l.map (·.1)).Nodup → (∀ p ∈ l, rm.assigned[p.1]? = some p.2) → Exact (assignLoop w l rm) := by
  intro l
  induction l with
  | nil => intro rm h _ _; exact h
  | cons p rest ih =>
    intro rm h hnd hown
    obtain ⟨i, o⟩ := p
    rw [List.map_cons, List.nodup_cons] at hnd
    cases o with
    | some v =>
      exact ih rm h hnd.2 (fun p hp => hown p (List.mem_cons_of_mem _ hp))
    | none =>
      unfold assignLoop
      simp only
      apply ih _ _ hnd.2
      · intro p hp
        have hne : i ≠ p.1 := by
          intro e; apply hnd.1; rw [List.mem_map]; exact ⟨p, hp, e.symm⟩
        simp only
        rw [List.getElem?_set_ne hne]
        exact hown p (List.mem_cons_of_mem _ hp)
      · have hi := hown (i, none) List.mem_cons_self
        simp only at hi
        obtain ⟨r, hr⟩ : ∃ r, rm.rsets[i]? = some r := by
          have := (List.getElem?_eq_some_iff.mp hi).1
          rw [h.len] at this
          exact ⟨_, List.getElem?_eq_getElem this⟩
        have hg := isGpu_eq hr
        have key := fun t : RS → Bool =>
          countP_zip_set (fun p : RS × Option Nat => p.2.isNone && t p.1) rm.rsets rm.assigned i r none (some w) hr hi
        have kall := key (fun _ => true)
        have kg := key (fun r => r.gpu)
        have kn := key (fun r => !r.gpu)
        have ha := h.all
        have hgp := h.gpu
        have hng := h.nongpu
        unfold numFree at ha hgp hng
        constructor
        · simp only [List.length_set]; exact h.len
        · simp only [numFree]; simp at kall ⊢; simp at ha; omega
        · simp only [numFree, hg]
          cases hrg : r.gpu
          · simp [hrg] at kg ⊢; simp at hgp; omega
          · simp [hrg] at kg ⊢; simp at hgp; omega
        · simp only [numFree, hg]
          cases hrg : r.gpu
          · simp [hrg] at kn ⊢; simp at hng; omega
          · simp [hrg] at kn ⊢; simp at hng; omega

theorem assign_exact {rm rm' : RM} {team : List Nat} {w : Nat} (h : Exact rm) (hnd : team.Nodup)
    (ha : assignRsets rm team w = some rm') : Exact rm' := by
  unfold assignRsets at ha
  split at ha
  · rename_i hall
    injection ha with ha
    rw [← ha]
    apply assignLoop_exact w _ _ h
    · have : (team.map (fun i => (i, (rm.assigned[i]?).getD none))).map (·.1) = team := by
        rw [List.map_map]; exact List.map_id' team
      rw [this]; exact hnd
    · intro p hp
      rw [List.mem_map] at hp
      obtain ⟨i, hi, rfl⟩ := hp
      have := List.all_eq_true.mp hall i hi
      simp at this
      simp [this]
  · cases ha

theorem count_range_zip {α β} (Q : α → Bool) (P : β → Bool) (d : α → Bool) (hd : d = Q) :
    ∀ (l : List α) (a : List β), a.length = l.length →
    ((List.range a.length).filter (fun i => ((a[i]?).map P).getD false)).countP (fun i => ((l[i]?).map d).getD false)
      = (l.zip a).countP (fun p => P p.2 && Q p.1) := by
  subst hd
  intro l
  induction l with
  | nil => intro a h; simp at h; subst h; rfl
  | cons x xs ih =>
    intro a h
    cases a with
    | nil => simp at h
    | cons y ys =>
      simp at h
      have := ih ys h
      rw [List.length_cons, List.range_succ_eq_map, List.filter_cons, List.zip_cons_cons, List.countP_cons]
      rw [List.filter_map]
      simp only [Function.comp_def]
      rw [List.countP_filter] at this
      split <;> rename_i hP
      · rw [List.countP_cons, List.countP_map, List.countP_filter]
        simp only [Function.comp_def, List.getElem?_cons_succ]
        rw [this]
        simp at hP
        simp [hP]
      · rw [List.countP_map, List.countP_filter]
        simp only [Function.comp_def, List.getElem?_cons_succ]
        rw [this]
        simp at hP
        simp [hP]

theorem countP_zip_map {α β} (f : β → β) (P : α × β → Bool) : ∀ (l : List α) (a : List β),
    (l.zip (a.map f)).countP P = (l.zip a).countP (fun p => P (p.1, f p.2)) := by
  intro l
  induction l with
  | nil => intro a; rfl
  | cons x xs ih =>
    intro a
    cases a with
    | nil => rfl
    | cons y ys => simp only [List.map_cons, List.zip_cons_cons, List.countP_cons, ih]

theorem countP_or_disjoint {α} (P Q : α → Bool) (h : ∀ a, ¬ (P a = true ∧ Q a = true)) (l : List α) :
    l.countP (fun a => P a || Q a) = l.countP P + l.countP Q := by
  induction l with
  | nil => rfl
  | cons x xs ih =>
    simp only [List.countP_cons, ih]
    have := h x
    cases hp : P x <;> cases hq : Q x <;> simp_all <;> omega

theorem free_count (rm : RM) (hlen : rm.assigned.length = rm.rsets.length) (w : Nat) (t : RS → Bool) :
    numFree (freeRsets rm w) t = numFree rm t +
      ((List.range rm.assigned.length).filter (fun i => decide (rm.assigned[i]? = some (some w)))).countP
        (fun i => ((rm.rsets[i]?).map t).getD false) := by
  unfold numFree freeRsets
  simp only
  rw [countP_zip_map]
  have h1 : ∀ i : Nat, decide (rm.assigned[i]? = some (some w)) = ((rm.assigned[i]?).map (fun o => decide (o = some w))).getD false := by
    intro i; cases rm.assigned[i]? <;> simp
  have h2 := count_range_zip t (fun o : Option Nat => decide (o = some w)) t rfl rm.rsets rm.assigned hlen
  simp only [h1]
  rw [h2, ← countP_or_disjoint]
  · congr 1
    funext p
    obtain ⟨r, o⟩ := p
    cases o with
    | none => simp
    | some v =>
      by_cases hv : v = w
      · subst hv; simp
      · simp [hv]
  · rintro ⟨r, o⟩ ⟨h3, h4⟩
    cases o <;> simp at h3 h4

theorem free_exact {rm : RM} (h : Exact rm) (w : Nat) : Exact (freeRsets rm w) := by
  have hk := free_count rm h.len w
  have ha := h.all
  have hg := h.gpu
  have hn := h.nongpu
  have hlt : ∀ i ∈ (List.range rm.assigned.length).filter (fun i => decide (rm.assigned[i]? = some (some w))),
      ∃ r, rm.rsets[i]? = some r := by
    intro i hi
    rw [List.mem_filter, List.mem_range, h.len] at hi
    exact ⟨_, List.getElem?_eq_getElem hi.1⟩
  constructor
  · simp [freeRsets, h.len]
  · rw [hk]
    have : (freeRsets rm w).rsetsFree = rm.rsetsFree +
      ((List.range rm.assigned.length).filter (fun i => decide (rm.assigned[i]? = some (some w)))).length := rfl
    rw [this, ha]
    rw [← List.countP_eq_length (p := fun i => ((rm.rsets[i]?).map (fun _ => true)).getD false)
      |>.mpr (by intro i hi; obtain ⟨r, hr⟩ := hlt i hi; simp [hr])]
    omega
  · rw [hk]
    have : (freeRsets rm w).gpuFree = rm.gpuFree +
      (((List.range rm.assigned.length).filter (fun i => decide (rm.assigned[i]? = some (some w)))).countP
        (fun i => rm.isGpu i) : Nat) := rfl
    rw [this, hg]
    have e : ∀ i, rm.isGpu i = ((rm.rsets[i]?).map (fun r => r.gpu)).getD false := fun i => rfl
    simp only [e]
    omega
  · rw [hk]
    have : (freeRsets rm w).nongpuFree = rm.nongpuFree +
      (((List.range rm.assigned.length).filter (fun i => decide (rm.assigned[i]? = some (some w)))).countP
        (fun i => !rm.isGpu i) : Nat) := rfl
    rw [this, hn]
    rw [List.countP_congr (p := fun i => !rm.isGpu i) (q := fun i => ((rm.rsets[i]?).map (fun r => !r.gpu)).getD false)]
    · omega
    · intro i hi
      obtain ⟨r, hr⟩ := hlt i hi
      simp [RM.isGpu, hr]

theorem numFree_all_free {rm : RM} (hlen : rm.assigned.length = rm.rsets.length) (t : RS → Bool)
    (h : ∀ o ∈ rm.assigned, o = none) : numFree rm t = rm.rsets.countP t := by
  unfold numFree
  rw [show rm.rsets.countP t = ((rm.rsets.zip rm.assigned).map (·.1)).countP t by
    rw [List.map_fst_zip (by omega)]]
  rw [List.countP_map]
  apply List.countP_congr
  rintro ⟨r, o⟩ hp
  have := h o (List.of_mem_zip hp).2
  simp [this]

theorem freeAll_exact {rm : RM} (h : Exact rm) : Exact (freeAll rm) := by
  have hlen : (freeAll rm).assigned.length = (freeAll rm).rsets.length := by simp [freeAll, h.len]
  have hall : ∀ o ∈ (freeAll rm).assigned, o = none := by
    intro o ho
    simp [freeAll] at ho
    exact ho.2.symm
  constructor
  · exact hlen
  · rw [numFree_all_free hlen _ hall]; simp [freeAll, RM.total]
  · rw [numFree_all_free hlen _ hall]; rfl
  · rw [numFree_all_free hlen _ hall]; rfl

theorem mkRM_exact {α} [DecidableEq α] {n : Nat} {nodes : List α} {gpn : Nat} {gpg : Option Nat} {rm : RM}
    (h : mkRM n nodes gpn gpg = some rm) : Exact rm := by
  unfold mkRM at h
  cases hs : splitList n nodes with
  | none => rw [hs] at h; cases h
  | some p =>
    obtain ⟨split, loc⟩ := p
    rw [hs] at h
    simp at h
    have hlen : rm.assigned.length = rm.rsets.length := by rw [← h]; simp
    have hall : ∀ o ∈ rm.assigned, o = none := by
      intro o ho; rw [← h] at ho; simp at ho; exact ho.2
    constructor
    · exact hlen
    · rw [numFree_all_free hlen _ hall]; rw [← h]; simp
    · rw [numFree_all_free hlen _ hall]; rw [← h]
    · rw [numFree_all_free hlen _ hall]; rw [← h]

end Verif.Res
