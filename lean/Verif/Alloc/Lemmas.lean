import Verif.Alloc.Model
import Verif.Scheduler.Reach
/-! Helper lemmas about the allocation support functions. -/
namespace Verif.Alloc
open Verif.History Verif.Res Verif.Sched

/-! ### Dictionaries -/

theorem dset_fresh {β} {d : List (Nat × β)} {k : Nat} (v : β) (h : k ∉ d.map (·.1)) : dset d k v = d ++ [(k, v)] := by
  induction d with
  | nil => rfl
  | cons p d ih =>
    obtain ⟨k', v'⟩ := p
    simp at h
    unfold dset
    rw [if_neg (fun e => h.1 e.symm), ih (by simpa using h.2)]
    rfl

theorem keys_dset {β} (d : List (Nat × β)) (k : Nat) (v : β) :
    (dset d k v).map (·.1) = if k ∈ d.map (·.1) then d.map (·.1) else d.map (·.1) ++ [k] := by
  induction d with
  | nil => simp [dset]
  | cons p d ih =>
    obtain ⟨k', v'⟩ := p
    unfold dset
    by_cases h : k' = k
    · subst h; simp
    · rw [if_neg h, List.map_cons, ih]
      have : k ≠ k' := fun e => h e.symm
      by_cases h2 : k ∈ d.map (·.1)
      · simp only [if_pos h2]; rw [if_pos (by simp [h2])]; rfl
      · simp only [if_neg h2]; rw [if_neg (by simp [this] at h2 ⊢; exact h2)]; rfl

theorem mem_keys_dset {β} {d : List (Nat × β)} {k j : Nat} {v : β} :
    j ∈ (dset d k v).map (·.1) ↔ j = k ∨ j ∈ d.map (·.1) := by
  rw [keys_dset]
  split
  · rename_i h
    constructor
    · exact Or.inr
    · rintro (rfl | h') <;> assumption
  · rw [List.mem_append, List.mem_singleton]; exact or_comm

theorem keys_dset_nodup {β} {d : List (Nat × β)} (k : Nat) (v : β) (h : (d.map (·.1)).Nodup) :
    ((dset d k v).map (·.1)).Nodup := by
  rw [keys_dset]
  split
  · exact h
  · rename_i h2
    rw [List.nodup_append]
    exact ⟨h, by simp, by intro a ha b hb e; simp at hb; subst hb; subst e; exact h2 ha⟩

theorem mem_dset {β} {d : List (Nat × β)} {k : Nat} {v : β} {e : Nat × β} (hn : (d.map (·.1)).Nodup)
    (h : e ∈ dset d k v) : e = (k, v) ∨ (e ∈ d ∧ e.1 ≠ k) := by
  induction d with
  | nil => simp [dset] at h; exact Or.inl h
  | cons p d ih =>
    obtain ⟨k', v'⟩ := p
    rw [List.map_cons, List.nodup_cons] at hn
    unfold dset at h
    by_cases hk : k' = k
    · rw [if_pos hk] at h
      rcases List.mem_cons.mp h with e1 | h1
      · exact Or.inl e1
      · refine Or.inr ⟨List.mem_cons_of_mem _ h1, ?_⟩
        intro e2
        apply hn.1
        rw [List.mem_map]
        exact ⟨e, h1, by rw [e2]; exact hk.symm⟩
    · rw [if_neg hk] at h
      rcases List.mem_cons.mp h with e1 | h1
      · right; subst e1; exact ⟨List.mem_cons_self, hk⟩
      · rcases ih hn.2 h1 with e2 | ⟨h2, h3⟩
        · exact Or.inl e2
        · exact Or.inr ⟨List.mem_cons_of_mem _ h2, h3⟩

/-- Entries assigned one after the other. -/
def puts {β} (d : List (Nat × β)) (es : List (Nat × β)) : List (Nat × β) := es.foldl (fun d e => dset d e.1 e.2) d

theorem puts_nil {β} (d : List (Nat × β)) : puts d [] = d := rfl
theorem puts_cons {β} (d : List (Nat × β)) (e : Nat × β) (es) : puts d (e :: es) = puts (dset d e.1 e.2) es := rfl

theorem puts_fresh {β} {es : List (Nat × β)} : ∀ {d : List (Nat × β)}, (es.map (·.1)).Nodup →
    (∀ k ∈ es.map (·.1), k ∉ d.map (·.1)) → puts d es = d ++ es := by
  induction es with
  | nil => intro d _ _; simp [puts]
  | cons e es ih =>
    intro d hn hf
    rw [List.map_cons, List.nodup_cons] at hn
    rw [puts_cons, dset_fresh _ (hf e.1 (by simp)), ih hn.2]
    · simp
    · intro k hk
      have := hf k (by simp at hk ⊢; exact Or.inr hk)
      simp only [List.map_append, List.mem_append, List.map_cons, List.map_nil, List.mem_singleton]
      rintro (h | h)
      · exact this h
      · subst h; exact hn.1 hk

theorem puts_nodup {β} {es : List (Nat × β)} : ∀ {d : List (Nat × β)}, (d.map (·.1)).Nodup → ((puts d es).map (·.1)).Nodup := by
  induction es with
  | nil => intro d h; exact h
  | cons e es ih => intro d h; exact ih (keys_dset_nodup _ _ h)

theorem mem_puts {β} {es : List (Nat × β)} : ∀ {d : List (Nat × β)} {x : Nat × β}, (d.map (·.1)).Nodup → x ∈ puts d es →
    x ∈ es ∨ (x ∈ d ∧ x.1 ∉ es.map (·.1)) := by
  induction es with
  | nil => intro d x _ h; exact Or.inr ⟨h, by simp⟩
  | cons e es ih =>
    intro d x hn h
    rcases ih (keys_dset_nodup _ _ hn) h with h1 | ⟨h1, h2⟩
    · exact Or.inl (List.mem_cons_of_mem _ h1)
    · rcases mem_dset hn h1 with h3 | ⟨h3, h4⟩
      · exact Or.inl (by rw [h3]; exact List.mem_cons_self)
      · refine Or.inr ⟨h3, ?_⟩
        rw [List.map_cons, List.mem_cons]
        rintro (h5 | h5)
        · exact h4 h5
        · exact h2 h5

theorem mem_keys_puts {β} {es : List (Nat × β)} : ∀ {d : List (Nat × β)} {k : Nat},
    k ∈ (puts d es).map (·.1) ↔ k ∈ d.map (·.1) ∨ k ∈ es.map (·.1) := by
  induction es with
  | nil => intro d k; simp [puts]
  | cons e es ih =>
    intro d k
    rw [puts_cons, ih, mem_keys_dset, List.map_cons, List.mem_cons]
    constructor
    · rintro ((h | h) | h)
      · exact Or.inr (Or.inl h)
      · exact Or.inl h
      · exact Or.inr (Or.inr h)
    · rintro (h | h | h)
      · exact Or.inl (Or.inr h)
      · exact Or.inl (Or.inl h)
      · exact Or.inr h

/-- Splitting `puts`: the entries of `d` whose key is not assigned again stay, in order. -/
theorem puts_perm {β} {es : List (Nat × β)} : ∀ {d : List (Nat × β)}, (d.map (·.1)).Nodup → (es.map (·.1)).Nodup →
    (puts d es).Perm (d.filter (fun x => decide (x.1 ∉ es.map (·.1))) ++ es) := by
  induction es with
  | nil =>
    intro d _ _
    rw [puts_nil, List.append_nil, List.filter_eq_self.mpr (by simp)]
  | cons e es ih =>
    intro d hd hes
    rw [List.map_cons, List.nodup_cons] at hes
    refine (ih (keys_dset_nodup _ _ hd) hes.2).trans ?_
    have hds : ∀ (d : List (Nat × β)), (d.map (·.1)).Nodup →
        ((dset d e.1 e.2).filter (fun x => decide (x.1 ∉ es.map (·.1)))).Perm
        (d.filter (fun x => decide (x.1 ∉ (e :: es).map (·.1))) ++ [e]) := by
      intro d
      induction d with
      | nil => intro _; simp [dset, hes.1]
      | cons p d ihd =>
        intro hd
        obtain ⟨k', v'⟩ := p
        rw [List.map_cons, List.nodup_cons] at hd
        unfold dset
        by_cases hk : k' = e.1
        · rw [if_pos hk]
          have h1 : d.filter (fun x => decide (x.1 ∉ (e :: es).map (·.1))) = d.filter (fun x => decide (x.1 ∉ es.map (·.1))) := by
            apply List.filter_congr
            intro x hx
            have : x.1 ≠ e.1 := by
              intro h; apply hd.1; rw [List.mem_map]; exact ⟨x, hx, by rw [h]; exact hk.symm⟩
            simp only [List.map_cons, List.mem_cons, this, false_or]
          rw [List.filter_cons, List.filter_cons, if_pos (decide_eq_true hes.1),
            if_neg (fun h => (of_decide_eq_true h : ¬ _) (by rw [List.map_cons, hk]; exact List.mem_cons_self)), h1]
          exact (List.perm_append_singleton _ _).symm
        · rw [if_neg hk, List.filter_cons, List.filter_cons]
          by_cases h2 : k' ∈ es.map (·.1)
          · rw [if_neg (fun h => (of_decide_eq_true h : ¬ _) h2),
              if_neg (fun h => (of_decide_eq_true h : ¬ _) (by rw [List.map_cons]; exact List.mem_cons_of_mem _ h2))]
            exact ihd hd.2
          · rw [if_pos (decide_eq_true h2), if_pos (decide_eq_true (by
              rw [List.map_cons]
              intro h
              rcases List.mem_cons.mp h with h | h
              · exact hk h
              · exact h2 h))]
            exact List.Perm.cons _ (ihd hd.2)
    refine (List.Perm.append_right es (hds d hd)).trans ?_
    rw [List.append_assoc]
    exact List.Perm.refl _

/-! ### Available workers -/

/-- The worker table has one row per worker. -/
def IdsOk (W : List Wrk) : Prop := (W.map (·.id)).Nodup

theorem availIds_ok {W : List Wrk} {p : Option Nat} {ar : Bool} {z g : Option Bool} {l : List Nat}
    (h : availIds W p ar z g = .ok l) :
    ¬(ar = true ∧ (p = none ∨ p = some 0)) ∧
    l = (W.filter fun k =>
      (if ar then k.activeRecv else decide (k.active = 0)) &&
      (match p with | none => true | some p => decide (k.persis = p)) &&
      ((!W.any (·.zrw)) || match z with | none => true | some b => decide (k.zrw = b)) &&
      ((!W.any (·.genWorker)) || match g with | none => true | some b => decide (k.genWorker = b))).map (·.id) := by
  unfold availIds at h
  by_cases hc : ar = true ∧ (p = none ∨ p = some 0)
  · rw [if_pos hc] at h; cases h
  · rw [if_neg hc] at h
    injection h with h
    exact ⟨hc, h.symm⟩

theorem availIds_nodup {W : List Wrk} (hW : IdsOk W) {p : Option Nat} {ar : Bool} {z g : Option Bool} {l : List Nat}
    (h : availIds W p ar z g = .ok l) : l.Nodup := by
  rw [(availIds_ok h).2]
  exact List.Nodup.sublist (List.Sublist.map _ List.filter_sublist) hW

theorem availIds_noRecv (W : List Wrk) (p : Option Nat) (z g : Option Bool) : ∃ l, availIds W p false z g = .ok l := by
  unfold availIds; simp

theorem availIds_idle {W : List Wrk} {p : Option Nat} {z g : Option Bool} {l : List Nat}
    (h : availIds W p false z g = .ok l) {w : Nat} (hw : w ∈ l) :
    ∃ k ∈ W, k.id = w ∧ k.active = 0 ∧ (∀ q, p = some q → k.persis = q) := by
  rw [(availIds_ok h).2, List.mem_map] at hw
  obtain ⟨k, hk, e⟩ := hw
  rw [List.mem_filter] at hk
  simp only [Bool.and_eq_true] at hk
  refine ⟨k, hk.1, e, by simpa using hk.2.1.1.1, ?_⟩
  intro q hq
  subst hq
  simpa using hk.2.1.1.2

/-! ### Work orders -/

theorem simWork_ok {c : Ctx} {p : PInfo} {s s' : Sched} {w : Nat} {rows : List Nat} {pers : Bool} {wk : Work}
    (h : simWork c p s w rows pers = (s', .ok wk)) :
    updateTeam c p s w (some rows) none = (s', .ok wk.team) ∧
    wk.tag = EVAL_SIM ∧ wk.fields = c.simIn.eraseDups ∧ wk.rows = rows ∧ wk.persistent = pers ∧ wk.activeRecv = none := by
  unfold simWork at h
  split at h
  · cases h
  · rename_i s1 team he
    injection h with h1 h2
    injection h2 with h2
    subst h1; subst h2
    exact ⟨he, rfl, rfl, rfl, rfl, rfl⟩

theorem simWork_err {c : Ctx} {p : PInfo} {s s' : Sched} {w : Nat} {rows : List Nat} {pers : Bool} {e : AErr}
    (h : simWork c p s w rows pers = (s', .error e)) : updateTeam c p s w (some rows) none = (s', .error e) := by
  unfold simWork at h
  split at h
  · rename_i he; injection h with h1 h2; injection h2 with h2; subst h1; subst h2; exact he
  · injection h with _ h2; cases h2

theorem genWork_ok {c : Ctx} {p : PInfo} {s s' : Sched} {w : Nat} {fs : List Field} {rows : List Nat} {pers : Bool}
    {ar : Option Bool} {given : Option (List Nat)} {wk : Work} (h : genWork c p s w fs rows pers ar given = (s', .ok wk)) :
    updateTeam c p s w none given = (s', .ok wk.team) ∧
    wk.tag = EVAL_GEN ∧ wk.fields = fs.eraseDups ∧ wk.rows = rows ∧ wk.persistent = pers ∧ wk.activeRecv = ar := by
  unfold genWork at h
  split at h
  · cases h
  · rename_i s1 team he
    injection h with h1 h2
    injection h2 with h2
    subst h1; subst h2
    exact ⟨he, rfl, rfl, rfl, rfl, rfl⟩

theorem genWork_err {c : Ctx} {p : PInfo} {s s' : Sched} {w : Nat} {fs : List Field} {rows : List Nat} {pers : Bool}
    {ar : Option Bool} {given : Option (List Nat)} {e : AErr} (h : genWork c p s w fs rows pers ar given = (s', .error e)) :
    updateTeam c p s w none given = (s', .error e) := by
  unfold genWork at h
  split at h
  · rename_i he; injection h with h1 h2; injection h2 with h2; subst h1; subst h2; exact he
  · injection h with _ h2; cases h2

/-- The scheduler calls behind a sequence of work orders: every order took its team from the scheduler object; there may be
refused attempts in between. -/
inductive Steps (c : Ctx) : Sched → WorkD → Sched → Prop
  | nil (s) : Steps c s [] s
  | fail {s s1 s2 : Sched} {es : WorkD} (p : PInfo) (w : Nat) (rows : Option (List Nat)) (e : AErr)
      (h : updateTeam c p s w rows none = (s1, .error e)) (t : Steps c s1 es s2) : Steps c s es s2
  | cons {s s1 s2 : Sched} {es : WorkD} (p : PInfo) (w : Nat) (rows : Option (List Nat)) (wk : Work)
      (h : updateTeam c p s w rows none = (s1, .ok wk.team)) (t : Steps c s1 es s2) : Steps c s ((w, wk) :: es) s2
  | free {s s2 : Sched} {es : WorkD} (w : Nat) (wk : Work) (hm : c.manage = false) (ht : wk.team = some [])
      (t : Steps c s es s2) : Steps c s ((w, wk) :: es) s2     -- an empty team was passed, resources are not managed

theorem Steps.trans {c : Ctx} {s s1 s2 : Sched} {es fs : WorkD} (h1 : Steps c s es s1) (h2 : Steps c s1 fs s2) :
    Steps c s (es ++ fs) s2 := by
  induction h1 with
  | nil => exact h2
  | fail p w rows e h _ ih => exact .fail p w rows e h (ih h2)
  | cons p w rows wk h _ ih => exact .cons p w rows wk h (ih h2)
  | free w wk hm ht _ ih => exact .free w wk hm ht (ih h2)

end Verif.Alloc
