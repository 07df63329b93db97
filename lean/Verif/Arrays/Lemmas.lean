import Verif.Arrays.Model
/-!
Helper lemmas for the conversions of arrays.
-/
namespace Verif.Arrays

variable {F : Type} [DecidableEq F] {C : Conv F}

theorem lookup_mem {α β} [DecidableEq α] {l : List (α × β)} {k : α} {c : β} (h : l.lookup k = some c) : (k, c) ∈ l := by
  induction l with
  | nil => cases h
  | cons p ps ih =>
    obtain ⟨a, b⟩ := p
    rw [List.lookup_cons] at h
    by_cases e : k = a
    · subst e; simp at h; subst h; simp
    · simp [beq_eq_false_iff_ne.mpr e] at h; exact List.mem_cons_of_mem _ (ih h)

theorem lookup_none {α β} [DecidableEq α] {l : List (α × β)} {k : α} (h : k ∉ l.map (·.1)) : l.lookup k = none := by
  cases e : l.lookup k with
  | none => rfl
  | some c => exact absurd (List.mem_map.mpr ⟨_, lookup_mem e, rfl⟩) h

theorem lookup_some {α β} [DecidableEq α] {l : List (α × β)} {k : α} (h : k ∈ l.map (·.1)) : ∃ c, l.lookup k = some c := by
  induction l with
  | nil => cases h
  | cons p ps ih =>
    obtain ⟨a, b⟩ := p
    rw [List.lookup_cons]
    by_cases e : k = a
    · subst e; simp
    · simp only [beq_eq_false_iff_ne.mpr e]
      simp only [List.map_cons, List.mem_cons] at h
      exact ih (h.resolve_left e)

theorem lookup_of_mem {α β} [DecidableEq α] {l : List (α × β)} (hn : (l.map (·.1)).Nodup) {p : α × β} (h : p ∈ l) : l.lookup p.1 = some p.2 := by
  induction l with
  | nil => cases h
  | cons q qs ih =>
    rw [List.map_cons, List.nodup_cons] at hn
    rw [List.lookup_cons]
    rcases List.mem_cons.mp h with rfl | h
    · simp
    · have : p.1 ≠ q.1 := fun e => hn.1 (by rw [← e]; exact List.mem_map.mpr ⟨p, h, rfl⟩)
      simp only [beq_eq_false_iff_ne.mpr this]
      exact ih hn.2 h

/-! ### Dictionaries -/

theorem lookup_append {α β} [DecidableEq α] {l l' : List (α × β)} {k : α} : (l ++ l').lookup k = (l.lookup k).or (l'.lookup k) := by
  induction l with
  | nil => simp
  | cons p ps ih =>
    rw [List.cons_append, List.lookup_cons, List.lookup_cons]
    cases h : k == p.1 <;> simp [ih]

theorem lookup_filter_ne {d : Dict F} {k k' : String} : (d.filter (fun p => decide (p.1 ≠ k))).lookup k' = if k' = k then none else d.lookup k' := by
  induction d with
  | nil => simp
  | cons p ps ih =>
    obtain ⟨a, b⟩ := p
    rw [List.filter_cons]
    by_cases e : a = k
    · subst e
      simp only [ne_eq, not_true_eq_false, decide_false, Bool.false_eq_true, if_false]
      rw [ih, List.lookup_cons]
      by_cases e' : k' = a
      · simp [e']
      · simp [e', beq_eq_false_iff_ne.mpr e']
    · simp only [ne_eq, e, not_false_eq_true, decide_true, if_true, List.lookup_cons]
      rw [ih]
      by_cases e' : k' = a
      · subst e'; simp [e]
      · simp [beq_eq_false_iff_ne.mpr e']

theorem lookup_setKey {d : Dict F} {k k' : String} {c : Cell F} : (setKey d k c).lookup k' = if k' = k then some c else d.lookup k' := by
  unfold setKey
  rw [lookup_append, lookup_filter_ne]
  by_cases e : k' = k
  · subst e; simp
  · simp [e, List.lookup_cons, beq_eq_false_iff_ne.mpr e]

/-- A dictionary made from pairs whose values depend on the names only. -/
theorem lookup_makeDict (h : String → Cell F) (l : List String) (k : String) :
    (makeDict (l.map (fun n => (n, h n)))).lookup k = if k ∈ l then some (h k) else none := by
  have key : ∀ (l : List String) (d : Dict F), (List.foldl (fun d p => setKey d p.1 p.2) d (l.map (fun n => (n, h n)))).lookup k =
      if k ∈ l then some (h k) else d.lookup k := by
    intro l
    induction l with
    | nil => intro d; simp
    | cons n ns ih =>
      intro d
      rw [List.map_cons, List.foldl_cons, ih, lookup_setKey]
      by_cases e : k = n
      · subst e; simp
      · simp [e]
  have := key l []
  simpa [makeDict] using this

theorem dropUnset_id {d : Dict F} (h : isUnset C (d.lookup "_id") = false) : dropUnset C d = d := by
  unfold dropUnset
  rw [h]; simp

/-! ### Packing a row -/

theorem assign_skip (f : String) (c : Cell F) : ∀ (pre : List Field) (cs : List (Cell F)) (fs : List Field) (xs : List (Cell F)),
    pre.length = cs.length → f ∉ pre.map (·.name) → assign C f c (pre ++ fs) (cs ++ xs) = (assign C f c fs xs).map (cs ++ ·) := by
  intro pre
  induction pre with
  | nil =>
    intro cs fs xs hl _
    cases cs with
    | nil => simp
    | cons _ _ => simp at hl
  | cons g gs ih =>
    intro cs fs xs hl hn
    cases cs with
    | nil => simp at hl
    | cons x cs =>
      simp only [List.map_cons, List.mem_cons, not_or] at hn
      simp only [List.cons_append, assign]
      rw [if_neg (fun e => hn.1 e.symm), ih cs fs xs (by simpa using hl) hn.2]
      cases assign C f c fs xs <;> simp

theorem packRow_all {m : Mapping} {d : Dict F} (g : Field → Cell F) (z : Field → Cell F) : ∀ (fs pre : List Field) (cs : List (Cell F)),
    pre.length = cs.length → ((pre ++ fs).map (·.name)).Nodup →
    (∀ f ∈ fs, ∃ c, packField d ((m.lookup f.name).getD [f.name]) = some c ∧ store C f c = some (g f)) →
    packRow C m (pre ++ fs) d (fs.map (·.name)) (cs ++ fs.map z) = some (cs ++ fs.map g) := by
  intro fs
  induction fs with
  | nil => intro pre cs _ _ _; simp [packRow]
  | cons f fs ih =>
    intro pre cs hl hn hp
    obtain ⟨c, h1, h2⟩ := hp f List.mem_cons_self
    simp only [List.map_cons, packRow, h1]
    have hnot : f.name ∉ pre.map (·.name) := by
      rw [List.map_append, List.nodup_append] at hn
      intro hm
      exact hn.2.2 _ hm _ (by simp) rfl
    rw [assign_skip f.name c pre cs (f :: fs) _ hl hnot]
    simp only [assign, if_true, h2, Option.map_some]
    have := ih (pre ++ [f]) (cs ++ [g f]) (by simp [hl]) (by simpa using hn) (fun x hx => hp x (List.mem_cons_of_mem _ hx))
    simpa using this

theorem spreadRow_all {m : Mapping} (g : Field → Cell F) (k : Field → List (String × Cell F)) :
    ∀ fs : List Field, (∀ f ∈ fs, spread m f (g f) = some (k f)) → spreadRow m fs (fs.map g) = some (fs.flatMap k) := by
  intro fs
  induction fs with
  | nil => intro _; rfl
  | cons f fs ih =>
    intro h
    rw [List.map_cons, spreadRow, h f List.mem_cons_self, ih (fun x hx => h x (List.mem_cons_of_mem _ hx))]
    rfl

theorem mapM_all {α β} {f : α → Option β} {g : α → β} : ∀ {l : List α}, (∀ x ∈ l, f x = some (g x)) → l.mapM f = some (l.map g) := by
  intro l
  induction l with
  | nil => intro _; rfl
  | cons x xs ih =>
    intro h
    rw [List.mapM_cons, h x List.mem_cons_self, ih (fun y hy => h y (List.mem_cons_of_mem _ hy))]
    rfl

theorem mapM_none {α β} {f : α → Option β} : ∀ {l : List α}, (∃ x ∈ l, f x = none) → l.mapM f = none := by
  intro l
  induction l with
  | nil => rintro ⟨x, h, _⟩; cases h
  | cons y ys ih =>
    rintro ⟨x, hx, e⟩
    rw [List.mapM_cons]
    rcases List.mem_cons.mp hx with rfl | hx
    · rw [e]; rfl
    · rw [ih ⟨x, hx, e⟩]
      cases f y <;> rfl

theorem fst_zip_sublist {α β} : ∀ (l : List α) (l' : List β), ((l.zip l').map (·.1)).Sublist l
  | [], _ => by simp
  | _ :: _, [] => by simp
  | x :: xs, y :: ys => by simpa using (fst_zip_sublist xs ys)

end Verif.Arrays
