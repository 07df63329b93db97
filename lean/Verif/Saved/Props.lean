import Verif.Saved.Model
/-!
Property C96: the files with the results of a run.
-/
namespace Verif.Saved

variable {R P : Type}

/-! ## Lemmas -/

theorem read_write (fs : FS R P) (d n d' n' : Str) (c : Content R P) :
    read (write fs d n c) d' n' = if (d', n') = (d, n) then some c else read fs d' n' := by
  simp only [read, write, List.lookup_cons]
  by_cases h : (d', n') = (d, n)
  · rw [if_pos h, beq_iff_eq.mpr h]
  · rw [if_neg h, beq_eq_false_iff_ne.mpr h]
    simp only
    induction fs with
    | nil => rfl
    | cons f fs ih =>
      obtain ⟨k, v⟩ := f
      simp only [List.filter_cons]
      by_cases hk : k = (d, n)
      · simp only [hk, bne_self_eq_false, Bool.false_eq_true, if_false, List.lookup_cons, beq_eq_false_iff_ne.mpr h]
        exact ih
      · simp only [bne_iff_ne.mpr hk, if_true, List.lookup_cons]
        rw [ih]

theorem str_digits {n : Nat} {c : Char} (h : c ∈ str n) : c.isDigit = true :=
  Nat.isDigit_of_mem_toDigits (by omega) (by omega) h

theorem str_inj {n m : Nat} (h : str n = str m) : n = m := by
  have := congrArg (Nat.ofDigitChars 10 · 0) h
  simpa [str, Nat.ofDigitChars_ten_toDigits] using this

theorem takeWhile_digits (a b : Str) (c : Char) (ha : ∀ x ∈ a, x.isDigit = true) (hc : c.isDigit = false) :
    (a ++ c :: b).takeWhile Char.isDigit = a := by
  induction a with
  | nil => simp [hc]
  | cons x a ih =>
    have hx := ha x List.mem_cons_self
    simp only [List.cons_append, List.takeWhile_cons, hx, if_true]
    rw [ih fun y hy => ha y (List.mem_cons_of_mem _ hy)]

/-- A number after a "=" can be read off from the end of the text. -/
theorem number_inj {x y : Str} {n m : Nat} (h : x ++ ['='] ++ str n = y ++ ['='] ++ str m) : x = y ∧ n = m := by
  have key : ∀ (x : Str) (n : Nat), ((x ++ ['='] ++ str n).reverse.takeWhile Char.isDigit) = (str n).reverse := by
    intro x n
    simp only [List.reverse_append, List.reverse_cons, List.reverse_nil, List.nil_append, List.singleton_append]
    exact takeWhile_digits _ _ _ (fun c hc => str_digits (List.mem_reverse.mp hc)) (by decide)
  have h1 := key x n
  rw [h, key y m] at h1
  have h2 : str m = str n := List.reverse_inj.mp h1
  rw [h2] at h
  refine ⟨?_, (str_inj h2).symm⟩
  exact List.append_cancel_right (List.append_cancel_right h)

theorem not_npy_of_digit (a : Str) (n : Nat) : ".npy".toList.isSuffixOf (a ++ str n) = false := by
  cases h : ".npy".toList.isSuffixOf (a ++ str n) with
  | false => rfl
  | true =>
    exfalso
    obtain ⟨t, ht⟩ := List.isSuffixOf_iff_suffix.mp h
    have h1 := congrArg List.getLast? ht
    have hne : str n ≠ [] := Nat.toDigits_ne_nil
    have e1 : (t ++ ".npy".toList).getLast? = some 'y' := by
      rw [List.getLast?_append]; rfl
    have e2 : (a ++ str n).getLast? = (str n).getLast? := by
      rw [List.getLast?_append]
      cases hs : (str n).getLast? with
      | none => exact absurd (List.getLast?_eq_none_iff.mp hs) hne
      | some c => rfl
    rw [e1, e2] at h1
    have := str_digits (List.mem_of_getLast? h1.symm)
    revert this; decide

theorem end_differs (a b : Str) : a ++ ".npy".toList ≠ b ++ ".pickle".toList := by
  intro h
  have h1 := congrArg List.getLast? h
  rw [List.getLast?_append, List.getLast?_append] at h1
  have h2 : some 'y' = some 'e' := h1
  revert h2; decide

theorem join_eq (s k k' a b l c e d w x : Str) (h : k ++ a = k' ++ b) :
    s ++ (k ++ (a ++ l ++ c ++ e ++ d ++ w)) ++ x = s ++ k' ++ b ++ l ++ c ++ e ++ d ++ w ++ x := by
  have : ∀ r, k ++ (a ++ r) = k' ++ (b ++ r) := fun r => by rw [← List.append_assoc, h, List.append_assoc]
  simp only [List.append_assoc, this]

theorem join_eq' (s k a l c e d w : Str) :
    s ++ (k ++ (a ++ l ++ c ++ e ++ d ++ w)) = (s ++ k ++ a ++ l ++ c ++ e ++ d) ++ w := by
  simp only [List.append_assoc]

/-! ## What is saved -/

/-- The name of a file of results: the parts that it tells. -/
def fileName (kind : String) (short : Str) (length evals workers : Nat) (ending : String) : Str :=
  short ++ kind.toList ++ "_length=".toList ++ str length ++ "_evals=".toList ++ str evals ++ "_workers=".toList ++ str workers ++ ending.toList

theorem evals_eq (h : List (Bool × R)) : evals h = h.countP (·.1) := by rw [evals, List.countP_eq_length_filter]

theorem hist_file (h : List (Bool × R)) (n : Nat) (s : Str) :
    histName h n s true ++ ".npy".toList = fileName "_history" s h.length (h.countP (·.1)) n ".npy" := by
  unfold histName fileName probStr
  rw [evals_eq, if_pos rfl]
  have hj : "_history_".toList ++ "length=".toList = "_history".toList ++ "_length=".toList := by decide
  generalize "_history_".toList = k at *
  generalize "_history".toList = k' at *
  exact join_eq _ _ _ _ _ _ _ _ _ _ _ hj

theorem info_file (h : List (Bool × R)) (n : Nat) (s : Str) :
    infoName h n s true ++ ".pickle".toList = fileName "_persis_info" s h.length (h.countP (·.1)) n ".pickle" := by
  unfold infoName fileName probStr
  rw [evals_eq, if_pos rfl]
  have hj : "_persis_info_".toList ++ "length=".toList = "_persis_info".toList ++ "_length=".toList := by decide
  generalize "_persis_info_".toList = k at *
  generalize "_persis_info".toList = k' at *
  exact join_eq _ _ _ _ _ _ _ _ _ _ _ hj

theorem hist_npy (h : List (Bool × R)) (n : Nat) (s : Str) :
    npyName (histName h n s true) = histName h n s true ++ ".npy".toList := by
  obtain ⟨a, ha⟩ : ∃ a, histName h n s true = a ++ str n := by
    unfold histName probStr
    rw [if_pos rfl]
    exact ⟨_, join_eq' _ _ _ _ _ _ _ _⟩
  rw [npyName, ha, not_npy_of_digit, if_neg (by decide)]

/-- C96, with the attributes in the names (the default): the returned name is that of a file with the whole history,
`persis_info` is in the other file, the names tell the numbers of rows, of completed evaluations and of workers, and
no other file changes. -/
theorem C96_saved (fs : FS R P) (h : List (Bool × R)) (p : P) (base : Str) (n : Nat) (dir : Str) :
    let out := save fs h p base n dir true
    out.2 = fileName "_history" (shortName base) h.length (h.countP (·.1)) n ".npy" ∧
    read out.1 dir out.2 = some (.hist h) ∧
    read out.1 dir (fileName "_persis_info" (shortName base) h.length (h.countP (·.1)) n ".pickle") = some (.info p) ∧
    ∀ d f, (d = dir → f ≠ fileName "_history" (shortName base) h.length (h.countP (·.1)) n ".npy" ∧
        f ≠ fileName "_persis_info" (shortName base) h.length (h.countP (·.1)) n ".pickle") →
      read out.1 d f = read fs d f := by
  have e1 := hist_file h n (shortName base)
  have e2 := info_file h n (shortName base)
  have e3 := hist_npy h n (shortName base)
  have hd : fileName "_history" (shortName base) h.length (h.countP (·.1)) n ".npy" ≠
      fileName "_persis_info" (shortName base) h.length (h.countP (·.1)) n ".pickle" := end_differs _ _
  simp only [save]
  rw [e3, e1, e2]
  refine ⟨rfl, ?_, ?_, ?_⟩
  · rw [read_write, if_neg (by simpa using hd), read_write, if_pos rfl]
  · rw [read_write, if_pos rfl]
  · intro d f hf
    rw [read_write, if_neg, read_write, if_neg]
    · intro he
      simp only [Prod.mk.injEq] at he
      exact (hf he.1).1 he.2
    · intro he
      simp only [Prod.mk.injEq] at he
      exact (hf he.1).2 he.2

/-- C96: with the attributes two sets of results share a file exactly if the short name and all three numbers agree.
Whatever else differs (the values, the time, the number of the run), the later results replace the earlier ones. -/
theorem C96_distinct (k : String) (s s' : Str) (l l' e e' w w' : Nat) (ending : String) :
    fileName k s l e w ending = fileName k s' l' e' w' ending ↔ s = s' ∧ l = l' ∧ e = e' ∧ w = w' := by
  refine ⟨fun h => ?_, by rintro ⟨rfl, rfl, rfl, rfl⟩; rfl⟩
  have a1 : "_length=".toList = "_length".toList ++ ['='] := rfl
  have a2 : "_evals=".toList = "_evals".toList ++ ['='] := rfl
  have a3 : "_workers=".toList = "_workers".toList ++ ['='] := rfl
  simp only [fileName, a1, a2, a3] at h
  have h := List.append_cancel_right h
  simp only [← List.append_assoc] at h
  obtain ⟨h, hw⟩ := number_inj h
  obtain ⟨h, he⟩ := number_inj (List.append_cancel_right h)
  obtain ⟨h, hl⟩ := number_inj (List.append_cancel_right h)
  exact ⟨List.append_cancel_right (List.append_cancel_right h), hl, he, hw⟩

/-- C96: so the results of an earlier run are kept by a later one with another short name or other numbers. -/
theorem C96_kept (fs : FS R P) (h h' : List (Bool × R)) (p p' : P) (b b' : Str) (n n' : Nat) (dir : Str)
    (hd : ¬ (shortName b = shortName b' ∧ h.length = h'.length ∧ h.countP (·.1) = h'.countP (·.1) ∧ n = n')) :
    let first := save fs h p b n dir true
    read (save first.1 h' p' b' n' dir true).1 dir first.2 = some (.hist h) := by
  intro first
  have f1 := C96_saved fs h p b n dir
  have f2 := C96_saved first.1 h' p' b' n' dir
  rw [f2.2.2.2 dir first.2 fun _ => ?_]
  · exact f1.2.1
  · rw [f1.1]
    exact ⟨fun he => hd ((C96_distinct _ _ _ _ _ _ _ _ _ _).mp he), end_differs _ _⟩

/-- C96, without the attributes: the same, for a short name that does not end with ".npy". -/
theorem C96_plain_partial (fs : FS R P) (h : List (Bool × R)) (p : P) (base : Str) (n : Nat) (dir : Str)
    (hs : ¬ ∃ t, shortName base = t ++ ".npy".toList) :
    let out := save fs h p base n dir false
    out.2 = shortName base ++ ".npy".toList ∧ read out.1 dir out.2 = some (.hist h) ∧
    read out.1 dir (shortName base ++ ".pickle".toList) = some (.info p) := by
  have e3 : npyName (shortName base) = shortName base ++ ".npy".toList := by
    rw [npyName, if_neg]
    intro hx
    obtain ⟨t, ht⟩ := List.isSuffixOf_iff_suffix.mp hx
    exact hs ⟨t, ht.symm⟩
  simp only [save, histName, infoName, Bool.false_eq_true, if_false, List.append_nil]
  rw [e3]
  refine ⟨trivial, ?_, ?_⟩
  · rw [read_write, if_neg (by simpa using end_differs _ _), read_write, if_pos rfl]
  · rw [read_write, if_pos rfl]

/-- Otherwise the file has the short name, and the name that is returned is that of no new file. -/
theorem C96_plain_wrong (fs : FS R P) (h : List (Bool × R)) (p : P) (base : Str) (n : Nat) (dir t : Str)
    (hs : shortName base = t ++ ".npy".toList) :
    let out := save fs h p base n dir false
    read out.1 dir (shortName base) = some (.hist h) ∧ read out.1 dir out.2 = read fs dir out.2 := by
  have e3 : npyName (shortName base) = shortName base := by
    rw [npyName, if_pos (List.isSuffixOf_iff_suffix.mpr ⟨t, hs.symm⟩)]
  simp only [save, histName, infoName, Bool.false_eq_true, if_false, List.append_nil]
  rw [e3]
  refine ⟨?_, ?_⟩
  · rw [read_write, if_neg, read_write, if_pos rfl]
    rw [hs]
    intro he
    simp only [Prod.mk.injEq, true_and] at he
    have := congrArg List.length he
    simp at this
  · rw [read_write, if_neg (by simpa using end_differs _ _), read_write, if_neg]
    intro he
    simp only [Prod.mk.injEq, true_and] at he
    have := congrArg List.length he
    simp at this

/-! ## Short names -/

theorem takeWhile_all {α : Type} (p : α → Bool) (a b : List α) (c : α) (ha : ∀ x ∈ a, p x = true) (hc : p c = false) :
    (a ++ c :: b).takeWhile p = a := by
  induction a with
  | nil => simp [hc]
  | cons x a ih =>
    simp only [List.cons_append, List.takeWhile_cons, ha x List.mem_cons_self, if_true]
    rw [ih fun y hy => ha y (List.mem_cons_of_mem _ hy)]

theorem baseOf_path (d x : Str) (hx : '/' ∉ x) : baseOf (d ++ '/' :: x) = x := by
  simp only [baseOf, List.reverse_append, List.reverse_cons, List.append_assoc, List.singleton_append]
  rw [takeWhile_all]
  · simp
  · intro c hc
    simp only [bne_iff_ne, ne_eq]
    rintro rfl
    exact hx (List.mem_reverse.mp hc)
  · rfl

theorem dropWhile_dot (e l : Str) (h : '.' ∉ e) : (e ++ '.' :: l).dropWhile (· != '.') = '.' :: l := by
  induction e with
  | nil => simp
  | cons c e ih =>
    have hc : c ≠ '.' := fun x => h (by simp [x])
    rw [List.cons_append, List.dropWhile_cons_of_pos (by simpa using hc)]
    exact ih (fun x => h (by simp [x]))

/-- The name of the script without its ending: what follows the last dot is taken off, but a name stays whole that has no dot, or begins with
this dot (or dots only, as hidden files do). -/
theorem C96_stem (x e b : Str) (he : '.' ∉ e) :
    ((∃ c ∈ x, c ≠ '.') → stem (x ++ '.' :: e) = x) ∧ ((∀ c ∈ x, c = '.') → stem (x ++ '.' :: e) = x ++ '.' :: e) ∧
    ('.' ∉ b → stem b = b) := by
  have hr : (x ++ '.' :: e).reverse = e.reverse ++ '.' :: x.reverse := by simp
  have hd : (x ++ '.' :: e).reverse.dropWhile (· != '.') = '.' :: x.reverse := by
    rw [hr]; exact dropWhile_dot _ _ (by simpa using he)
  refine ⟨?_, ?_, ?_⟩
  · intro ⟨c, hc, hn⟩
    have : x.reverse.all (· == '.') = false := by
      rw [List.all_eq_false]
      exact ⟨c, by simpa using hc, by simpa using hn⟩
    unfold stem
    rw [hd]
    simp [this]
  · intro h
    have : x.reverse.all (· == '.') = true := by
      rw [List.all_eq_true]
      intro c hc
      simpa using h c (by simpa using hc)
    unfold stem
    rw [hd]
    simp [this]
  · intro h
    have : b.reverse.dropWhile (· != '.') = [] := by
      have : ∀ l : Str, '.' ∉ l → l.dropWhile (· != '.') = [] := by
        intro l hl
        induction l with
        | nil => rfl
        | cons c l ih =>
          have hc : c ≠ '.' := fun x => hl (by simp [x])
          rw [List.dropWhile_cons_of_pos (by simpa using hc)]
          exact ih (fun x => hl (by simp [x]))
      exact this _ (by simpa using h)
    unfold stem
    rw [this]

example : stem ".run.py".toList = ".run".toList ∧ stem "..py".toList = "..py".toList ∧ stem "run".toList = "run".toList := by decide

theorem stem_py (x : Str) (hx : ∃ c ∈ x, c ≠ '.') : stem (x ++ ".py".toList) = x := by
  have hr : (x ++ ".py".toList).reverse = 'y' :: 'p' :: '.' :: x.reverse := by simp
  have hd : (x ++ ".py".toList).reverse.dropWhile (· != '.') = '.' :: x.reverse := by rw [hr]; rfl
  have hall : x.reverse.all (· == '.') = false := by
    obtain ⟨c, hc, hne⟩ := hx
    rw [List.all_eq_false]
    exact ⟨c, List.mem_reverse.mpr hc, by simpa using hne⟩
  simp only [stem, hd, hall, Bool.false_eq_true, if_false, List.reverse_reverse]

theorem cut_none {p x : Str} (hp : p ≠ []) (h : ¬ ∃ a b, x = a ++ p ++ b) : cut p x = none := by
  induction x with
  | nil => rfl
  | cons c x ih =>
    rw [cut, if_neg, ih]
    · rintro ⟨a, b, he⟩; exact h ⟨c :: a, b, by simp [he]⟩
    · intro hx
      obtain ⟨t, ht⟩ := List.isPrefixOf_iff_prefix.mp hx
      exact h ⟨[], t, by simpa using ht.symm⟩

/-- C96: the short name of a script is its name, without the directory, the ending and "test_" at the beginning. -/
theorem C96_short (d x : Str) (hx : '/' ∉ x) (hn : ∃ c ∈ x, c ≠ '.') (ht : ¬ ∃ a b, x = a ++ "test_".toList ++ b) :
    shortName (d ++ '/' :: (x ++ ".py".toList)) = x := by
  have hx2 : '/' ∉ x ++ ".py".toList := by
    intro h; rcases List.mem_append.mp h with h | h
    · exact hx h
    · revert h; decide
  rw [shortName, baseOf_path _ _ hx2, stem_py x hn, cut_none (by decide) ht]
  rfl

theorem C96_short_test (d x : Str) (hx : '/' ∉ x) :
    shortName (d ++ '/' :: ("test_".toList ++ x ++ ".py".toList)) = x := by
  have hx2 : '/' ∉ "test_".toList ++ x ++ ".py".toList := by
    intro h
    rcases List.mem_append.mp h with h | h
    · rcases List.mem_append.mp h with h | h
      · revert h; decide
      · exact hx h
    · revert h; decide
  rw [shortName, baseOf_path _ _ hx2, stem_py _ ⟨'t', by simp, by decide⟩]
  simp [cut, List.isPrefixOf]

/-- C96: so a script and its test share their files: with equal numbers the results of one replace those of the other. -/
theorem C96_shared (fs : FS R P) (h h' : List (Bool × R)) (p p' : P) (d x dir : Str) (n : Nat)
    (hx : '/' ∉ x) (hn : ∃ c ∈ x, c ≠ '.') (ht : ¬ ∃ a b, x = a ++ "test_".toList ++ b)
    (hl : h.length = h'.length) (he : h.countP (·.1) = h'.countP (·.1)) :
    let first := save fs h p (d ++ '/' :: (x ++ ".py".toList)) n dir true
    read (save first.1 h' p' (d ++ '/' :: ("test_".toList ++ x ++ ".py".toList)) n dir true).1 dir first.2 = some (.hist h') := by
  intro first
  have f1 := C96_saved fs h p (d ++ '/' :: (x ++ ".py".toList)) n dir
  have f2 := C96_saved first.1 h' p' (d ++ '/' :: ("test_".toList ++ x ++ ".py".toList)) n dir
  have hsame : first.2 = (save first.1 h' p' (d ++ '/' :: ("test_".toList ++ x ++ ".py".toList)) n dir true).2 := by
    rw [f1.1, f2.1, C96_short d x hx hn ht, C96_short_test d x hx, hl, he]
  rw [hsame]
  exact f2.2.1

/-! ## Whether the file is there -/

theorem check_iff (test : FS R P → Bool) (seen : Nat → FS R P) (k i : Nat) :
    check test seen k i = true ↔ ∃ j, i ≤ j ∧ j < i + k ∧ test (seen j) = true := by
  induction k generalizing i with
  | zero => simp only [check, Bool.false_eq_true, false_iff, not_exists]; intro j; omega
  | succ k ih =>
    simp only [check]
    split
    · rename_i h; simp only [true_iff]; exact ⟨i, Nat.le_refl _, by omega, h⟩
    · rename_i h
      rw [ih]
      constructor
      · rintro ⟨j, h1, h2, h3⟩; exact ⟨j, by omega, by omega, h3⟩
      · rintro ⟨j, h1, h2, h3⟩
        refine ⟨j, ?_, by omega, h3⟩
        rcases Nat.eq_or_lt_of_le h1 with he | hl
        · subst he; exact absurd h3 h
        · exact hl

theorem read_some {fs : FS R P} {d n : Str} {c : Content R P} (h : read fs d n = some c) : ∃ f ∈ fs, f.1 = (d, n) := by
  induction fs with
  | nil => cases h
  | cons f fs ih =>
    obtain ⟨k, v⟩ := f
    simp only [read, List.lookup_cons] at h
    by_cases hk : (d, n) = k
    · exact ⟨_, List.mem_cons_self, hk.symm⟩
    · rw [beq_eq_false_iff_ne.mpr hk] at h
      obtain ⟨f, hf, he⟩ := ih h
      exact ⟨f, List.mem_cons_of_mem _ hf, he⟩

/-- C96: a file that can be read at one of the checks is found. -/
theorem C96_exact (seen : Nat → FS R P) (dir name : Str) (k : Nat) :
    check (exactExists dir name) seen k 0 = true ↔ ∃ j, j < k ∧ ∃ c, read (seen j) dir name = some c := by
  rw [check_iff]
  have key : ∀ fs : FS R P, exactExists dir name fs = true ↔ ∃ c, read fs dir name = some c := by
    intro fs
    constructor
    · intro h
      simp only [exactExists, List.any_eq_true, beq_iff_eq] at h
      obtain ⟨f, hf, he⟩ := h
      induction fs with
      | nil => simp at hf
      | cons g fs ih =>
        obtain ⟨kk, v⟩ := g
        simp only [read, List.lookup_cons]
        by_cases hk : (dir, name) = kk
        · rw [beq_iff_eq.mpr hk]; exact ⟨v, rfl⟩
        · rw [beq_eq_false_iff_ne.mpr hk]
          rcases List.mem_cons.mp hf with h | h
          · subst h; exact absurd he.symm hk
          · exact ih h
    · rintro ⟨c, hc⟩
      obtain ⟨f, hf, he⟩ := read_some hc
      simp only [exactExists, List.any_eq_true, beq_iff_eq]
      exact ⟨f, hf, he⟩
  constructor
  · rintro ⟨j, _, h2, h3⟩; exact ⟨j, by omega, (key _).mp h3⟩
  · rintro ⟨j, h2, h3⟩; exact ⟨j, by omega, by omega, (key _).mpr h3⟩

/-- C96: results that are saved in the working directory are found by their base name at the first check. -/
theorem C96_found (fs : FS R P) (h : List (Bool × R)) (p : P) (base : Str) (n : Nat) (dir : Str) (seen : Nat → FS R P)
    (k : Nat) (hs : seen 0 = (save fs h p base n dir true).1) : check (baseExists dir base) seen (k + 1) 0 = true := by
  rw [check_iff]
  refine ⟨0, Nat.le_refl _, by omega, ?_⟩
  have hf := C96_saved fs h p base n dir
  obtain ⟨f, hm, he⟩ := read_some hf.2.1
  rw [hs]
  simp only [baseExists, List.any_eq_true, Bool.and_eq_true, beq_iff_eq]
  refine ⟨f, hm, ?_⟩
  rw [he, hf.1]
  refine ⟨⟨rfl, List.isPrefixOf_iff_prefix.mpr ?_⟩, List.isSuffixOf_iff_suffix.mpr ?_⟩
  · simp only [fileName, List.append_assoc]; exact List.prefix_append _ _
  · exact ⟨_, rfl⟩

/-- C96: but so are those of every script whose short name begins with the same characters, in the same run or in an
earlier one. -/
theorem C96_found_wrong (fs : FS R P) (h : List (Bool × R)) (p : P) (base base' t : Str) (n : Nat) (dir : Str) (seen : Nat → FS R P)
    (k : Nat) (hs : seen 0 = (save fs h p base' n dir true).1) (hb : shortName base' = shortName base ++ t) :
    check (baseExists dir base) seen (k + 1) 0 = true := by
  rw [check_iff]
  refine ⟨0, Nat.le_refl _, by omega, ?_⟩
  have hf := C96_saved fs h p base' n dir
  obtain ⟨f, hm, he⟩ := read_some hf.2.1
  rw [hs]
  simp only [baseExists, List.any_eq_true, Bool.and_eq_true, beq_iff_eq]
  refine ⟨f, hm, ?_⟩
  rw [he, hf.1]
  refine ⟨⟨rfl, List.isPrefixOf_iff_prefix.mpr ?_⟩, List.isSuffixOf_iff_suffix.mpr ?_⟩
  · rw [hb]; simp only [fileName, List.append_assoc]; exact List.prefix_append _ _
  · exact ⟨_, rfl⟩

/-- C96: what is found by a base name: some array file whose name begins with the short name. -/
theorem C96_base (seen : Nat → FS R P) (dir base : Str) (k : Nat) :
    check (baseExists dir base) seen k 0 = true ↔
      ∃ j, j < k ∧ ∃ f ∈ seen j, ∃ t, f.1 = (dir, shortName base ++ t) ∧ ∃ u, shortName base ++ t = u ++ ".npy".toList := by
  rw [check_iff]
  have key : ∀ fs : FS R P, baseExists dir base fs = true ↔
      ∃ f ∈ fs, ∃ t, f.1 = (dir, shortName base ++ t) ∧ ∃ u, shortName base ++ t = u ++ ".npy".toList := by
    intro fs
    simp only [baseExists, List.any_eq_true, Bool.and_eq_true, beq_iff_eq, List.isPrefixOf_iff_prefix, List.isSuffixOf_iff_suffix]
    constructor
    · rintro ⟨f, hf, ⟨h1, t, ht⟩, u, hu⟩
      exact ⟨f, hf, t, by rw [← h1, ht], u, by rw [ht, hu]⟩
    · rintro ⟨f, hf, t, h1, u, hu⟩
      refine ⟨f, hf, ⟨by rw [h1], t, by rw [h1]⟩, u, by rw [h1, hu]⟩
  constructor
  · rintro ⟨j, _, h2, h3⟩; exact ⟨j, by omega, (key _).mp h3⟩
  · rintro ⟨j, h2, h3⟩; exact ⟨j, by omega, by omega, (key _).mpr h3⟩

/-! ## Cases -/

example : shortName "/home/a/test_six.hump.py".toList = "six.hump".toList ∧ shortName "six.hump.py".toList = "six.hump".toList ∧
    shortName ".py".toList = ".py".toList ∧ shortName "run/a_test_test_b.py".toList = "test_b".toList := by decide

/-- Three scripts with one short name; the third has "test_" by chance. -/
theorem C96_short_witness : shortName "a.py".toList = "a".toList ∧ shortName "test_a.py".toList = "a".toList ∧
    shortName "latest_a.py".toList = "a".toList := by decide

/-- Two runs of one script with as many rows, evaluations and workers: the results of the first are gone. -/
theorem C96_lost_witness :
    let first := save (P := Nat) [] [(true, 1), (true, 2), (false, 0)] 7 "a.py".toList 4 [] true
    let second := save first.1 [(true, 3), (true, 4), (false, 0)] 8 "a.py".toList 4 [] true
    second.2 = "a_history_length=3_evals=2_workers=4.npy".toList ∧ first.2 = second.2 ∧ second.1.length = 2 ∧
    read second.1 [] first.2 = some (.hist [(true, 3), (true, 4), (false, 0)]) := by decide

/-- The returned name is that of no file. -/
theorem C96_plain_witness :
    let out := save (P := Nat) [] [(true, 1)] 7 "a.npy.py".toList 4 [] false
    out.2 = "a.npy.npy".toList ∧ read out.1 [] out.2 = none ∧ out.1.map (·.1.2) = ["a.npy.pickle".toList, "a.npy".toList] := by decide

/-- The results of "camel_big" are taken for those of "camel". -/
theorem C96_found_witness :
    baseExists [] "camel.py".toList (save (P := Nat) [] [(true, 1)] 7 "camel_big.py".toList 4 [] true).1 = true := by decide

/-- With `max_wait=0` no check is made, and a file that is there is not found. -/
theorem C96_no_wait_witness :
    let fs := (save (P := Nat) [] [(true, 1)] 7 "a.py".toList 4 [] false).1
    read fs [] "a.npy".toList = some (.hist [(true, 1)]) ∧ check (exactExists [] "a.npy".toList) (fun _ => fs) 0 0 = false ∧
    check (exactExists [] "a.npy".toList) (fun _ => fs) 1 0 = true := by decide

/-- Another number of evaluations: both are kept. -/
example :
    let first := save (P := Nat) [] [(true, 1), (false, 2)] 7 "a.py".toList 4 [] true
    read (save first.1 [(true, 1), (true, 2)] 8 "a.py".toList 4 [] true).1 [] first.2 = some (.hist [(true, 1), (false, 2)]) := by decide

end Verif.Saved
