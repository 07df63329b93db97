import Verif.Labels.Model
/-!
C44: names of simulation directories.
-/
namespace Verif.Labels

/-! ### Reading a label back (specification) -/

/-- Cut at a character. -/
def cutAt (c : Char) : Str → List Str
  | [] => [[]]
  | x :: xs => if x = c then [] :: cutAt c xs
    else match cutAt c xs with
      | [] => [[x]]
      | p :: ps => (x :: p) :: ps

/-- The value of a decimal number. -/
def int (s : Str) : Nat := Nat.ofDigitChars 10 s 0

/-- The rows of one range `a` or `a-b`. -/
def readPiece (s : Str) : List Nat :=
  match cutAt '-' s with
  | [a] => [int a]
  | [a, b] => List.range' (int a) (int b + 1 - int a)
  | _ => []

/-- The rows named by a label, with or without zeros in front. -/
def read (s : Str) : List Nat := (cutAt '_' s).flatMap readPiece

theorem cutAt_none {c : Char} {s : Str} (h : c ∉ s) : cutAt c s = [s] := by
  induction s with
  | nil => rfl
  | cons x xs ih =>
    simp only [List.mem_cons, not_or] at h
    simp only [cutAt]
    rw [if_neg (fun e => h.1 e.symm), ih h.2]

theorem cutAt_append {c : Char} {s t : Str} (h : c ∉ s) : cutAt c (s ++ c :: t) = s :: cutAt c t := by
  induction s with
  | nil => simp [cutAt]
  | cons x xs ih =>
    simp only [List.mem_cons, not_or] at h
    simp only [List.cons_append, cutAt]
    rw [if_neg (fun e => h.1 e.symm), ih h.2]

theorem cutAt_intercalate {c : Char} : ∀ {ls : List Str}, ls ≠ [] → (∀ s ∈ ls, c ∉ s) → cutAt c (List.intercalate [c] ls) = ls := by
  intro ls
  induction ls with
  | nil => intro h; exact absurd rfl h
  | cons s ls ih =>
    intro _ h
    cases ls with
    | nil => simp only [List.intercalate_singleton]; exact cutAt_none (h s (by simp))
    | cons t ts =>
      rw [List.intercalate_cons_cons, List.append_assoc, List.singleton_append, cutAt_append (h s (by simp)), ih (by simp) (fun x hx => h x (by simp [hx]))]

theorem str_digits {n : Nat} {c : Char} (h : c ∈ str n) : c.isDigit = true := Nat.isDigit_of_mem_toDigits (by omega) (by omega) h

theorem int_str (n : Nat) : int (str n) = n := Nat.ofDigitChars_ten_toDigits

theorem int_zeros (k : Nat) (s : Str) : int (List.replicate k '0' ++ s) = int s := by
  unfold int
  rw [Nat.ofDigitChars_append, Nat.ofDigitChars_replicate_zero, Nat.mul_zero]

theorem groups_flatten : ∀ (rows : List Nat) (i : Nat), (groups i rows).flatten = rows := by
  intro rows
  induction rows with
  | nil => intro i; rfl
  | cons v vs ih =>
    intro i
    have h := ih (i + 1)
    unfold groups
    split
    · rename_i u us gs hg
      rw [hg] at h
      split <;> simp_all
    · simp_all

theorem groups_run : ∀ (rows : List Nat) (i : Nat), ∀ g ∈ groups i rows, ∃ a n, g = List.range' a (n + 1) := by
  intro rows
  induction rows with
  | nil => intro i g h; cases h
  | cons v vs ih =>
    intro i g hg
    unfold groups at hg
    split at hg
    · rename_i u us gs he
      have hmem : ∀ x ∈ (u :: us) :: gs, ∃ a n, x = List.range' a (n + 1) := fun x hx => ih (i + 1) x (by rw [he]; exact hx)
      split at hg
      · rename_i hk
        rcases List.mem_cons.mp hg with rfl | hg
        · obtain ⟨a, n, ha⟩ := hmem (u :: us) (by simp)
          have hu : u = a := by rw [List.range'_succ] at ha; exact (List.cons.inj ha).1
          refine ⟨v, n + 1, ?_⟩
          rw [List.range'_succ, ha]
          have : a = v + 1 := by omega
          rw [this]
        · exact hmem g (by simp [hg])
      · rcases List.mem_cons.mp hg with rfl | hg
        · exact ⟨v, 0, by simp⟩
        · exact hmem g hg
    · rcases List.mem_cons.mp hg with rfl | hg
      · exact ⟨v, 0, by simp⟩
      · exact ih (i + 1) g hg

theorem piece_chars {g : List Nat} {c : Char} (h : c ∈ piece g) : c.isDigit = true ∨ c = '-' := by
  unfold piece at h
  split at h
  · rcases List.mem_append.mp h with h | h
    · exact .inl (str_digits h)
    · rcases List.mem_cons.mp h with h | h
      · exact .inr h
      · exact .inl (str_digits h)
  · exact .inl (str_digits h)

theorem not_mem_zeros_str {c : Char} (hc : c.isDigit = false) (k n : Nat) : c ∉ List.replicate k '0' ++ str n := by
  intro h
  rcases List.mem_append.mp h with h | h
  · rw [List.eq_of_mem_replicate h] at hc; revert hc; decide
  · rw [str_digits h] at hc; cases hc

theorem read_piece (k a n : Nat) : readPiece (List.replicate k '0' ++ piece (List.range' a (n + 1))) = List.range' a (n + 1) := by
  have hd : ('-' : Char).isDigit = false := by decide
  have hh : (List.range' a (n + 1)).headD 0 = a := by rw [List.range'_succ]; rfl
  unfold piece readPiece
  cases n with
  | zero =>
    rw [if_neg (by simp), hh, cutAt_none (not_mem_zeros_str hd k a)]
    simp [int_zeros, int_str]
  | succ n =>
    have hl : (List.range' a (n + 1 + 1)).getLastD 0 = a + (n + 1) := by
      rw [List.range'_concat]; simp
    rw [if_pos (by simp), hh, hl, ← List.append_assoc, cutAt_append (not_mem_zeros_str hd k a),
      cutAt_none (by have := not_mem_zeros_str hd 0 (a + (n + 1)); simpa using this)]
    simp only [int_zeros, int_str]
    congr 1
    omega

theorem read_intercalate (k : Nat) {gs : List (List Nat)} (hne : gs ≠ []) (h : ∀ g ∈ gs, ∃ a n, g = List.range' a (n + 1)) :
    read (List.replicate k '0' ++ List.intercalate ['_'] (gs.map piece)) = gs.flatten := by
  have hu : ('_' : Char).isDigit = false := by decide
  have hp : ∀ g : List Nat, '_' ∉ piece g := by
    intro g hc
    rcases piece_chars hc with h | h
    · rw [h] at hu; cases hu
    · revert h; decide
  have hz : '_' ∉ List.replicate k '0' := by
    intro h; rw [List.mem_replicate] at h; revert h; simp
  cases gs with
  | nil => exact absurd rfl hne
  | cons g gs =>
    have e : List.replicate k '0' ++ List.intercalate ['_'] ((g :: gs).map piece) =
        List.intercalate ['_'] ((List.replicate k '0' ++ piece g) :: gs.map piece) := by
      cases gs with
      | nil => simp
      | cons g' gs => simp [List.intercalate_cons_cons]
    rw [e]
    unfold read
    rw [cutAt_intercalate (by simp) (by
      intro s hs
      rcases List.mem_cons.mp hs with rfl | hs
      · simp [hz, hp]
      · obtain ⟨g', _, rfl⟩ := List.mem_map.mp hs; exact hp g')]
    rw [List.flatMap_cons, List.flatten_cons]
    obtain ⟨a, n, rfl⟩ := h g (by simp)
    rw [read_piece]
    congr 1
    have : ∀ gs : List (List Nat), (∀ g ∈ gs, ∃ a n, g = List.range' a (n + 1)) → (gs.map piece).flatMap readPiece = gs.flatten := by
      intro gs
      induction gs with
      | nil => intro _; rfl
      | cons g gs ih =>
        intro h
        obtain ⟨a, n, rfl⟩ := h g (by simp)
        rw [List.map_cons, List.flatMap_cons, List.flatten_cons, ih (fun x hx => h x (by simp [hx]))]
        have := read_piece 0 a n
        simp only [List.replicate_zero, List.nil_append] at this
        rw [this]
    exact this gs (fun x hx => h x (by simp [hx]))

/-! ## C44 -/

/-- The label, with any number of zeros in front, determines the rows exactly. -/
theorem C44_label {rows : List Nat} (h : rows ≠ []) (pad : Nat) : read (rjust pad (label rows)) = rows := by
  unfold rjust label
  split
  · rename_i h1
    match rows, h1 with
    | [r], _ =>
      have := read_intercalate (pad - (str r).length) (gs := [[r]]) (by simp) (by intro g hg; simp at hg; exact ⟨r, 0, by simp [hg]⟩)
      simpa [piece] using this
  · have hne : groups 0 rows ≠ [] := by
      intro e
      have := groups_flatten rows 0
      rw [e] at this
      exact h this.symm
    rw [read_intercalate _ hne (groups_run rows 0), groups_flatten]

/-- Different rows have different labels, whatever the widths. -/
theorem C44_injective {rows rows' : List Nat} (h : rows ≠ []) (h' : rows' ≠ []) {pad pad' : Nat}
    (he : rjust pad (label rows) = rjust pad' (label rows')) : rows = rows' := by
  rw [← C44_label h pad, he, C44_label h' pad']

theorem label_chars {rows : List Nat} {c : Char} (h : c ∈ label rows) : c.isDigit = true ∨ c = '-' ∨ c = '_' := by
  unfold label at h
  split at h
  · exact .inl (str_digits h)
  · have key : ∀ gs : List (List Nat), c ∈ List.intercalate ['_'] (gs.map piece) → c.isDigit = true ∨ c = '-' ∨ c = '_' := by
      intro gs
      induction gs with
      | nil => intro h; simp at h
      | cons g gs ih =>
        intro h
        cases gs with
        | nil =>
          simp only [List.map_cons, List.map_nil, List.intercalate_singleton] at h
          rcases piece_chars h with h | h
          · exact .inl h
          · exact .inr (.inl h)
        | cons g' gs =>
          rw [List.map_cons, List.map_cons, List.intercalate_cons_cons, List.append_assoc] at h
          rcases List.mem_append.mp h with h | h
          · rcases piece_chars h with h | h
            · exact .inl h
            · exact .inr (.inl h)
          · rcases List.mem_append.mp h with h | h
            · simp at h; exact .inr (.inr h)
            · exact ih h
    exact key _ h

theorem stem_calc (o : Opts) (c : Calc) : stem (c.name ++ rjust o.pad c.text) = c.name ++ rjust o.pad c.text := by
  unfold stem
  rw [if_neg]
  rintro ⟨h, _⟩
  have hd : ('.' : Char).isDigit = false := by decide
  rcases List.mem_append.mp h with h | h
  · cases c <;> revert h <;> simp [Calc.name]
  · unfold rjust at h
    rcases List.mem_append.mp h with h | h
    · rw [List.mem_replicate] at h; revert h; simp
    · cases c with
      | sim rows =>
        rcases label_chars h with h | h | h
        · rw [hd] at h; cases h
        · revert h; decide
        · revert h; decide
      | gen n => have := str_digits h; rw [hd] at this; cases this

/-- With directories for simulations, two work orders for different rows never run in the same directory, whatever the
workers and the other options. -/
theorem C44_directories (o : Opts) (w w' : Nat) {rows rows' : List Nat} (h : rows ≠ []) (h' : rows' ≠ []) (ho : o.simDirs = true)
    (he : calcDir o w (.sim rows) = calcDir o w' (.sim rows')) : rows = rows' := by
  have hc : ∀ r, o.calcDirs (.sim r) = true := by intro r; simp [Opts.calcDirs, ho]
  unfold calcDir at he
  simp only [hc, if_true, stem_calc] at he
  have hl : ∀ {a b : List Str} {x y : Str}, a ++ [x] = b ++ [y] → x = y := by
    intro a b x y e
    have := congrArg List.getLast? e
    simpa using this
  have := hl he
  simp only [Calc.name, Calc.text] at this
  exact C44_injective h h' (List.append_cancel_left this)

/-- A simulation and a generator never share a directory (with directories for both). -/
theorem C44_sim_gen (o : Opts) (w w' : Nat) (rows : List Nat) (n : Nat) (ho : o.simDirs = true) (hg : o.genDirs = true) :
    calcDir o w (.sim rows) ≠ calcDir o w' (.gen n) := by
  intro he
  unfold calcDir at he
  simp only [Opts.calcDirs, ho, hg, Bool.not_true, Bool.and_false, Bool.false_eq_true, if_false, if_true, stem_calc] at he
  have := congrArg List.getLast? he
  simp [Calc.name] at this

theorem str_inj {a b : Nat} (h : str a = str b) : a = b := by rw [← int_str a, h, int_str]

theorem stem_worker (w : Nat) : stem ("worker".toList ++ str w) = "worker".toList ++ str w := by
  unfold stem
  rw [if_neg]
  rintro ⟨h, _⟩
  have hd : ('.' : Char).isDigit = false := by decide
  rcases List.mem_append.mp h with h | h
  · revert h; decide
  · have := str_digits h; rw [hd] at this; cases this

/-- With directories for workers, no two workers ever share a directory. -/
theorem C44_worker_dirs (o : Opts) (w w' : Nat) (c c' : Calc) (ho : o.workerDirs = true) (he : calcDir o w c = calcDir o w' c') :
    w = w' := by
  unfold calcDir at he
  simp only [ho, if_true, stem_worker] at he
  have key : ∀ {x y : Str} {a b : List Str}, o.ensemble ++ (x :: a) = o.ensemble ++ (y :: b) → x = y := by
    intro x y a b e
    have := List.append_cancel_left e
    simp at this
    exact this.1
  have fin : "worker".toList ++ str w = "worker".toList ++ str w' → w = w' := fun e => str_inj (List.append_cancel_left e)
  split at he <;> split at he
  · rw [List.append_assoc, List.append_assoc] at he; exact fin (key he)
  · rw [List.append_assoc] at he; exact fin (key he)
  · rw [List.append_assoc] at he; exact fin (key he)
  · exact fin (key he)

/-- With directories for workers and generators, each call of each generator has its own directory. -/
theorem C44_gen_dirs (o : Opts) (w w' n n' : Nat) (ho : o.workerDirs = true) (hg : o.genDirs = true)
    (he : calcDir o w (.gen n) = calcDir o w' (.gen n')) : w = w' ∧ n = n' := by
  refine ⟨C44_worker_dirs o w w' _ _ ho he, ?_⟩
  have hc : ∀ r, o.calcDirs (.gen r) = true := by intro r; simp [Opts.calcDirs, hg]
  unfold calcDir at he
  simp only [hc, if_true, stem_calc] at he
  have := congrArg List.getLast? he
  simp only [List.getLast?_append, List.getLast?_singleton, Option.or_some, Option.some.injEq, Option.some_or] at this
  have := congrArg int (List.append_cancel_left (show "gen".toList ++ rjust o.pad (str n) = "gen".toList ++ rjust o.pad (str n') from this))
  simpa [rjust, int_zeros, int_str] using this

example : calcDir ⟨["ens".toList], true, true, true, 2⟩ 2 (.gen 7) = ["ens".toList, "worker2".toList, "gen07".toList] ∧
    calcDir ⟨["ens".toList], true, false, true, 2⟩ 2 (.sim [7]) = ["ens".toList, "worker2".toList] := by decide

/-- Contiguous or not, in any order: the labels. -/
example : String.ofList (label [4]) = "4" ∧ String.ofList (label [3, 4, 5, 9, 7, 8]) = "3-5_9_7-8" ∧
    String.ofList (label [5, 4, 3]) = "5_4_3" ∧ String.ofList (rjust 4 (label [0, 1])) = "00-1" := by decide

example : calcDir ⟨[], false, true, false, 4⟩ 1 (.sim [12]) = ["sim0012".toList] ∧
    calcDir ⟨["ens".toList], true, true, false, 4⟩ 2 (.sim [2, 3]) = ["ens".toList, "worker2".toList, "sim02-3".toList] := by decide

/-- An empty list of rows would share its directory with row 0. -/
theorem C44_empty_witness : rjust 4 (label []) = rjust 4 (label [0]) := by decide

/-- Without directories for simulations all simulations share one directory; generators of different workers share theirs
unless workers have directories, as each worker counts its own calls. -/
theorem C44_shared_witness : calcDir ⟨[], false, false, true, 4⟩ 1 (.sim [1]) = calcDir ⟨[], false, false, true, 4⟩ 2 (.sim [2]) ∧
    calcDir ⟨[], false, true, true, 4⟩ 1 (.gen 1) = calcDir ⟨[], false, true, true, 4⟩ 2 (.gen 1) := by decide

end Verif.Labels
