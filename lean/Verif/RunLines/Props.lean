import Verif.RunLines.Model
/-!
C99: the checks of lines that start programs.
-/
namespace Verif.RunLines

/-! ### Reading a line -/

/-- A word is the option, or begins with it if the value follows after "=". -/
def Hit (name w : Text) : Prop := w = name ∨ (name <+: w ∧ name.getLast? = some '=')

/-- The option has the value: as two words, or as one if the name ends in "=". -/
def Has (line : List Text) (name v : Text) : Prop :=
  ∃ pre post, line = pre ++ (if name.getLast? = some '=' then [name ++ v] else [name, v]) ++ post

theorem eqEnd_iff (name : Text) : eqEnd name = true ↔ name.getLast? = some '=' := by simp [eqEnd]

theorem pre_iff (name w : Text) : name.isPrefixOf w = true ↔ name <+: w := by simp

section scan
variable (two : Text → Text → Text) (one : Text → Text) (name : Text)

theorem scan_hit {w : Text} (u : Text) (us : List Text) (acc : Option Text) (h : w = name) :
    scan two one name (w :: u :: us) acc = scan two one name (u :: us) (some (two w u)) := by
  rw [scan, if_pos h]

theorem scan_end {w : Text} (acc : Option Text) (h : w = name) : scan two one name [w] acc = .error .index := by
  simp [scan, h]

theorem scan_pre {w : Text} (ws : List Text) (acc : Option Text) (h : w ≠ name) (h2 : name.isPrefixOf w = true ∧ eqEnd name = true) :
    scan two one name (w :: ws) acc = scan two one name ws (some (one w)) := by
  cases ws <;> (conv => lhs; unfold scan) <;> rw [if_neg h, if_pos h2]

theorem scan_skip {w : Text} (ws : List Text) (acc : Option Text) (h : w ≠ name) (h2 : ¬ (name.isPrefixOf w = true ∧ eqEnd name = true)) :
    scan two one name (w :: ws) acc = scan two one name ws acc := by
  cases ws <;> (conv => lhs; unfold scan) <;> rw [if_neg h, if_neg h2]

theorem scan_cons (w : Text) (ws : List Text) (acc : Option Text) (hw : ws ≠ []) :
    ∃ acc', scan two one name (w :: ws) acc = scan two one name ws acc' := by
  cases ws with
  | nil => exact absurd rfl hw
  | cons u us =>
    by_cases h : w = name
    · exact ⟨some (two w u), by rw [scan, if_pos h]⟩
    · by_cases h2 : name.isPrefixOf w = true ∧ eqEnd name = true
      · exact ⟨some (one w), by rw [scan_pre two one name _ _ h h2]⟩
      · exact ⟨acc, by rw [scan_skip two one name _ _ h h2]⟩

theorem scan_append (pre ws : List Text) (acc : Option Text) (hw : ws ≠ []) :
    ∃ acc', scan two one name (pre ++ ws) acc = scan two one name ws acc' := by
  induction pre generalizing acc with
  | nil => exact ⟨acc, rfl⟩
  | cons w pre ih =>
    obtain ⟨a, ha⟩ := scan_cons two one name w (pre ++ ws) acc (by simp [hw])
    obtain ⟨b, hb⟩ := ih a
    exact ⟨b, by rw [List.cons_append, ha, hb]⟩

theorem scan_none (l : List Text) (acc : Option Text) (h : ∀ w ∈ l, ¬ Hit name w) : scan two one name l acc = .ok acc := by
  induction l with
  | nil => rfl
  | cons w ws ih =>
    have hw := h w (by simp)
    have h1 : w ≠ name := fun e => hw (Or.inl e)
    have h2 : ¬ (name.isPrefixOf w = true ∧ eqEnd name = true) := fun e => hw (Or.inr ⟨(pre_iff _ _).mp e.1, (eqEnd_iff _).mp e.2⟩)
    rw [scan_skip two one name _ _ h1 h2]
    exact ih (fun x hx => h x (by simp [hx]))

theorem scan_two (pre post : List Text) (v : Text) (acc : Option Text) (h : ∀ w ∈ v :: post, ¬ Hit name w) :
    scan two one name (pre ++ name :: v :: post) acc = .ok (some (two name v)) := by
  obtain ⟨a, ha⟩ := scan_append two one name pre (name :: v :: post) acc (by simp)
  rw [ha, scan, if_pos rfl]
  exact scan_none two one name _ _ h

theorem scan_one (pre post : List Text) (w : Text) (acc : Option Text) (hw : name <+: w) (hn : w ≠ name)
    (he : name.getLast? = some '=') (h : ∀ w ∈ post, ¬ Hit name w) :
    scan two one name (pre ++ w :: post) acc = .ok (some (one w)) := by
  obtain ⟨a, ha⟩ := scan_append two one name pre (w :: post) acc (by simp)
  rw [ha, scan_pre two one name _ _ hn ⟨(pre_iff _ _).mpr hw, (eqEnd_iff _).mpr he⟩]
  exact scan_none two one name _ _ h

theorem scan_error (l : List Text) (acc : Option Text) (e : Err) :
    scan two one name l acc = .error e ↔ e = .index ∧ l.getLast? = some name := by
  induction l generalizing acc with
  | nil => simp [scan]
  | cons w ws ih =>
    cases ws with
    | nil =>
      by_cases h : w = name
      · simp [scan, h]; exact eq_comm
      · by_cases h2 : name.isPrefixOf w = true ∧ eqEnd name = true
        · rw [scan_pre two one name _ _ h h2]; simp [scan, h]
        · rw [scan_skip two one name _ _ h h2]; simp [scan, h]
    | cons u us =>
      obtain ⟨a, ha⟩ := scan_cons two one name w (u :: us) acc (by simp)
      rw [ha, ih]; simp

theorem scan_found (l : List Text) (acc : Option Text) (t : Text) (h : scan two one name l acc = .ok (some t)) :
    acc = some t ∨ (∃ pre v post, l = pre ++ name :: v :: post ∧ t = two name v) ∨
    (∃ pre w post, l = pre ++ w :: post ∧ w ≠ name ∧ name <+: w ∧ name.getLast? = some '=' ∧ t = one w) := by
  induction l generalizing acc with
  | nil => simp [scan] at h; exact Or.inl h
  | cons w ws ih =>
    have lift : ∀ acc', (acc' = acc ∨ (∃ v us, w = name ∧ ws = v :: us ∧ acc' = some (two name v)) ∨
        (w ≠ name ∧ name <+: w ∧ name.getLast? = some '=' ∧ acc' = some (one w))) →
        scan two one name ws acc' = .ok (some t) →
        (acc = some t ∨ (∃ pre v post, w :: ws = pre ++ name :: v :: post ∧ t = two name v) ∨
        (∃ pre x post, w :: ws = pre ++ x :: post ∧ x ≠ name ∧ name <+: x ∧ name.getLast? = some '=' ∧ t = one x)) := by
      intro acc' ho hs
      rcases ih acc' hs with h | ⟨pre, v, post, h1, h2⟩ | ⟨pre, x, post, h1, h2⟩
      · rcases ho with ho | ⟨v, us, h1, h2, h3⟩ | ⟨h1, h2, h3, h4⟩
        · exact Or.inl (ho ▸ h)
        · refine Or.inr (Or.inl ⟨[], v, us, by rw [h1, h2]; rfl, ?_⟩)
          rw [h3] at h; exact (Option.some.inj h).symm
        · refine Or.inr (Or.inr ⟨[], w, ws, rfl, h1, h2, h3, ?_⟩)
          rw [h4] at h; exact (Option.some.inj h).symm
      · exact Or.inr (Or.inl ⟨w :: pre, v, post, by rw [h1]; rfl, h2⟩)
      · exact Or.inr (Or.inr ⟨w :: pre, x, post, by rw [h1]; rfl, h2⟩)
    by_cases h1 : w = name
    · cases ws with
      | nil => rw [scan_end two one name _ h1] at h; exact absurd h (by simp)
      | cons u us =>
        rw [scan_hit two one name _ _ _ h1] at h
        exact lift _ (Or.inr (Or.inl ⟨u, us, h1, rfl, by rw [h1]⟩)) h
    · by_cases h2 : name.isPrefixOf w = true ∧ eqEnd name = true
      · rw [scan_pre two one name _ _ h1 h2] at h
        exact lift _ (Or.inr (Or.inr ⟨h1, (pre_iff _ _).mp h2.1, (eqEnd_iff _).mp h2.2, rfl⟩)) h
      · rw [scan_skip two one name _ _ h1 h2] at h
        exact lift _ (Or.inl rfl) h

theorem scan_some (l : List Text) (a : Text) : scan two one name l (some a) ≠ .ok none := by
  induction l generalizing a with
  | nil => simp [scan]
  | cons w ws ih =>
    by_cases h1 : w = name
    · cases ws with
      | nil => rw [scan_end two one name _ h1]; simp
      | cons u us => rw [scan_hit two one name _ _ _ h1]; exact ih _
    · by_cases h2 : name.isPrefixOf w = true ∧ eqEnd name = true
      · rw [scan_pre two one name _ _ h1 h2]; exact ih _
      · rw [scan_skip two one name _ _ h1 h2]; exact ih _

theorem scan_none_iff (l : List Text) : scan two one name l none = .ok none ↔ ∀ w ∈ l, ¬ Hit name w := by
  refine ⟨?_, scan_none two one name l none⟩
  induction l with
  | nil => simp
  | cons w ws ih =>
    intro h
    by_cases h1 : w = name
    · cases ws with
      | nil => rw [scan_end two one name _ h1] at h; exact absurd h (by simp)
      | cons u us => rw [scan_hit two one name _ _ _ h1] at h; exact absurd h (scan_some _ _ _ _ _)
    · by_cases h2 : name.isPrefixOf w = true ∧ eqEnd name = true
      · rw [scan_pre two one name _ _ h1 h2] at h; exact absurd h (scan_some _ _ _ _ _)
      · rw [scan_skip two one name _ _ h1 h2] at h
        intro x hx
        rcases List.mem_cons.mp hx with rfl | hx
        · rintro (e | ⟨e1, e2⟩)
          · exact h1 e
          · exact h2 ⟨(pre_iff _ _).mpr e1, (eqEnd_iff _).mpr e2⟩
        · exact ih h x hx
end scan

/-- Nothing is found exactly if no word is the option; reading fails exactly if the option is the last word. -/
theorem C99_read_none (name : Text) (line : List Text) :
    (getValue name line = .ok none ↔ ∀ w ∈ line, ¬ Hit name w) ∧ (getOpt name line = .ok none ↔ ∀ w ∈ line, ¬ Hit name w) ∧
    (∀ e, getValue name line = .error e ↔ e = .index ∧ line.getLast? = some name) ∧
    (∀ e, getOpt name line = .error e ↔ e = .index ∧ line.getLast? = some name) :=
  ⟨scan_none_iff _ _ _ _, scan_none_iff _ _ _ _, fun _ => scan_error _ _ _ _ _ _, fun _ => scan_error _ _ _ _ _ _⟩

/-- The last occurrence counts, whatever comes before. -/
theorem C99_read_last (name v : Text) (pre post : List Text) (h : ∀ w ∈ v :: post, ¬ Hit name w) :
    getValue name (pre ++ name :: v :: post) = .ok (some v) ∧
    getOpt name (pre ++ name :: v :: post) = .ok (some (name ++ ' ' :: v)) :=
  ⟨scan_two _ _ _ _ _ _ _ h, scan_two _ _ _ _ _ _ _ h⟩

theorem drop_eq (n v : Text) (h1 : '=' ∉ n) : (n ++ '=' :: v).dropWhile (· != '=') = '=' :: v := by
  induction n with
  | nil => simp
  | cons c n ih =>
    have hc : c ≠ '=' := fun e => h1 (by simp [e])
    simp only [List.cons_append, List.dropWhile_cons]
    rw [if_pos (by simpa using hc)]
    exact ih (fun e => h1 (by simp [e]))

theorem take_eq (v : Text) (h2 : '=' ∉ v) : v.takeWhile (· != '=') = v := by
  induction v with
  | nil => rfl
  | cons c v ih =>
    have hc : c ≠ '=' := fun e => h2 (by simp [e])
    rw [List.takeWhile_cons, if_pos (by simpa using hc), ih (fun e => h2 (by simp [e]))]

theorem afterEq_append (n v : Text) (h1 : '=' ∉ n) (h2 : '=' ∉ v) : afterEq (n ++ '=' :: v) = v := by
  unfold afterEq
  rw [drop_eq n v h1]
  exact take_eq v h2

/-- The same for an option that ends in "=". -/
theorem C99_read_eq (n v : Text) (pre post : List Text) (h1 : '=' ∉ n) (h2 : '=' ∉ v) (hv : v ≠ [])
    (h : ∀ w ∈ post, ¬ Hit (n ++ ['=']) w) :
    getValue (n ++ ['=']) (pre ++ (n ++ '=' :: v) :: post) = .ok (some v) ∧
    getOpt (n ++ ['=']) (pre ++ (n ++ '=' :: v) :: post) = .ok (some (n ++ '=' :: v)) := by
  have hp : n ++ ['='] <+: n ++ '=' :: v := ⟨v, by simp⟩
  have hn : n ++ '=' :: v ≠ n ++ ['='] := by
    intro e
    have := List.append_cancel_left e
    simp at this; exact hv this
  refine ⟨?_, scan_one _ _ _ _ _ _ _ hp hn (by simp) h⟩
  unfold getValue
  rw [scan_one _ _ _ _ _ _ _ hp hn (by simp) h, afterEq_append n v h1 h2]

example : getValue "-n".toList ["app".toList, "-n".toList, "4".toList, "-n".toList, "5".toList] = .ok (some "5".toList) ∧
    getOpt "--g=".toList ["app".toList, "--g=4".toList] = .ok (some "--g=4".toList) ∧
    getValue "-n".toList ["app".toList, "-n".toList] = .error .index := ⟨rfl, rfl, rfl⟩

/-- A value that contains "=" is cut. -/
theorem C99_read_cut : getValue "--g=".toList ["app".toList, "--g=a=b".toList] = .ok (some "a".toList) := rfl

/-! ### The runner -/

/-- Program and option for processes per node of each runner that is known. -/
def table : List (Text × Text × Text) :=
  [("mpich".toList, "mpirun".toList, "--ppn".toList), ("openmpi".toList, "mpirun".toList, "-npernode".toList),
   ("srun".toList, "srun".toList, "--ntasks-per-node".toList), ("special_mpi".toList, "special_mpi".toList, "-npernode".toList)]

theorem firstFound_found (read : Text → Except Err (Option Text)) (names : List Text) (t : Text)
    (h : firstFound read names = .ok (some t)) : ∃ n ∈ names, read n = .ok (some t) := by
  induction names with
  | nil => exact absurd h (by simp [firstFound])
  | cons n ns ih =>
    unfold firstFound at h
    split at h
    · exact absurd h (by simp)
    · rename_i v hv
      exact ⟨n, by simp, by rw [hv, h]⟩
    · obtain ⟨m, hm, hr⟩ := ih h
      exact ⟨m, by simp [hm], hr⟩

theorem ppnNames_plain (run : Text) (names : List Text) (h : ppnNames run = some names) :
    ∀ n ∈ names, n.getLast? ≠ some '=' ∧ ∀ c ∈ n, (c != ' ') = true := by
  have : names ∈ [["--ppn".toList, "-npernode".toList], ["--ntasks-per-node".toList], ["-r".toList], ["-N".toList],
      ["-npernode".toList]] := by
    unfold ppnNames at h
    repeat' split at h
    all_goals first
      | (rw [← Option.some.inj h]; decide)
      | exact nomatch h
  revert names
  intro names _ h
  revert h
  have key : ∀ ns ∈ [["--ppn".toList, "-npernode".toList], ["--ntasks-per-node".toList], ["-r".toList], ["-N".toList],
      ["-npernode".toList]], ∀ n ∈ ns, n.getLast? ≠ some '=' ∧ ∀ c ∈ n, (c != ' ') = true := by decide
  exact fun h => key names h

theorem runnerInfo_table (exp run opt : Text) (h : runnerInfo exp = some (run, opt)) : (exp, run, opt) ∈ table := by
  unfold runnerInfo at h
  repeat' split at h
  all_goals first
    | (rename_i he; cases h; rw [he]; decide)
    | exact nomatch h

/-- `check_mpi_runner` accepts a line only if it begins with the program of the runner and has its option for processes per
node, followed by a word. -/
theorem C99_runner (exp : Text) (line : List Text) (h : checkRunner exp line = .ok ()) :
    ∃ run opt, (exp, run, opt) ∈ table ∧ line.head? = some run ∧ ∃ pre v post, line = pre ++ opt :: v :: post := by
  unfold checkRunner at h
  split at h
  · exact absurd h (by simp)
  · rename_i run opt hi
    have ht := runnerInfo_table _ _ _ hi
    refine ⟨run, opt, ht, ?_⟩
    split at h
    · exact absurd h (by simp)
    · rename_i hr
      have hr : runnerOf line = run := Classical.not_not.mp hr
      split at h
      · exact absurd h (by simp)
      · rename_i names hn
        split at h
        · exact absurd h (by simp)
        · exact absurd h (by simp)
        · rename_i t hf
          split at h
          · rename_i hto
            obtain ⟨n, hm, hg⟩ := firstFound_found _ _ _ hf
            obtain ⟨p1, p2⟩ := ppnNames_plain _ _ hn n hm
            rcases scan_found _ _ _ _ _ _ hg with h | ⟨pre, v, post, h1, h2⟩ | ⟨pre, w, post, _, _, _, h1, _⟩
            · exact absurd h (by simp)
            · rw [h2, List.takeWhile_append_of_pos p2] at hto
              have hno : n = opt := by simpa using hto
              refine ⟨?_, pre, v, post, by rw [h1, hno]⟩
              cases line with
              | nil => exact absurd h1 (by simp)
              | cons w ws => simpa [runnerOf] using hr
            · exact absurd h1 p1
          · exact absurd h (by simp)

example : checkRunner "mpich".toList (["mpirun", "-np", "4", "--ppn", "2", "app"].map String.toList) = .ok () ∧
    checkRunner "openmpi".toList (["mpirun", "-np", "4", "-npernode", "2", "app"].map String.toList) = .ok () ∧
    checkRunner "special_mpi".toList (["special_mpi", "-np", "4", "-npernode", "2", "app"].map String.toList) = .ok () ∧
    checkRunner "mpich".toList (["mpirun", "-np", "4", "-npernode", "2", "app"].map String.toList) = .error .assertion :=
  ⟨rfl, rfl, rfl, rfl⟩

theorem C99_runner_srun_accepts (pre post : List Text) (v : Text) (hs : ∀ w ∈ v :: post, ¬ Hit "--ntasks-per-node".toList w) :
    checkRunner "srun".toList ("srun".toList :: pre ++ "--ntasks-per-node".toList :: v :: post) = .ok () := by
  have hi : runnerInfo "srun".toList = some ("srun".toList, "--ntasks-per-node".toList) := by decide
  have hn : ppnNames "srun".toList = some ["--ntasks-per-node".toList] := by decide
  have hg := (C99_read_last "--ntasks-per-node".toList v ("srun".toList :: pre) post hs).2
  have hr : runnerOf ("srun".toList :: pre ++ "--ntasks-per-node".toList :: v :: post) = "srun".toList := rfl
  unfold checkRunner
  rw [hi]
  dsimp only
  rw [hr, if_neg (by simp), hn]
  dsimp only [firstFound]
  rw [hg]
  dsimp only
  rw [if_pos]
  rw [List.takeWhile_append_of_pos (by decide)]
  simp

/-! ### The setting for GPUs -/

/-- The processes per node that are read. -/
def ppnOf (line : List Text) : Except Err (Option Text) := match ppnNames (runnerOf line) with
  | some names => firstFound (fun n => getValue n line) names
  | none => .error .key

/-- What has happened if the check accepts. -/
theorem checkGpu_ok {D : Dec} {r : Res} {p : Plat} {t : Task} (h : checkGpu D r p t = .ok ())
    (hs : runnerOf t.line ≠ "special_mpi".toList) :
    ∃ ppn w, ppnOf t.line = .ok ppn ∧ want r p t.line = .ok w ∧ compare D r t ppn w = .ok () := by
  unfold checkGpu at h
  rw [if_neg hs] at h
  unfold ppnOf
  split at h
  · rename_i pn names h1 h2
    rw [h2]
    dsimp only
    split at h
    · exact absurd h (by simp)
    · split at h
      · exact absurd h (by simp)
      · rename_i ppn h3
        split at h
        · exact absurd h (by simp)
        · rename_i w h4
          exact ⟨ppn, w, h3, h4, h⟩
  · exact absurd h (by simp)

/-- The number of GPUs that the option should have, from the GPUs on a node, the number the generator asks for, and the
processes per node. -/
def Expected (D : Dec) (r : Res) (ppn : Option Text) (k : Kind) (n : Nat) : Prop :=
  match k with
  | .env => False
  | .perNode => n = r.number
  | .perTask => ∃ x m, ppn = some x ∧ D.int x = some m ∧ 0 < m ∧ n = r.number / m

theorem Res.number_spec (r : Res) : r.number ≤ r.count * r.per ∧ (∀ g, r.gen = some g → r.number ≤ g) ∧
    (r.number = r.count * r.per ∨ r.gen = some r.number) := by
  unfold Res.number
  cases r.gen with
  | none => simp
  | some g =>
    refine ⟨Nat.min_le_left _ _, fun x hx => ?_, ?_⟩
    · cases hx; exact Nat.min_le_right _ _
    · rcases Nat.le_total (r.count * r.per) g with h | h
      · exact Or.inl (Nat.min_eq_left h)
      · exact Or.inr (by simp [Nat.min_eq_right h])

theorem compare_option {D : Dec} {r : Res} {t : Task} {ppn : Option Text} {w : Want} (hk : w.kind ≠ .env) :
    compare D r t ppn w = .ok () ↔ ∃ n, Expected D r ppn w.kind n ∧ compareOption D r t w.name n = .ok () := by
  cases hw : w.kind with
  | env => exact absurd hw hk
  | perNode => simp [compare, hw, Expected]
  | perTask =>
    simp only [compare, hw, Expected]
    constructor
    · intro h
      split at h
      · exact absurd h (by simp)
      · rename_i x
        split at h
        · exact absurd h (by simp)
        · exact absurd h (by simp)
        · rename_i k hx
          exact ⟨_, ⟨x, k + 1, rfl, hx, Nat.succ_pos k, rfl⟩, h⟩
    · rintro ⟨n, ⟨x, m, h1, h2, h3, h4⟩, h⟩
      subst h1
      dsimp only
      rw [h2]
      cases m with
      | zero => exact absurd h3 (by simp)
      | succ k => dsimp only; rw [← h4]; exact h

theorem compareOption_asks {D : Dec} {r : Res} {t : Task} {name : Text} {v : Nat} (ha : asks r t = true) :
    compareOption D r t name v = .ok () ↔ getOpt name t.line = .ok (some (expectedOutput D name v)) := by
  unfold compareOption
  rw [ha]
  cases hg : getOpt name t.line with
  | error e => simp
  | ok f => by_cases h : f = some (expectedOutput D name v) <;> simp [h]

theorem compareOption_not {D : Dec} {r : Res} {t : Task} {name : Text} {v : Nat} (ha : asks r t = false) :
    compareOption D r t name v = .ok () ↔ getOpt name t.line = .ok none := by
  unfold compareOption
  rw [ha]
  cases hg : getOpt name t.line with
  | error e => simp
  | ok f => cases f <;> simp

/-- If an option is expected, GPUs are asked for and the check accepts, then the line has the option with the right number. -/
theorem C99_gpu_option {D : Dec} {r : Res} {p : Plat} {t : Task} {w : Want} (h : checkGpu D r p t = .ok ())
    (hs : runnerOf t.line ≠ "special_mpi".toList) (hw : want r p t.line = .ok w) (hk : w.kind ≠ .env)
    (ha : r.gpus = true) (hq : 0 < t.ngpusReq) :
    ∃ ppn n, ppnOf t.line = .ok ppn ∧ Expected D r ppn w.kind n ∧ Has t.line w.name (D.str n) := by
  obtain ⟨ppn, w', h1, h2, h3⟩ := checkGpu_ok h hs
  rw [hw] at h2
  cases h2
  obtain ⟨n, h4, h5⟩ := (compare_option hk).mp h3
  refine ⟨ppn, n, h1, h4, ?_⟩
  rw [compareOption_asks (by simp [asks, ha, hq])] at h5
  unfold Has
  rcases scan_found _ _ _ _ _ _ h5 with h | ⟨pre, v, post, e1, e2⟩ | ⟨pre, x, post, e1, _, _, e2, e3⟩
  · exact absurd h (by simp)
  · unfold expectedOutput at e2
    by_cases he : eqEnd w.name = true
    · rw [if_pos he] at e2
      have := List.append_cancel_left e2
      exact absurd (by rw [this]; simp) (D.plain n)
    · rw [if_neg he] at e2
      have := List.append_cancel_left e2
      simp only [List.cons.injEq, true_and] at this
      refine ⟨pre, post, ?_⟩
      rw [if_neg (fun e => he ((eqEnd_iff _).mpr e)), e1, this]
      simp
  · refine ⟨pre, post, ?_⟩
    unfold expectedOutput at e3
    rw [if_pos ((eqEnd_iff _).mpr e2)] at e3
    rw [if_pos e2, e1, e3]
    simp

/-- If none are asked for, an accepted line does not have the option. -/
theorem C99_gpu_no_option {D : Dec} {r : Res} {p : Plat} {t : Task} {w : Want} (h : checkGpu D r p t = .ok ())
    (hs : runnerOf t.line ≠ "special_mpi".toList) (hw : want r p t.line = .ok w) (hk : w.kind ≠ .env)
    (ha : r.gpus = false ∨ t.ngpusReq = 0) : ∀ x ∈ t.line, ¬ Hit w.name x := by
  obtain ⟨ppn, w', h1, h2, h3⟩ := checkGpu_ok h hs
  rw [hw] at h2
  cases h2
  obtain ⟨n, h4, h5⟩ := (compare_option hk).mp h3
  rw [compareOption_not (by rcases ha with ha | ha <;> simp [asks, ha])] at h5
  exact (scan_none_iff _ _ _ _).mp h5

/-- If a variable of the environment is expected and GPUs are asked for, then the variable has the list of the worker's GPUs. -/
theorem C99_gpu_env_partial {D : Dec} {r : Res} {p : Plat} {t : Task} {w : Want} (h : checkGpu D r p t = .ok ())
    (hs : runnerOf t.line ≠ "special_mpi".toList) (hw : want r p t.line = .ok w) (hk : w.kind = .env)
    (ha : r.gpus = true) (hq : 0 < t.ngpusReq) : t.env.lookup w.name = some r.list := by
  obtain ⟨ppn, w', h1, h2, h3⟩ := checkGpu_ok h hs
  rw [hw] at h2
  cases h2
  simp only [compare, hk, compareEnv, asks, ha, hq, decide_true, Bool.and_self, if_true] at h3
  split at h3
  · assumption
  · exact absurd h3 (by simp)

/-- Two GPUs in the environment. -/
example : checkGpu ⟨fun n => List.replicate n '1', fun w => some w.length, fun n => by simp, fun n => by simp⟩
    { count := 2, per := 1, list := "0,1".toList } {}
    { line := ["mpirun", "-np", "1", "app"].map String.toList, env := [("CUDA_VISIBLE_DEVICES".toList, "0,1".toList)],
      ngpusReq := 2 } = .ok () := rfl

/-- Otherwise the environment is not looked at: a variable that gives GPUs to a task without any is accepted. -/
theorem C99_gpu_env_unasked (D : Dec) (r : Res) (p : Plat) (t : Task) (env : List (Text × Text))
    (ha : r.gpus = false ∨ t.ngpusReq = 0) : checkGpu D r p { t with env := env } = checkGpu D r p t := by
  have : ∀ ppn w, compare D r { t with env := env } ppn w = compare D r t ppn w := by
    intro ppn w
    have hz : asks r t = false := by rcases ha with ha | ha <;> simp [asks, ha]
    have hz' : asks r { t with env := env } = false := hz
    unfold compare
    cases w.kind with
    | env => simp [compareEnv, hz, hz']
    | perNode => rfl
    | perTask => rfl
  unfold checkGpu
  simp only [this]

/-- The setting of the platform is the one expected, else that of the runner. -/
theorem C99_want (r : Res) (p : Plat) (line : List Text) (w : Want) (h : want r p line = .ok w) :
    (∀ k, p.type = some (.of k) → w.kind = k ∧ (∀ n, p.name = some n → w.name = n)) ∧
    ((p.type = none ∨ p.type = some .runnerDefault) →
      (w.kind = .env ↔ runnerOf line ≠ "srun".toList ∧ runnerOf line ≠ "jsrun".toList) ∧
      (w.kind = .env → w.name = "CUDA_VISIBLE_DEVICES".toList)) ∧
    (if w.kind = .env then r.matching = true else r.even = true) := by
  have hdef : ∀ w, wantDefault r line = .ok w →
      ((w.kind = .env ↔ runnerOf line ≠ "srun".toList ∧ runnerOf line ≠ "jsrun".toList) ∧
      (w.kind = .env → w.name = "CUDA_VISIBLE_DEVICES".toList)) ∧ (if w.kind = .env then r.matching = true else r.even = true) := by
    intro w h
    unfold wantDefault at h
    split at h
    · rename_i h1
      split at h
      · exact absurd h (by simp)
      · rename_i he
        have he : r.even = true := by simpa using he
        split at h
        · exact absurd h (by simp)
        · cases h; simp [h1, he]
        · split at h
          · exact absurd h (by simp)
          · cases h; simp [h1, he]
          · cases h; simp [h1, he]
    · rename_i h1
      split at h
      · rename_i h2
        split at h
        · exact absurd h (by simp)
        · rename_i he
          have he : r.even = true := by simpa using he
          cases h; simp [h2, he]
      · rename_i h2
        split at h
        · exact absurd h (by simp)
        · rename_i he
          have he : r.matching = true := by simpa using he
          cases h; exact ⟨⟨⟨fun _ => ⟨h1, h2⟩, fun _ => rfl⟩, fun _ => rfl⟩, by simp [he]⟩
  unfold want at h
  split at h
  · exact absurd h (by simp)
  · rename_i k hp
    split at h
    · exact absurd h (by simp)
    · rename_i n hn
      by_cases he : (if k = .env then r.matching else r.even) = false
      · rw [if_pos he] at h; exact absurd h (by simp)
      · rw [if_neg he] at h
        cases h
        refine ⟨?_, ?_, ?_⟩
        · intro k' hk'
          rw [hp] at hk'
          cases hk'
          refine ⟨rfl, fun n' hn' => ?_⟩
          rw [hn'] at hn
          simpa using hn.symm
        · rw [hp]; simp
        · dsimp only
          by_cases hk : k = .env
          · rw [if_pos hk] at he ⊢; simpa using he
          · rw [if_neg hk] at he ⊢; simpa using he
  · rename_i h1 h2
    obtain ⟨a, b⟩ := hdef w h
    exact ⟨fun k hk => absurd hk (h2 k), fun _ => a, b⟩

theorem firstFound_ok (line : List Text) (names : List Text) (h : ∀ n ∈ names, line.getLast? ≠ some n) :
    ∃ o, firstFound (fun n => getValue n line) names = .ok o := by
  induction names with
  | nil => exact ⟨none, rfl⟩
  | cons n ns ih =>
    unfold firstFound
    cases hg : getValue n line with
    | error e => exact absurd ((scan_error _ _ _ _ _ _).mp hg).2 (h n (by simp))
    | ok o => cases o with
      | some v => exact ⟨some v, rfl⟩
      | none => exact ih (fun m hm => h m (by simp [hm]))

/-- The options for the numbers of processes are not the last word, so that they can be read. -/
def Readable (line : List Text) : Prop :=
  ∃ pn names, procsName (runnerOf line) = some pn ∧ ppnNames (runnerOf line) = some names ∧
    line.getLast? ≠ some pn ∧ ∀ n ∈ names, line.getLast? ≠ some n

theorem checkGpu_readable (D : Dec) (r : Res) (p : Plat) (t : Task) (w : Want) (hr : Readable t.line)
    (hs : runnerOf t.line ≠ "special_mpi".toList) (hw : want r p t.line = .ok w) :
    ∃ ppn, ppnOf t.line = .ok ppn ∧ checkGpu D r p t = compare D r t ppn w := by
  obtain ⟨pn, names, h1, h2, h3, h4⟩ := hr
  obtain ⟨ppn, h5⟩ := firstFound_ok t.line names h4
  refine ⟨ppn, by unfold ppnOf; rw [h2]; exact h5, ?_⟩
  unfold checkGpu
  rw [if_neg hs, h1, h2]
  dsimp only
  cases hg : getValue pn t.line with
  | error e => exact absurd ((scan_error _ _ _ _ _ _).mp hg).2 h3
  | ok o =>
    dsimp only
    rw [h5]
    dsimp only
    rw [hw]

/-- With an option of the platform for GPUs per node, a line in which it has the value `v` is accepted exactly if `v` is the number
of GPUs on a node, or the number the generator asks for if this is smaller. -/
theorem C99_gpu_accepts (D : Dec) (r : Res) (name : Text) (t : Task) (pre post : List Text) (v : Nat)
    (hl : t.line = pre ++ name :: D.str v :: post) (hp : ∀ w ∈ D.str v :: post, ¬ Hit name w)
    (he : name.getLast? ≠ some '=') (hr : Readable t.line) (hs : runnerOf t.line ≠ "special_mpi".toList)
    (hv : r.even = true) (ha : r.gpus = true) (hq : 0 < t.ngpusReq) :
    checkGpu D r { type := some (.of .perNode), name := some name } t = .ok () ↔
      v = (match r.gen with | some g => min (r.count * r.per) g | none => r.count * r.per) := by
  have hw : want r { type := some (.of .perNode), name := some name } t.line = .ok ⟨name, .perNode⟩ := by
    simp [want, hv]
  obtain ⟨ppn, _, hc⟩ := checkGpu_readable D r _ t _ hr hs hw
  rw [hc]
  dsimp only [compare]
  rw [compareOption_asks (by simp [asks, ha, hq]), hl, (C99_read_last name _ pre post hp).2]
  unfold expectedOutput
  rw [if_neg (fun e => he ((eqEnd_iff _).mp e))]
  constructor
  · intro h
    simp only [Except.ok.injEq, Option.some.injEq] at h
    have := List.append_cancel_left h
    simp only [List.cons.injEq, true_and] at this
    have h2 := D.back v
    rw [this, D.back] at h2
    exact (Option.some.inj h2).symm
  · intro h
    rw [h]; rfl

/-- The runner divides the GPUs the generator asks for among the nodes (mpi_runner.py:189-196); the check does not.  On several nodes
the lines of the runner are rejected whenever the generator asks for a number that is on one node. -/
theorem C99_gpu_nodes (D : Dec) (r : Res) (name : Text) (t : Task) (pre post : List Text) (g nodes : Nat)
    (hn : 2 ≤ nodes) (hg : r.gen = some g) (h0 : 0 < g) (hle : g ≤ r.count * r.per)
    (hl : t.line = pre ++ name :: D.str (min (g / nodes) (r.count * r.per)) :: post)
    (hp : ∀ w ∈ D.str (min (g / nodes) (r.count * r.per)) :: post, ¬ Hit name w)
    (he : name.getLast? ≠ some '=') (hr : Readable t.line) (hs : runnerOf t.line ≠ "special_mpi".toList)
    (hv : r.even = true) (ha : r.gpus = true) (hq : 0 < t.ngpusReq) :
    checkGpu D r { type := some (.of .perNode), name := some name } t ≠ .ok () := by
  rw [Ne, C99_gpu_accepts D r name t pre post _ hl hp he hr hs hv ha hq, hg]
  dsimp only
  have h1 : g / nodes < g := Nat.div_lt_self h0 hn
  rw [Nat.min_eq_right hle]
  omega

/-- Two nodes with four GPUs each, and a generator that asks for four: the line has two for each node. -/
example : checkGpu ⟨fun n => List.replicate n '1', fun w => some w.length, fun n => by simp, fun n => by simp⟩
    { count := 2, per := 2, gen := some 4 } { type := some (.of .perNode), name := some "-G".toList }
    { line := ["srun", "--ntasks", "1", "-G", "11", "app"].map String.toList, ngpusReq := 2 } = .error .assertion ∧
    Readable (["srun", "--ntasks", "1", "-G", "11", "app"].map String.toList) :=
  ⟨rfl, "--ntasks".toList, ["--ntasks-per-node".toList], by decide, by decide, by decide, by decide⟩

/-- A variable of the environment without a name: the runner takes CUDA_VISIBLE_DEVICES (mpi_runner.py:224), the check rejects every
line, and with srun it looks for a variable with the name of an option. -/
theorem C99_gpu_env_name (r : Res) (line : List Text) :
    (runnerOf line ≠ "srun".toList → want r { type := some (.of .env) } line = .error .assertion) ∧
    (runnerOf line = "srun".toList → r.matching = true →
      want r { type := some (.of .env) } line = .ok ⟨"--gpus-per-node".toList, .env⟩) := by
  constructor
  · intro h
    have : defaultName (runnerOf line) .env = none := by
      unfold defaultName
      rw [if_neg h, if_neg (fun e => absurd e.2 (by decide))]
    unfold want
    dsimp only
    rw [this]
    rfl
  · intro h hm
    have : defaultName "srun".toList .env = some "--gpus-per-node".toList := by decide
    unfold want
    rw [h]
    dsimp only
    rw [this]
    simp [hm]

/-- Numbers in unary notation, for examples. -/
def unary : Dec where
  str n := List.replicate n '1'
  int w := some w.length
  back n := by simp
  plain n := by simp

def words (l : List String) : List Text := l.map String.toList

/-- A line of srun that is right, one with a wrong number. -/
example : checkGpu unary { count := 2, per := 1 } { type := some (.of .perNode), name := some "--gpus-per-node".toList }
      { line := words ["srun", "--ntasks", "11", "--ntasks-per-node", "11", "--gpus-per-node", "11", "app"], ngpusReq := 2 } = .ok () ∧
    checkGpu unary { count := 2, per := 1 } {}
      { line := words ["srun", "--ntasks", "11", "--ntasks-per-node", "11", "--gpus-per-task", "1", "app"], ngpusReq := 2 } = .ok () ∧
    checkGpu unary { count := 2, per := 1 } {}
      { line := words ["srun", "--ntasks", "11", "--ntasks-per-node", "11", "--gpus-per-task", "11", "app"], ngpusReq := 2 } =
      .error .assertion := ⟨rfl, rfl, rfl⟩

/-- The words of the application are read too: a wrong line is accepted since the application has an argument of that name, and a
right one is rejected. -/
theorem C99_gpu_app :
    checkGpu unary { count := 2, per := 1 } {} { line := words ["srun", "--ntasks", "1", "--ntasks-per-node", "1",
      "--gpus-per-node", "1", "app", "--gpus-per-node", "11"], ngpusReq := 2 } = .ok () ∧
    checkGpu unary { count := 2, per := 1 } {} { line := words ["srun", "--ntasks", "1", "--ntasks-per-node", "1",
      "--gpus-per-node", "11", "app", "--gpus-per-node", "1"], ngpusReq := 2 } = .error .assertion := ⟨rfl, rfl⟩

/-- What is looked for without settings of the platform, with even and matching slots: the option of `srun` that is in the line (per task before
per node, and per task if there is none), `-g` per task for `jsrun`, and the variable of CUDA for all others; and the names of
the options for settings of the platform without a name. -/
theorem C99_defaults (r : Res) (line : List Text) (he : r.even = true) (hm : r.matching = true) :
    (runnerOf line = "jsrun".toList → want r {} line = .ok ⟨"-g".toList, .perTask⟩) ∧
    (runnerOf line = "srun".toList → ((∃ v, getValue "--gpus-per-task".toList line = .ok (some v)) ∨
      (∀ x ∈ line, ¬ Hit "--gpus-per-task".toList x) ∧ ∀ x ∈ line, ¬ Hit "--gpus-per-node".toList x) →
      want r {} line = .ok ⟨"--gpus-per-task".toList, .perTask⟩) ∧
    (runnerOf line = "srun".toList → (∀ x ∈ line, ¬ Hit "--gpus-per-task".toList x) →
      (∃ v, getValue "--gpus-per-node".toList line = .ok (some v)) → want r {} line = .ok ⟨"--gpus-per-node".toList, .perNode⟩) ∧
    (runnerOf line ≠ "srun".toList → runnerOf line ≠ "jsrun".toList → want r {} line = .ok ⟨"CUDA_VISIBLE_DEVICES".toList, .env⟩) ∧
    defaultName "jsrun".toList .perTask = some "-g".toList ∧ defaultName "srun".toList .perTask = some "--gpus-per-task".toList ∧
    defaultName "srun".toList .perNode = some "--gpus-per-node".toList := by
  have hw : want r {} line = wantDefault r line := rfl
  have hf : ¬ r.even = false := by rw [he]; decide
  have hg : ¬ r.matching = false := by rw [hm]; decide
  rw [hw]
  unfold wantDefault
  refine ⟨?_, ?_, ?_, ?_, by decide, by decide, by decide⟩
  · intro h
    rw [if_neg (by rw [h]; decide), if_pos h, if_neg hf]
  · intro h hh
    rw [if_pos h, if_neg hf]
    rcases hh with ⟨v, hv⟩ | ⟨h1, h2⟩
    · rw [hv]
    · rw [(C99_read_none _ _).1.mpr h1]
      dsimp only
      rw [(C99_read_none _ _).1.mpr h2]
  · intro h h1 ⟨v, hv⟩
    rw [if_pos h, if_neg hf, (C99_read_none _ _).1.mpr h1]
    dsimp only
    rw [hv]
  · intro h h'
    rw [if_neg h, if_neg h', if_neg hg]

/-- Without processes per node in the line the check of GPUs per task raises, even if no GPUs are asked for. -/
theorem C99_gpu_ppn : checkGpu unary { count := 1, per := 0, gpus := false } {}
    { line := words ["srun", "--ntasks", "1", "app"], ngpusReq := 0 } = .error .type := rfl

/-! ### Expected lines of a worker -/

/-- `circ_offset` permutes the workers: it stays in the range and no two workers get the same line. -/
theorem C99_circ (len : Nat) :
    (∀ w, 1 ≤ w → w ≤ len → 1 ≤ circOffset w len ∧ circOffset w len ≤ len) ∧
    (∀ v w, 1 ≤ v → v ≤ len → 1 ≤ w → w ≤ len → circOffset v len = circOffset w len → v = w) ∧
    (∀ w, 1 ≤ w → w ≤ len → (circOffset w len : Int) = w + (len + 1) / 2 ∨ (circOffset w len : Int) = w + (len + 1) / 2 - len) := by
  refine ⟨?_, ?_, ?_⟩
  · intro w h1 h2
    unfold circOffset
    split <;> split <;> omega
  · intro v w h1 h2 h3 h4 h
    unfold circOffset at h
    split at h <;> split at h <;> split at h <;> omega
  · intro w h1 h2
    unfold circOffset
    split <;> split <;> omega

example : [1, 2, 3, 4, 5].map (circOffset · 5) = [4, 5, 1, 2, 3] := by decide

/-- For workers after the generators the nodes are shifted by the whole part of nodes times workers, so that the nodes of the
worker `b` places later are `a` further on. -/
theorem C99_shift_partial (a b wid gens : Nat) (hb : 0 < b) (h : gens < wid) :
    shift a b wid gens = ((a * (wid - 1 - gens) / b : Nat) : Int) ∧ shift a b (wid + b) gens = shift a b wid gens + a := by
  have key : ∀ w, gens < w → shift a b w gens = ((a * (w - 1 - gens) / b : Nat) : Int) := by
    intro w hw
    have : (w : Int) - (1 + gens) = ((w - 1 - gens : Nat) : Int) := by omega
    unfold shift
    rw [this, ← Int.natCast_mul, Int.ofNat_tdiv]
  refine ⟨key wid h, ?_⟩
  rw [key wid h, key (wid + b) (by omega)]
  have : wid + b - 1 - gens = (wid - 1 - gens) + b := by omega
  rw [this, Nat.mul_add, Nat.add_mul_div_right _ _ hb]
  rfl

/-- The other words are kept, and so are the numbers and the order of the nodes. -/
theorem C99_expected (a b wid gens : Nat) (l : List Comp) :
    (expFor a b wid gens l).length = l.length ∧
    (∀ (i : Nat) w, l[i]? = some (.other w) → (expFor a b wid gens l)[i]? = some (.other w)) ∧
    (∀ (i : Nat) ns, l[i]? = some (.nodes ns) → ∃ ns', (expFor a b wid gens l)[i]? = some (.nodes ns') ∧
      ns'.map Prod.fst = ns.map Prod.fst ∧ ns'.map (fun n => n.2 - shift a b wid gens) = ns.map Prod.snd) ∧
    expFor a b (1 + gens) gens l = l := by
  refine ⟨by simp [expFor], ?_, ?_, ?_⟩
  · intro i w h
    simp [expFor, h]
  · intro i ns h
    refine ⟨ns.map (fun n => (n.1, n.2 + shift a b wid gens)), by simp [expFor, h], by simp, ?_⟩
    rw [List.map_map]
    apply List.map_congr_left
    intro n _
    simp only [Function.comp]
    omega
  · have h0 : shift a b (1 + gens) gens = 0 := by
      unfold shift
      have : (((1 + gens : Nat) : Int) - (1 + gens)) = 0 := by omega
      rw [this, Int.mul_zero, Int.zero_tdiv]
    unfold expFor
    induction l with
    | nil => rfl
    | cons c l ih =>
      rw [List.map_cons, ih]
      cases c with
      | nodes ns => simp [h0]
      | other w => rfl

/-- For a worker before them (a generator), rounding is towards zero: with two workers per node it is expected on the node of the first
two simulators, and three workers share a node. -/
theorem C99_shift_before : shift 1 2 1 1 = 0 ∧ shift 1 2 2 1 = 0 ∧ shift 1 2 3 1 = 0 ∧ shift 1 2 4 1 = 1 := by decide

/-- The line of a worker is its own entry in the list of those after the generators. -/
theorem C99_by_worker_partial {α} (l : List α) (wid gens : Nat) (h : gens < wid) :
    expByWorker false l wid gens = l[wid - 1 - gens]? := by
  unfold expByWorker pyGet
  have : (if false = true then (circOffset wid l.length : Int) else (wid : Int)) - 1 - gens = ((wid - 1 - gens : Nat) : Int) := by
    simp only [Bool.false_eq_true, if_false]; omega
  rw [this, if_pos (by omega), Int.toNat_natCast]

/-- The offset with generators before: indices may be negative, but then they count from the end, and each worker gets the line that it
would get without generators. -/
theorem C99_by_worker_offset {α} (l : List α) (wid gens : Nat) (h : gens < wid) (hl : wid ≤ gens + l.length) :
    expByWorker true l wid gens = l[circOffset (wid - gens) l.length - 1]? := by
  unfold expByWorker pyGet
  simp only [if_true]
  have key : ∀ len : Nat, wid ≤ gens + len →
      ((circOffset wid len : Int) - 1 - gens = ((circOffset (wid - gens) len - 1 : Nat) : Int)) ∨
      ((circOffset wid len : Int) - 1 - gens < 0 ∧
        (circOffset wid len : Int) - 1 - gens + len = ((circOffset (wid - gens) len - 1 : Nat) : Int)) := by
    intro len hl
    unfold circOffset
    split <;> split <;> split <;> omega
  rcases key l.length hl with k | ⟨k1, k2⟩
  · rw [k, if_pos (by omega), Int.toNat_natCast]
  · rw [if_neg (by omega), k2, if_pos (by omega), Int.toNat_natCast]

example : [2, 3, 4].map (fun w => expByWorker true [10, 20, 30] w 1) = [some 30, some 10, some 20] := by decide

/-- A worker that is not after the generators gets a line from the end of the list, that of another worker. -/
theorem C99_by_worker_before : expByWorker false [10, 20, 30] 1 1 = some 30 ∧ expByWorker false [10, 20, 30] 4 1 = some 30 := by decide

end Verif.RunLines
