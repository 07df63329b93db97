import Verif.Checks.Model
/-!
Property C98: checks that complete the settings of a run.
-/
namespace Verif.Checks

/-! ## Lemmas -/

/-- No part of a path is empty. -/
def Good (p : Path) : Prop := ∀ q ∈ p.parts, q ≠ []

theorem good_ofText (s : Str) : Good (Path.ofText s) := by
  intro q hq
  simp only [Path.ofText, List.mem_filter, Bool.and_eq_true, bne_iff_ne] at hq
  exact hq.2.1

def Dir.Good : Dir → Prop
  | .path p => Checks.Good p
  | _ => True

theorem absolute_abs (cwd p : Path) : (Path.absolute cwd p).abs = true := by
  unfold Path.absolute; split
  · assumption
  · rfl

theorem absolute_absolute (cwd cwd' p : Path) : Path.absolute cwd' (Path.absolute cwd p) = Path.absolute cwd p := by
  have := absolute_abs cwd p
  rw [Path.absolute, if_pos this]

theorem absolute_good {cwd p : Path} (hc : Good cwd) (hp : Good p) : Good (Path.absolute cwd p) := by
  unfold Path.absolute; split
  · exact hp
  · intro q hq
    rcases List.mem_append.mp hq with h | h
    · exact hc q h
    · exact hp q h

theorem text_long {p : Path} (ha : p.abs = true) (hg : Good p) (hn : p.parts ≠ []) : 1 < p.text.length := by
  rw [Path.text, if_pos ha]
  obtain ⟨a, ps⟩ := p
  cases ps with
  | nil => exact absurd rfl hn
  | cons q qs =>
    have hq : q ≠ [] := hg q List.mem_cons_self
    cases q with
    | nil => exact absurd rfl hq
    | cons c q =>
      cases qs with
      | nil => simp [List.intercalate]
      | cons r rs => simp [List.intercalate, List.intersperse]

/-! ## The workflow directory -/

/-- C98, for a directory with a name of more than one character: it is used, and it is the directory that was meant, from
whatever directory it is seen later. -/
theorem C98_given_partial (cwd : Path) (token : Str) (w : Workflow) (p : Path) (hl : 1 < w.dir.len) (hp : w.dir.path? = some p) :
    ∃ w', checkWorkflow cwd token w = some w' ∧ w'.use = true ∧ ∀ later, w'.dir.meant later = w.dir.meant cwd := by
  refine ⟨{ use := true, dir := .path (Path.absolute cwd p) }, ?_, rfl, ?_⟩
  · rw [checkWorkflow, if_neg (by omega), if_pos hl, hp]
  · intro later
    rw [Dir.meant, Dir.meant, hp]
    simp only [Dir.path?, Option.map_some, absolute_absolute]

/-- C98: a workflow directory without a name gets one in the working directory. -/
theorem C98_generated (cwd : Path) (token : Str) (w : Workflow) (hu : w.use = true) (hl : w.dir.len ≤ 1) :
    ∃ w', checkWorkflow cwd token w = some w' ∧ w'.use = true ∧
      ∀ later, w'.dir.meant later = some ⟨true, cwd.parts ++ ["workflow_".toList ++ token]⟩ := by
  refine ⟨{ w with dir := .path (Path.absolute cwd ⟨false, ["workflow_".toList ++ token]⟩) }, by rw [checkWorkflow, if_pos ⟨hu, hl⟩], hu, ?_⟩
  intro later
  simp only [Dir.meant, Dir.path?, Option.map_some, absolute_absolute]
  rfl

/-- C98: without any wish there is none. -/
theorem C98_off (cwd : Path) (token : Str) (w : Workflow) (hu : w.use = false) (hl : w.dir.len ≤ 1) :
    checkWorkflow cwd token w = some w := by
  rw [checkWorkflow, if_neg (by simp [hu]), if_neg (by omega)]

/-- C98: a directory with a name of one character is never used: either there is no workflow directory, or it is another. -/
theorem C98_lost (cwd : Path) (token : Str) (c : Char) (use : Bool) (hc : c ≠ '/') (hd : c ≠ '.') :
    Dir.meant cwd (.text [c]) = some ⟨true, cwd.parts ++ [[c]]⟩ ∧
    ∃ w', checkWorkflow cwd token ⟨use, .text [c]⟩ = some w' ∧
      ¬ (w'.use = true ∧ w'.dir.meant cwd = some ⟨true, cwd.parts ++ [[c]]⟩) := by
  constructor
  · simp [Dir.meant, Dir.path?, Path.ofText, pieces, Path.absolute, hc, hd]
  · cases use with
    | false =>
      refine ⟨_, C98_off cwd token _ rfl (by simp [Dir.len]), by simp⟩
    | true =>
      obtain ⟨w', h1, _, h3⟩ := C98_generated cwd token ⟨true, .text [c]⟩ rfl (by simp [Dir.len])
      refine ⟨w', h1, ?_⟩
      rintro ⟨_, h5⟩
      rw [h3 cwd] at h5
      simp only [Option.some.injEq, Path.mk.injEq, true_and, List.append_cancel_left_eq, List.cons.injEq, and_true] at h5
      have := congrArg List.length h5
      simp at this

/-- C98: `None` is allowed by the type and raises an exception. -/
theorem C98_none (cwd : Path) (token : Str) (use : Bool) : checkWorkflow cwd token ⟨use, .none⟩ = none := by
  rw [checkWorkflow, if_neg (by simp [Dir.len]), if_pos (by simp [Dir.len])]
  rfl

/-- C98: a second check changes nothing, in whatever directory it is made and whatever the random text, unless the
directory is the root. -/
theorem C98_again (cwd cwd' : Path) (token token' : Str) (w w' : Workflow) (hc : Good cwd) (hg : w.dir.Good)
    (h : checkWorkflow cwd token w = some w') (hr : w'.dir ≠ .path ⟨true, []⟩) : checkWorkflow cwd' token' w' = some w' := by
  have key : ∀ p : Path, Good p → Path.absolute cwd p ≠ ⟨true, []⟩ →
      checkWorkflow cwd' token' ⟨true, .path (Path.absolute cwd p)⟩ = some ⟨true, .path (Path.absolute cwd p)⟩ := by
    intro p hp hne
    have hlen : 1 < (Dir.path (Path.absolute cwd p)).len := by
      refine text_long (absolute_abs _ _) (absolute_good hc hp) ?_
      intro hn
      apply hne
      have ha := absolute_abs cwd p
      generalize Path.absolute cwd p = q at hn ha
      obtain ⟨a, ps⟩ := q
      simp only at hn ha
      rw [hn, ha]
    rw [checkWorkflow, if_neg (by simp only; omega), if_pos hlen]
    simp only [Dir.path?, absolute_absolute]
  rw [checkWorkflow] at h
  split at h
  · rename_i hcond
    simp only [Option.some.injEq] at h
    subst h
    have hu : w.use = true := hcond.1
    rw [hu]
    refine key _ ?_ ?_
    · intro q hq
      simp only [List.mem_singleton] at hq
      subst hq
      simp
    · simp [Path.absolute]
  · split at h
    · split at h
      · cases h
      · rename_i p hp
        simp only [Option.some.injEq] at h
        subst h
        refine key p ?_ (fun he => hr (by rw [he]))
        cases hd : w.dir with
        | none => rw [hd] at hp; simp [Dir.path?] at hp
        | text s => rw [hd] at hp; simp only [Dir.path?, Option.some.injEq] at hp; subst hp; exact good_ofText s
        | path q => rw [hd] at hp hg; simp only [Dir.path?, Option.some.injEq] at hp; subst hp; exact hg
    · rename_i h1 h2
      simp only [Option.some.injEq] at h
      subst h
      rw [checkWorkflow, if_neg h1, if_neg h2]

/-! ## Input directories -/

/-- C98: an input directory given as a text exists, and is the same from wherever it is seen later. -/
theorem C98_input_text (cwd : Path) (there : Path → Bool) (s : Str) (d : Dir) (hs : s ≠ [])
    (h : checkInput cwd there (.text s) = some d) :
    ∃ p, Dir.meant cwd (.text s) = some p ∧ there p = true ∧ ∀ later, d.meant later = some p := by
  cases s with
  | nil => exact absurd rfl hs
  | cons c s =>
    simp only [checkInput] at h
    split at h
    · rename_i ht
      split at h
      · simp only [Option.some.injEq] at h
        subst h
        exact ⟨_, rfl, ht, fun later => by simp only [Dir.meant, Dir.path?, Option.map_some, absolute_absolute]⟩
      · cases h
    · cases h

/-- C98: one that does not exist is refused, in either form. -/
theorem C98_input_missing (cwd : Path) (there : Path → Bool) (d : Dir) (p : Path) (ht : d.truth = true)
    (hp : d.meant cwd = some p) (hn : there p = false) : checkInput cwd there d = none := by
  cases d with
  | none => simp [Dir.truth] at ht
  | text s =>
    cases s with
    | nil => simp [Dir.truth] at ht
    | cons c s =>
      simp only [Dir.meant, Dir.path?, Option.map_some, Option.some.injEq] at hp
      simp only [checkInput, hp, hn, Bool.false_eq_true, if_false]
  | path q =>
    simp only [Dir.meant, Dir.path?, Option.map_some, Option.some.injEq] at hp
    simp only [checkInput, hp, hn, Bool.false_eq_true, if_false]

/-- C98: the working directory is refused if it is given as `Path(".")`. -/
theorem C98_input_dot_partial (cwd : Path) (there : Path → Bool) : checkInput cwd there (.path ⟨false, []⟩) = none := by
  simp only [checkInput]; split <;> rfl

/-- C98: given as the text "." it is accepted, and so is its absolute path. -/
theorem C98_input_dot (cwd : Path) (there : Path → Bool) (ha : cwd.abs = true) (hw : there cwd = true) :
    checkInput cwd there (.text ['.']) = some (.path cwd) ∧ checkInput cwd there (.path cwd) = some (.path cwd) := by
  obtain ⟨a, ps⟩ := cwd
  simp only at ha
  subst ha
  have h1 : Path.absolute ⟨true, ps⟩ (Path.ofText ['.']) = ⟨true, ps⟩ := by
    simp [Path.absolute, Path.ofText, pieces]
  have h2 : Path.absolute ⟨true, ps⟩ ⟨true, ps⟩ = ⟨true, ps⟩ := rfl
  constructor
  · simp only [checkInput, h1, hw, if_true]; simp
  · simp only [checkInput, h2, hw, if_true]; simp

/-- C98: a relative `Path` stays relative: from another directory it is another one. -/
theorem C98_input_relative (cwd later : Path) (there : Path → Bool) (ps : List Str) (d : Dir)
    (h : checkInput cwd there (.path ⟨false, ps⟩) = some d) (hl : later.parts ≠ cwd.parts) : d.meant later ≠ d.meant cwd := by
  simp only [checkInput] at h
  split at h
  · split at h
    · simp only [Option.some.injEq] at h
      subst h
      simp only [Dir.meant, Dir.path?, Option.map_some, Path.absolute, Bool.false_eq_true, if_false, ne_eq, Option.some.injEq,
        Path.mk.injEq, true_and]
      intro he
      exact hl (List.append_cancel_right he)
    · cases h
  · cases h

/-- C98: directories for calculations are made if this was asked for, or if there is an input directory. -/
theorem C98_make (input : Dir) (make : Bool) :
    checkMake input make = true ↔ make = true ∨ input.truth = true := by
  simp only [checkMake]; cases make <;> cases input.truth <;> simp

/-! ## Saving, exit criterion, cores -/

/-- C98: the history is saved at the end if this was asked for, or if it is saved during the run. -/
theorem C98_save_partial (save : Bool) (a b : Int) :
    ∃ r, checkSave save (some a) (some b) = some r ∧ (r = true ↔ save = true ∨ 0 < a ∨ 0 < b) := by
  cases save <;> simp only [checkSave, Bool.false_eq_true, if_false, if_true]
  · by_cases ha : 0 < a
    · rw [if_pos ha]; exact ⟨_, rfl, by simp [ha]⟩
    · rw [if_neg ha]; exact ⟨_, rfl, by by_cases hb : 0 < b <;> simp [ha, hb]⟩
  · exact ⟨_, rfl, by simp⟩

/-- C98: `save_every_k_sims=None` is allowed by the type and raises an exception. -/
theorem C98_save_none (k : Option Int) : checkSave false none k = none := rfl

/-- C98: the field of an accepted `stop_val` is one of the history, whose fields are those of libEnsemble, of the
simulator, the generator and the allocation, and of the prepended history (history.py:48-62). -/
theorem C98_stop (f : Str) (own simOut genOut allocOut h0 : List Str) (h : checkStop (some f) simOut genOut = true) :
    f ∈ own ++ (simOut ++ genOut ++ allocOut) ++ h0 := by
  simp only [checkStop, decide_eq_true_eq, List.mem_append] at h
  simp only [List.mem_append]
  rcases h with h | h <;> simp [h]

/-- C98: each field of the simulator and of the generator is accepted. -/
theorem C98_stop_accepts (f : Str) (simOut genOut : List Str) (h : f ∈ simOut ∨ f ∈ genOut) :
    checkStop (some f) simOut genOut = true := by
  simpa [checkStop] using h

/-- C98: a field that neither the simulator nor the generator has is refused, also if the history has it. -/
theorem C98_stop_strict (f : Str) (simOut genOut : List Str) (h1 : f ∉ simOut) (h2 : f ∉ genOut) :
    checkStop (some f) simOut genOut = false := by
  simp [checkStop, h1, h2]

/-- C98: numbers of cores are accepted exactly if the logical ones are a multiple. -/
theorem C98_cores (c l : Nat) (hc : 0 < c) : checkCores (some c) (some l) = true ↔ ∃ k, l = c * k := by
  simp only [checkCores]
  by_cases hl : l = 0
  · subst hl; simp only [ne_eq, not_true, and_false, if_false, true_iff]; exact ⟨0, by simp⟩
  · rw [if_pos ⟨by omega, hl⟩, beq_iff_eq]
    constructor
    · intro h; exact ⟨l / c, by have := Nat.div_add_mod l c; omega⟩
    · rintro ⟨k, rfl⟩; exact Nat.mul_mod_right c k

/-! ## Fields of user functions -/

/-- C98: fields in the settings come before those of the function, these before none. -/
theorem C98_fields (f : Fn) (s : Fields) :
    (setFields f s).inputs = (if s.inputs ≠ [] then s.inputs else f.inputs.getD []) ∧
    (setFields f s).outputs = (if s.outputs ≠ [] then s.outputs else f.outputs.getD []) ∧
    (setFields f s).persisIn = (if s.persisIn ≠ [] then s.persisIn else f.persisIn.getD []) := by
  have key : ∀ (a : Option (List Str)) (o : List Str), fill a o = if o ≠ [] then o else a.getD [] := by
    intro a o; cases a <;> by_cases ho : o = [] <;> simp [fill, ho]
  exact ⟨key _ _, key _ _, key _ _⟩

/-- C98: a second check changes nothing. -/
theorem C98_fields_again (f : Fn) (s : Fields) : setFields f (setFields f s) = setFields f s := by
  have key : ∀ (a : Option (List Str)) (o : List Str), fill a (fill a o) = fill a o := by
    intro a o; cases a <;> by_cases ho : o = [] <;> simp [fill, ho]
  simp only [setFields, key]

/-- C98: but after another function has been assigned, the fields of the first function stay. -/
theorem C98_fields_stale (f g : Fn) (a : List Str) (ha : f.inputs = some a) (hn : a ≠ []) :
    (setFields g (setFields f {})).inputs = a := by
  have h1 : fill f.inputs [] = a := by rw [ha]; rfl
  simp only [setFields, h1]
  cases g.inputs <;> simp [fill, hn]

/-! ## Cases -/

def home : Path := ⟨true, ["home".toList, "u".toList]⟩

example : Path.ofText "./a//b/.".toList = ⟨false, ["a".toList, "b".toList]⟩ ∧ (Path.ofText "/a/../b".toList).text = "/a/../b".toList ∧
    (Path.ofText "".toList).text = ".".toList := by decide

example : checkWorkflow home "1f".toList ⟨false, .text "w/run".toList⟩ = some ⟨true, .path ⟨true, ["home".toList, "u".toList, "w".toList, "run".toList]⟩⟩ ∧
    checkWorkflow home "1f".toList {} = some {} ∧
    checkWorkflow home "1f".toList { use := true } = some ⟨true, .path ⟨true, ["home".toList, "u".toList, "workflow_1f".toList]⟩⟩ := by decide

/-- The directory "w" is forgotten, or replaced by another. -/
theorem C98_lost_witness : checkWorkflow home "1f".toList ⟨false, .text "w".toList⟩ = some ⟨false, .text "w".toList⟩ ∧
    checkWorkflow home "1f".toList ⟨true, .text "w".toList⟩ = some ⟨true, .path ⟨true, ["home".toList, "u".toList, "workflow_1f".toList]⟩⟩ := by decide

/-- The root: a second check replaces it. -/
theorem C98_root_witness : checkWorkflow ⟨true, []⟩ "1f".toList ⟨false, .text "./".toList⟩ = some ⟨true, .path ⟨true, []⟩⟩ ∧
    checkWorkflow home "2e".toList ⟨true, .path ⟨true, []⟩⟩ = some ⟨true, .path ⟨true, ["home".toList, "u".toList, "workflow_2e".toList]⟩⟩ := by decide

/-- A function is replaced by one with other fields: the simulator is given "x", not "y". -/
theorem C98_stale_witness : (setFields { inputs := some ["y".toList] } (setFields { inputs := some ["x".toList] } {})).inputs = ["x".toList] := by decide

/-- `stop_val` on a field of the prepended history is refused. -/
theorem C98_stop_witness : checkStop (some "cost".toList) ["f".toList] ["x".toList] = false := by decide

example : checkStop (some "f".toList) ["f".toList] ["x".toList] = true ∧ checkCores (some 64) (some 128) = true ∧ checkCores (some 64) (some 100) = false ∧
    checkSave false (some 0) (some 5) = some true := by decide

end Verif.Checks
