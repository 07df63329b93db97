import Verif.Mpi.PropsCmd
/-!
C60, continued: every runner states the processes, the GPUs are stated with the option of the chosen setting, and values
attached with `=` are read like those that follow as a word of their own.
-/
namespace Verif.Mpi

/-- Every runner but the one the user describes states the number of processes of the layout, once, unless the user has written
one; all of them but jsrun the processes per node; and srun the nodes. -/
theorem C60_complete {r0 : Runner} (h0 : r0 ∈ [mpich, openmpi, aprun, srun, jsrun, msmpi]) {run : Str} (hrun : run.head? ≠ some '-')
    {res : Option (Avail × List Str)} {p : Plat} {a : Request} {cmd : List Word} {sp : Specs} {l : Layout}
    (h : command { r0 with run := run } res p a = .ok (cmd, sp)) (hpl : Plain { r0 with run := run } a.extra)
    (hcl : NoClash { r0 with run := run } p a) (hl : sp.layout = some l) :
    (stated (r0.names .procs) (a.extra.map .lit) = [] → stated (r0.names .procs) cmd = [.num l.procs]) ∧
    (r0.run ≠ "jsrun".toList → stated (r0.names .ppn) (a.extra.map .lit) = [] → stated (r0.names .ppn) cmd = [.num l.ppn]) ∧
    (r0.run = "srun".toList → stated (r0.names .nodes) (a.extra.map .lit) = [] → stated (r0.names .nodes) cmd = [.num l.nodes]) := by
  have hk : Known { r0 with run := run } := by
    refine ⟨r0, ?_, run, hrun, rfl⟩
    simp only [List.mem_cons, List.not_mem_nil, or_false] at h0
    rcases h0 with rfl | rfl | rfl | rfl | rfl | rfl <;> simp [runners]
  have hs := fun x => C60_stated hk h hpl hcl x
  have key : ∀ x, Key.q x ∈ r0.parts.map (·.2) → r0.rmRpn = false ∨ x ≠ .ppn →
      stated (r0.names x) (a.extra.map .lit) = [] → stated (r0.names x) cmd = [.num (l.get x)] := by
    intro x h1 h2 h3
    have := ((hs x).2 h3).2 h1 h2
    rw [hl] at this
    exact this
  have ht : ∀ r ∈ [mpich, openmpi, aprun, srun, jsrun, msmpi], Key.q .procs ∈ r.parts.map (·.2) ∧
      (r.run ≠ "jsrun".toList → Key.q .ppn ∈ r.parts.map (·.2) ∧ r.rmRpn = false) ∧
      (r.run = "srun".toList → Key.q .nodes ∈ r.parts.map (·.2)) := by decide +kernel
  obtain ⟨t1, t2, t3⟩ := ht r0 h0
  exact ⟨key .procs t1 (.inr (by decide)), fun hj => key .ppn (t2 hj).1 (.inl (t2 hj).2), fun hj => key .nodes (t3 hj) (.inr (by decide))⟩

/-- The options for GPUs of the runners that have any, as their manuals name them. -/
def gpuTable : List (Str × Setting × Str) :=
  [("srun".toList, .perTask, "--gpus-per-task".toList), ("srun".toList, .perNode, "--gpus-per-node".toList),
   ("jsrun".toList, .perTask, "-g".toList)]

/-- GPUs per task are stated with the option for GPUs per task and GPUs per node with the one for GPUs per node, once, with the
number that was decided; the other option is not used. -/
theorem C60_gpus {r0 : Runner} (h0 : r0 ∈ [srun, jsrun]) {run : Str} {res : Option (Avail × List Str)} {p : Plat} {a : Request}
    {cmd : List Word} {sp : Specs} (h : command { r0 with run := run } res p a = .ok (cmd, sp)) (hn : p.name = none)
    {st : Setting} {d : Str} (hd : (r0.run, st, d) ∈ gpuTable) (hrun : run ≠ d) (hx : d ∉ a.extra) :
    (settingOf { r0 with run := run } p = st → stated [d] cmd = (sp.setting.map Word.num).toList) ∧
    (settingOf { r0 with run := run } p ≠ st → stated [d] cmd = []) := by
  obtain ⟨pa, gw, hs, mf, hpa, hsp, hgw, hplc, rfl⟩ := command_ok h
  have table : ∀ r ∈ [srun, jsrun], ∀ e ∈ gpuTable, e.1 = r.run → r.gpuArg e.2.1 = some e.2.2 ∧ e.2.2.getLast? ≠ some '=' ∧ e.2.1 ≠ .env ∧
      (∀ q ∈ r.parts, q.1 ≠ e.2.2 ∧ q.2 ≠ .mfile) ∧ e.2.2 ∉ r.options ∧
      ∀ s ∈ [Setting.perNode, .perTask, .env], r.gpuArg s = some e.2.2 → s = e.2.1 := by decide +kernel
  obtain ⟨t1, t2, t3, t4, t5, t6⟩ := table r0 h0 _ hd rfl
  have tn : ∀ r ∈ [srun, jsrun], ∀ s ∈ [Setting.perNode, .perTask, .env], ∀ d ∈ (r.gpuArg s).toList, d.getLast? ≠ some '=' := by decide +kernel
  have hparts : (r0.parts.filterMap fun q => if q.1 ∈ [d] then
      Dict.word { q := remaining sp pa (dropPpn { r0 with run := run } (res.map (·.1)) (settingOf { r0 with run := run } p) a pa), hosts := hs, mfile := mf,
                  extra := a.extra.map .lit ++ gw ++ r0.options.map .lit } q.2 else none) = [] := by
    rw [List.filterMap_eq_nil_iff]
    intro q hq
    have := (t4 q hq).1
    simp [this]
  have hopt : stated [d] (r0.options.map .lit) = [] := by
    have := stated_none (names := [d]) (ws := r0.options.map .lit) (by
      intro w hw
      simp only [List.mem_map] at hw
      obtain ⟨s, hs, rfl⟩ := hw
      simp only [Word.isName, List.mem_singleton, decide_eq_false_iff_not]
      rintro rfl; exact t5 hs) []
    simpa [stated] using this
  have hcmd : stated [d] (formCommand { r0 with run := run }
      { q := remaining sp pa (dropPpn { r0 with run := run } (res.map (·.1)) (settingOf { r0 with run := run } p) a pa), hosts := hs, mfile := mf,
        extra := a.extra.map .lit ++ gw ++ r0.options.map .lit }) = stated [d] (gw ++ r0.options.map .lit) := by
    unfold formCommand
    rw [List.cons_append, stated_no (by simp [Word.isName, hrun]), stated_parts, hparts, List.nil_append, List.append_assoc, stated_none]
    · intro w hw
      simp only [List.mem_map] at hw
      obtain ⟨s, hs, rfl⟩ := hw
      simp only [Word.isName, List.mem_singleton, decide_eq_false_iff_not]
      rintro rfl; exact hx hs
    · intro q hq w hw _
      have hq2 := (t4 q hq).2
      cases hk : q.2 with
      | q x => rw [hk] at hw; simp only [Dict.word, Option.map_eq_some_iff] at hw; obtain ⟨_, _, rfl⟩ := hw; rfl
      | hosts => rw [hk] at hw; simp only [Dict.word, Option.map_eq_some_iff] at hw; obtain ⟨_, _, rfl⟩ := hw; rfl
      | mfile => exact absurd hk hq2
      | env => rw [hk] at hw; cases hw
  have hshape : gw = [] ∧ (sp.setting = none ∨ settingOf { r0 with run := run } p = .env) ∨
      ∃ v e, sp.setting = some v ∧ r0.gpuArg (settingOf { r0 with run := run } p) = some e ∧ gw = [.lit e, .num v] := by
    cases hv : sp.setting with
    | none => rw [hv] at hgw; simp only [gpuPart, Except.ok.injEq] at hgw; exact .inl ⟨hgw.symm, .inl rfl⟩
    | some v =>
      rw [hv] at hgw
      simp only [gpuPart, gpuWords] at hgw
      split at hgw
      · rename_i he; cases hgw; exact .inl ⟨rfl, .inr he⟩
      · split at hgw
        · cases hgw
        · rename_i e he
          cases hgw
          refine .inr ⟨v, e, rfl, he, ?_⟩
          have hpe : p.option e = e := by unfold Plat.option; split <;> simp [hn]
          have hlast := tn r0 h0 (settingOf { r0 with run := run } p) (by cases settingOf { r0 with run := run } p <;> simp) e (by
            rw [show r0.gpuArg (settingOf { r0 with run := run } p) = some e from he]; simp)
          rw [hpe, gpuOption, if_neg hlast]
  rw [hcmd]
  constructor
  · intro hst
    rcases hshape with ⟨rfl, hnone | henv⟩ | ⟨v, e, hv, he, rfl⟩
    · rw [hnone, List.nil_append, hopt]; rfl
    · exact absurd (hst.symm.trans henv) t3
    · rw [hst] at he
      have : e = d := Option.some.inj (he.symm.trans t1)
      subst this
      rw [hv]
      show stated [e] (.lit e :: .num v :: _) = _
      rw [stated_yes (by simp)]
      exact congrArg (Word.num v :: ·) hopt
  · intro hst
    rcases hshape with ⟨rfl, _⟩ | ⟨v, e, hv, he, rfl⟩
    · exact hopt
    · have hne : e ≠ d := by
        rintro rfl
        exact hst (t6 _ (by cases settingOf { r0 with run := run } p <;> simp) he)
      show stated [d] (.lit e :: .num v :: _) = _
      rw [stated_no (by simp [Word.isName, hne]), stated_no rfl]
      exact hopt

/-! ### Attached values -/

/-- What the following needs to know of the names: no `=` in them, and none is a number. -/
theorem names_plain {r : Runner} (hr : Known r) : ∀ o ∈ r.opts, '=' ∉ o.1 ∧ ∃ c, o.1[1]? = some c ∧ digitOf c = none := by
  obtain ⟨r0, h0, run, _, rfl⟩ := hr
  have : ∀ r ∈ runners, ∀ o ∈ r.opts, '=' ∉ o.1 ∧ (o.1[1]?.map digitOf) = some none := by decide +kernel
  intro o ho
  obtain ⟨h1, h2⟩ := this r0 h0 o ho
  refine ⟨h1, ?_⟩
  cases h : o.1[1]? with
  | none => rw [h] at h2; cases h2
  | some c => exact ⟨c, rfl, by rw [h] at h2; simpa using h2⟩

theorem foldNat_none (cs : List Char) :
    cs.foldl (fun acc c => match acc, digitOf c with | some n, some d => some (10 * n + d) | _, _ => none) (none : Option Nat) = none := by
  induction cs with
  | nil => rfl
  | cons c cs ih => exact ih

theorem readNat_digits {cs : Str} {n : Nat} (h : readNat cs = some n) : cs ≠ [] ∧ ∀ c ∈ cs, (digitOf c).isSome := by
  have : ∀ (cs : Str) (acc : Option Nat) (n : Nat),
      cs.foldl (fun acc c => match acc, digitOf c with | some n, some d => some (10 * n + d) | _, _ => none) acc = some n →
      ∀ c ∈ cs, (digitOf c).isSome := by
    intro cs
    induction cs with
    | nil => intro _ _ _ c hc; cases hc
    | cons d cs ih =>
      intro acc n h c hc
      rw [List.foldl_cons] at h
      cases hd : digitOf d with
      | none =>
        rw [hd] at h
        have : (match acc, (none : Option Nat) with | some n, some d => some (10 * n + d) | _, _ => none) = none := by cases acc <;> rfl
        rw [this, foldNat_none] at h
        cases h
      | some k =>
        rcases List.mem_cons.mp hc with rfl | hc
        · simp [hd]
        · exact ih _ _ h c hc
  cases cs with
  | nil => cases h
  | cons c cs => exact ⟨by simp, this _ _ _ h⟩

theorem look_none {os : Opts} {w : Str} (h : ∀ o ∈ os, o.1 ≠ w) : os.look w = none := by
  unfold Opts.look
  rw [List.find?_eq_none.mpr]
  · rfl
  · intro o ho; simpa using h o ho

/-- A number is never taken for an option. -/
theorem classify_number {r : Runner} (hr : Known r) {v : Str} {n : Int} (h : readInt v = some n) : classify r.opts v = .pos ∧ v ≠ ['-', '-'] := by
  have hnames := names_plain hr
  cases v with
  | nil => cases h
  | cons c cs =>
    by_cases hc : c = '-'
    · subst hc
      obtain ⟨k, hk⟩ : ∃ k, readNat cs = some k := by
        cases h' : readNat cs with
        | none => simp [readInt, h'] at h
        | some k => exact ⟨k, rfl⟩
      obtain ⟨hne, hdig⟩ := readNat_digits hk
      cases cs with
      | nil => exact absurd rfl hne
      | cons d ds =>
        have hd := hdig d (by simp)
        have hdd : d ≠ '-' := by rintro rfl; revert hd; decide
        have heq : '=' ∉ '-' :: d :: ds := by
          intro hm
          rcases List.mem_cons.mp hm with e | hm
          · cases e
          · have := hdig '=' hm; revert this; decide
        have hlook : r.opts.look ('-' :: d :: ds) = none := look_none (by
          rintro o ho e
          obtain ⟨_, c, hc1, hc2⟩ := hnames o ho
          rw [e] at hc1; simp at hc1; subst hc1; rw [hc2] at hd; cases hd)
        have htup : tuples r.opts ('-' :: d :: ds) = [] := by
          unfold tuples
          rw [List.filterMap_eq_nil_iff]
          intro o ho
          obtain ⟨_, c, hc1, hc2⟩ := hnames o ho
          have h1 : o.1 ≠ List.take 2 ('-' :: d :: ds) := by
            intro e; rw [e] at hc1; simp at hc1; subst hc1; rw [hc2] at hd; cases hd
          have h2 : ¬ (('-' :: d :: ds).isPrefixOf o.1 = true) := by
            intro e
            obtain ⟨t, ht⟩ := List.isPrefixOf_iff_prefix.mp e
            rw [← ht] at hc1; simp at hc1; subst hc1; rw [hc2] at hd; cases hd
          rw [if_neg h1, if_neg h2]
        refine ⟨?_, by simp [hdd]⟩
        have hneg : negNum ('-' :: d :: ds) = true := by simp [negNum, hk]
        unfold classify
        simp only [hlook]
        rw [if_neg (by simp), if_neg heq, if_neg (by simp [hdd])]
        simp [htup, hneg]
    · refine ⟨?_, by simp [hc]⟩
      unfold classify
      split
      · rename_i heq; cases heq; exact absurd rfl hc
      · rfl

/-- `option=value` is the option with the value. -/
theorem classify_attached {r : Runner} (hr : Known r) {x : Q} {s v : Str} (h : s ∈ r.names x) :
    classify r.opts (s ++ '=' :: v) = .opt (.q x) (some v) ∧ s ++ '=' :: v ≠ ['-', '-'] := by
  have ho := hr.ok
  have hl := look_name ho h
  have hd := (ho.dash x s h).1
  have hmem : ∃ o ∈ r.opts, o.1 = s := by
    unfold Opts.look at hl
    simp only [Option.map_eq_some_iff] at hl
    obtain ⟨o, hf, _⟩ := hl
    exact ⟨o, List.mem_of_find?_eq_some hf, by simpa using List.find?_some hf⟩
  obtain ⟨o, hom, rfl⟩ := hmem
  have hne := (names_plain hr o hom).1
  obtain ⟨c, hc1, hc2⟩ := (names_plain hr o hom).2
  have hlook : r.opts.look (o.1 ++ '=' :: v) = none := look_none (by
    intro o' ho' e
    exact (names_plain hr o' ho').1 (by rw [e]; simp))
  have htake : (o.1 ++ '=' :: v).takeWhile (· ≠ '=') = o.1 := by
    rw [List.takeWhile_append_of_pos]
    · simp
    · intro c hc; simp only [ne_eq, decide_not, Bool.not_eq_eq_eq_not, Bool.not_true, decide_eq_false_iff_not]; rintro rfl; exact hne hc
  have hdrop : (o.1 ++ '=' :: v).dropWhile (· ≠ '=') = '=' :: v := by
    rw [List.dropWhile_append_of_pos]
    · simp
    · intro c hc; simp only [ne_eq, decide_not, Bool.not_eq_eq_eq_not, Bool.not_true, decide_eq_false_iff_not]; rintro rfl; exact hne hc
  generalize hs : o.1 = s at *
  cases s with
  | nil => cases hd
  | cons d ds =>
    simp only [List.head?_cons, Option.some.injEq] at hd
    subst hd
    refine ⟨?_, by
      intro e
      have := congrArg (fun l => '=' ∈ l) e
      simp at this⟩
    rw [List.cons_append] at hlook htake hdrop ⊢
    unfold classify
    simp only [hlook]
    rw [if_neg (by simp), if_pos (by simp), htake, hl]
    simp only [hdrop, List.drop_succ_cons, List.drop_zero]

/-- The words read from some point on. -/
theorem scan_prefix {os : Opts} {A B : List Str} (hAB : ∀ p, scan os A p = scan os B p)
    (hhd : ∀ a ∈ A.head?, a ≠ ['-', '-'] ∧ classify os a ≠ .pos) (hhd' : ∀ b ∈ B.head?, b ≠ ['-', '-'] ∧ classify os b ≠ .pos)
    (hne : A ≠ [] ∧ B ≠ []) : ∀ (n : Nat) (pre : List Str) (p : PArgs), pre.length ≤ n → scan os (pre ++ A) p = scan os (pre ++ B) p := by
  intro n
  induction n with
  | zero =>
    intro pre p hn
    have : pre = [] := by cases pre with | nil => rfl | cons a b => simp at hn
    subst this; exact hAB p
  | succ n ih =>
    intro pre p hn
    cases pre with
    | nil => exact hAB p
    | cons w ws =>
      simp only [List.length_cons] at hn
      have ih' := fun q => ih ws q (by omega)
      rw [List.cons_append, List.cons_append, scan.eq_def, scan.eq_def os (w :: (ws ++ B))]
      simp only
      split
      · rfl
      · cases hc : classify os w with
        | pos => exact ih' p
        | skip => exact ih' p
        | fail => rfl
        | opt o v =>
          cases o with
          | help => rfl
          | q x =>
            cases v with
            | some v =>
              simp only
              cases readInt v with
              | none => rfl
              | some k => exact ih' _
            | none =>
              cases ws with
              | nil =>
                obtain ⟨hA, hB⟩ := hne
                cases A with
                | nil => exact absurd rfl hA
                | cons a as =>
                  cases B with
                  | nil => exact absurd rfl hB
                  | cons b bs =>
                    simp only [List.nil_append]
                    rw [if_pos (.inr (hhd a (by simp)).2), if_pos (.inr (hhd' b (by simp)).2)]
              | cons u us =>
                simp only [List.cons_append]
                split
                · rfl
                · simp only [List.length_cons] at hn
                  cases readInt u with
                  | none => rfl
                  | some k => exact ih us _ (by omega)

/-- `option=number` in `extra_args` is read like the option followed by the number, wherever it stands (repeatedly: like all of
them written as two words). -/
theorem C60_attached {r : Runner} (hr : Known r) {x : Q} {s v : Str} {n : Int} (hs : s ∈ r.names x) (hv : readInt v = some n)
    (pre post : List Str) : parseExtra r (pre ++ (s ++ '=' :: v) :: post) = parseExtra r (pre ++ s :: v :: post) := by
  obtain ⟨a1, a2⟩ := classify_attached hr (v := v) hs
  have b1 := classify_name hr.ok hs
  have b2 := (hr.ok.dash x s hs).2
  obtain ⟨c1, c2⟩ := classify_number hr hv
  refine scan_prefix ?_ ?_ ?_ ⟨by simp, by simp⟩ _ pre _ (Nat.le_refl _)
  · intro p
    rw [scan.eq_def, scan.eq_def r.opts (s :: v :: post)]
    simp only [if_neg a2, if_neg b2, a1, b1]
    rw [if_neg (by simp [c1, c2])]
  · intro a ha
    simp only [List.head?_cons, Option.mem_def, Option.some.injEq] at ha
    subst ha
    exact ⟨a2, by rw [a1]; nofun⟩
  · intro b hb
    simp only [List.head?_cons, Option.mem_def, Option.some.injEq] at hb
    subst hb
    exact ⟨b2, by rw [b1]; nofun⟩

/-- Two attached values: the second counts, as without `=`. -/
example : (parseExtra srun (words ["--ntasks=3", "x", "-n=5"])).toOption.map (fun pa => pa .procs) = some (some 5) := by decide +kernel

/-- The GPU options of srun by both settings, and jsrun's processes. -/
example : (command srun (some (cmdW, cmdNodes)) { type := some .perNode } { np := some 2, ng := some 2 }).toOption.map
      (fun c => (stated ["--gpus-per-node".toList] c.1, stated ["--gpus-per-task".toList] c.1, c.2.setting)) = some ([.num 2], [], some 2) ∧
    (command jsrun (some (cmdW, cmdNodes)) {} { np := some 2 }).toOption.map (fun c => stated (jsrun.names .procs) c.1) = some [.num 2] := by
  decide +kernel

end Verif.Mpi
