import Verif.Mpi.Command
import Verif.Mpi.Props
/-!
C60: the command line of an MPI task states what was decided.
-/
namespace Verif.Mpi

/-- The values that a command states with options of the given names, in their order (the reading of the MPI program). -/
def stated (names : List Str) : List Word → List Word
  | [] => []
  | [_] => []
  | .lit s :: w :: ws => if s ∈ names then w :: stated names ws else stated names (w :: ws)
  | .num _ :: w :: ws => stated names (w :: ws)
  | .eqn _ _ :: w :: ws => stated names (w :: ws)
  | .hosts _ :: w :: ws => stated names (w :: ws)
  | .auto :: w :: ws => stated names (w :: ws)

/-- The number in a word. -/
def intOf : Word → Option Int
  | .lit s => readInt s
  | .num n => some n
  | _ => none

/-- Is the word one of the names? -/
def Word.isName (names : List Str) : Word → Bool
  | .lit s => decide (s ∈ names)
  | _ => false

theorem stated_no {names : List Str} {w : Word} (h : w.isName names = false) (ws : List Word) :
    stated names (w :: ws) = stated names ws := by
  cases ws with
  | nil => cases w <;> rfl
  | cons v vs =>
    cases w with
    | lit s =>
      have : s ∉ names := by simpa [Word.isName] using h
      simp [stated, this]
    | _ => rfl

theorem stated_yes {names : List Str} {s : Str} (h : s ∈ names) (v : Word) (ws : List Word) :
    stated names (.lit s :: v :: ws) = v :: stated names ws := by simp [stated, h]

theorem stated_none {names : List Str} {ws : List Word} (h : ∀ w ∈ ws, w.isName names = false) (vs : List Word) :
    stated names (ws ++ vs) = stated names vs := by
  induction ws with
  | nil => rfl
  | cons w ws ih =>
    rw [List.cons_append, stated_no (h w (by simp)), ih (fun v hv => h v (by simp [hv]))]

/-- What the proofs need to know of a runner. -/
structure Runner.Ok (r : Runner) : Prop where
  apart : ∀ x y s, s ∈ r.names x → s ∈ r.names y → x = y
  help : ∀ x s, s ∈ r.names x → s ≠ "-h".toList ∧ s ≠ "--help".toList
  dash : ∀ x s, s ∈ r.names x → s.head? = some '-' ∧ s ≠ ['-', '-']
  own : ∀ x s, (s, .q x) ∈ r.parts → s ∈ r.names x
  other : ∀ x p, p ∈ r.parts → (∀ y, p.2 ≠ .q y) → p.1 ∉ r.names x
  once : (r.parts.map (·.2)).Nodup
  opts : ∀ x s, s ∈ r.options → s ∉ r.names x
  gpu : ∀ x st s, r.gpuArg st = some s → s ∉ r.names x

def Q.list : List Q := [.procs, .nodes, .ppn]

theorem Q.mem (x : Q) : x ∈ Q.list := by cases x <;> simp [Q.list]

/-- `Runner.Ok`, to be computed. -/
def Runner.okB (r : Runner) : Bool :=
  decide (∀ x ∈ Q.list, ∀ y ∈ Q.list, ∀ s ∈ r.names x, s ∈ r.names y → x = y) &&
  decide (∀ x ∈ Q.list, ∀ s ∈ r.names x, s ≠ "-h".toList ∧ s ≠ "--help".toList ∧ s.head? = some '-' ∧ s ≠ ['-', '-']) &&
  decide (∀ p ∈ r.parts, ∀ x ∈ Q.list, p.2 = .q x → p.1 ∈ r.names x) &&
  decide (∀ p ∈ r.parts, ∀ x ∈ Q.list, (∀ y ∈ Q.list, p.2 ≠ .q y) → p.1 ∉ r.names x) &&
  decide (r.parts.map (·.2)).Nodup &&
  decide (∀ s ∈ r.options, ∀ x ∈ Q.list, s ∉ r.names x) &&
  decide (∀ st ∈ [Setting.perNode, .perTask, .env], ∀ x ∈ Q.list, ∀ s ∈ (r.gpuArg st).toList, s ∉ r.names x)

theorem okB_sound {r : Runner} (h : r.okB = true) : r.Ok := by
  simp only [Runner.okB, Bool.and_eq_true] at h
  obtain ⟨⟨⟨⟨⟨⟨h1, h2⟩, h3⟩, h4⟩, h5⟩, h6⟩, h7⟩ := h
  replace h1 := of_decide_eq_true h1
  replace h2 := of_decide_eq_true h2
  replace h3 := of_decide_eq_true h3
  replace h4 := of_decide_eq_true h4
  replace h5 := of_decide_eq_true h5
  replace h6 := of_decide_eq_true h6
  replace h7 := of_decide_eq_true h7
  refine ⟨fun x y s hx hy => h1 x x.mem y y.mem s hx hy, fun x s hs => ⟨(h2 x x.mem s hs).1, (h2 x x.mem s hs).2.1⟩, fun x s hs => (h2 x x.mem s hs).2.2,
    fun x s hs => h3 _ hs x x.mem rfl, fun x p hp hy => h4 p hp x x.mem (fun y _ => hy y), h5, fun x s hs => h6 s hs x x.mem, fun x st s hs => ?_⟩
  refine h7 st ?_ x x.mem s (by simp [hs])
  cases st <;> simp

theorem runners_ok : ∀ r ∈ runners, r.Ok := by
  intro r hr
  apply okB_sound
  revert r
  decide +kernel

/-- Neither attached values (`-n4`, `-n=4`) nor beginnings of options nor `--` in the user's words. -/
def Plain (r : Runner) (ws : List Str) : Prop :=
  ∀ w ∈ ws, w ≠ ['-', '-'] ∧ (classify r.opts w = .pos ∨ classify r.opts w = .skip ∨ ∃ x, w ∈ r.names x)

theorem look_name {r : Runner} (ho : r.Ok) {x : Q} {s : Str} (h : s ∈ r.names x) : r.opts.look s = some (.q x) := by
  unfold Opts.look Runner.opts
  have hh := ho.help x s h
  have hp : ∀ y, y ≠ x → ((r.names y).map fun z => (z, Opt.q y)).find? (fun o => decide (o.1 = s)) = none := by
    intro y hy
    rw [List.find?_eq_none]
    rintro ⟨a, b⟩ hab
    simp only [List.mem_map, Prod.mk.injEq] at hab
    obtain ⟨a', ha, rfl, rfl⟩ := hab
    simp only [decide_eq_true_eq]
    rintro rfl
    exact hy (ho.apart _ _ _ ha h)
  have hx : (((r.names x).map fun z => (z, Opt.q x)).find? (fun o => decide (o.1 = s))).map (·.2) = some (.q x) := by
    generalize r.names x = l at h
    induction l with
    | nil => cases h
    | cons a l ih =>
      by_cases e : a = s
      · simp [e]
      · rcases List.mem_cons.mp h with e' | h'
        · exact absurd e'.symm e
        · simp only [List.map_cons, List.find?_cons, e, decide_false]
          exact ih h'
  have h1 : ¬ ("-h".toList = s) := fun e => hh.1 e.symm
  have h2 : ¬ ("--help".toList = s) := fun e => hh.2 e.symm
  simp only [List.find?_append, List.find?_cons, h1, h2, decide_false, List.find?_nil]
  cases x with
  | procs =>
    cases hf : ((r.names .procs).map fun z => (z, Opt.q .procs)).find? (fun o => decide (o.1 = s)) with
    | none => rw [hf] at hx; cases hx
    | some o => rw [hf] at hx; simpa using hx
  | nodes =>
    rw [hp .procs (by simp)]
    cases hf : ((r.names .nodes).map fun z => (z, Opt.q .nodes)).find? (fun o => decide (o.1 = s)) with
    | none => rw [hf] at hx; cases hx
    | some o => rw [hf] at hx; simpa using hx
  | ppn =>
    rw [hp .procs (by simp), hp .nodes (by simp)]
    cases hf : ((r.names .ppn).map fun z => (z, Opt.q .ppn)).find? (fun o => decide (o.1 = s)) with
    | none => rw [hf] at hx; cases hx
    | some o => rw [hf] at hx; simpa using hx

theorem classify_name {r : Runner} (ho : r.Ok) {x : Q} {s : Str} (h : s ∈ r.names x) : classify r.opts s = .opt (.q x) none := by
  have hd := (ho.dash x s h).1
  have hl := look_name ho h
  cases s with
  | nil => cases hd
  | cons c cs =>
    simp only [List.head?_cons, Option.some.injEq] at hd
    subst hd
    simp [classify, hl]

/-- The last value stated, as a number; `d` if there is none. -/
def lastOr (d : Option Int) (l : List Word) : Option Int := match l.getLast? with | some w => intOf w | none => d

theorem lastOr_cons (d : Option Int) (w : Word) (l : List Word) : lastOr d (w :: l) = lastOr (intOf w) l := by
  unfold lastOr
  cases l with
  | nil => rfl
  | cons v l => simp [List.getLast?_cons_cons, List.getLast?_cons]

/-- What argparse finds in plain words is what they state; and every option has its value within them. -/
theorem scan_stated {r : Runner} (ho : r.Ok) : ∀ (n : Nat) (ws : List Str) (p p' : PArgs), ws.length ≤ n → Plain r ws →
    scan r.opts ws p = .ok p' →
    ∀ x, p' x = lastOr (p x) (stated (r.names x) (ws.map .lit)) ∧
      (∀ w ∈ stated (r.names x) (ws.map .lit), (intOf w).isSome) ∧
      ∀ vs, stated (r.names x) (ws.map .lit ++ vs) = stated (r.names x) (ws.map .lit) ++ stated (r.names x) vs := by
  intro n
  induction n with
  | zero =>
    intro ws p p' hn _ h x
    have : ws = [] := by cases ws with | nil => rfl | cons a b => simp at hn
    subst this
    simp only [scan, Except.ok.injEq] at h
    subst h
    simp [stated, lastOr]
  | succ n ih =>
    intro ws p p' hn hpl h x
    cases ws with
    | nil =>
      simp only [scan, Except.ok.injEq] at h
      subst h
      simp [stated, lastOr]
    | cons w ws =>
      have hw := hpl w (by simp)
      have hpl' : Plain r ws := fun v hv => hpl v (by simp [hv])
      simp only [List.length_cons] at hn
      have nope : (∀ x, w ∉ r.names x) → scan r.opts ws p = .ok p' →
          p' x = lastOr (p x) (stated (r.names x) ((w :: ws).map .lit)) ∧
          (∀ w' ∈ stated (r.names x) ((w :: ws).map .lit), (intOf w').isSome) ∧
          ∀ vs, stated (r.names x) ((w :: ws).map .lit ++ vs) = stated (r.names x) ((w :: ws).map .lit) ++ stated (r.names x) vs := by
        intro hno hs
        obtain ⟨i1, i2, i3⟩ := ih ws p p' (by omega) hpl' hs x
        have e : (Word.lit w).isName (r.names x) = false := by simp [Word.isName, hno x]
        simp only [List.map_cons, List.cons_append]
        rw [stated_no e]
        refine ⟨i1, i2, fun vs => ?_⟩
        rw [stated_no e]
        exact i3 vs
      rcases hw.2 with hc | hc | ⟨y, hy⟩
      · refine nope (fun x hx => by rw [classify_name ho hx] at hc; cases hc) ?_
        rw [scan, if_neg hw.1, hc] at h; exact h
      · refine nope (fun x hx => by rw [classify_name ho hx] at hc; cases hc) ?_
        rw [scan, if_neg hw.1, hc] at h; exact h
      · have hc := classify_name ho hy
        rw [scan.eq_def] at h
        simp only [if_neg hw.1, hc] at h
        cases ws with
        | nil => cases h
        | cons v ws =>
          simp only at h
          split at h
          · cases h
          rename_i hv
          have hv2 : classify r.opts v = .pos := Decidable.byContradiction fun e => hv (.inr e)
          have hvn : ∀ x, v ∉ r.names x := fun x hx => by rw [classify_name ho hx] at hv2; cases hv2
          split at h
          · rename_i k hk
            simp only [List.length_cons] at hn
            obtain ⟨i1, i2, i3⟩ := ih ws (p.set y k) p' (by omega) (fun v hv => hpl' v (by simp [hv])) h x
            simp only [List.map_cons, List.cons_append]
            by_cases e : x = y
            · subst e
              rw [stated_yes hy, lastOr_cons]
              refine ⟨?_, ?_, fun vs => ?_⟩
              · rw [i1]; simp [PArgs.set, intOf, hk]
              · intro w' hw'
                rcases List.mem_cons.mp hw' with rfl | hw'
                · simp [intOf, hk]
                · exact i2 w' hw'
              · rw [stated_yes hy, i3 vs]; rfl
            · have e1 : (Word.lit w).isName (r.names x) = false := by
                simp only [Word.isName, decide_eq_false_iff_not]
                exact fun hx => e (ho.apart _ _ _ hx hy)
              have e2 : (Word.lit v).isName (r.names x) = false := by simp [Word.isName, hvn x]
              rw [stated_no e1, stated_no e2]
              refine ⟨?_, i2, fun vs => ?_⟩
              · rw [i1]; simp [PArgs.set, e]
              · rw [stated_no e1, stated_no e2, i3 vs]
          · cases h

/-! ### The template -/

theorem stated_parts {names : List Str} {d : Dict} : ∀ (parts : List (Str × Key)) (vs : List Word),
    (∀ p ∈ parts, ∀ w, d.word p.2 = some w → p.1 ∉ names → w.isName names = false) →
    stated names (parts.flatMap d.words ++ vs) =
      (parts.filterMap fun p => if p.1 ∈ names then d.word p.2 else none) ++ stated names vs := by
  intro parts
  induction parts with
  | nil => intro vs _; rfl
  | cons p ps ih =>
    intro vs h
    have ih' := ih vs (fun q hq => h q (by simp [hq]))
    simp only [List.flatMap_cons, List.append_assoc]
    unfold Dict.words at ih' ⊢
    cases hw : d.word p.2 with
    | none => simp [hw, ih']
    | some w =>
      simp only [List.cons_append, List.nil_append]
      by_cases hp : p.1 ∈ names
      · rw [stated_yes hp, ih']; simp [hp, hw]
      · have e : (Word.lit p.1).isName names = false := by simp [Word.isName, hp]
        rw [stated_no e, stated_no (h p (by simp) w hw hp), ih']; simp [hp]

theorem parts_once {r : Runner} (ho : r.Ok) (d : Dict) (x : Q) :
    (r.parts.filterMap fun p => if p.1 ∈ r.names x then d.word p.2 else none) =
      (if Key.q x ∈ r.parts.map (·.2) then (d.q x).map Word.num else none).toList := by
  have hk : ∀ p ∈ r.parts, (p.1 ∈ r.names x ↔ p.2 = .q x) := by
    intro p hp
    constructor
    · intro hx
      cases hk : p.2 with
      | q y =>
        have hy := ho.own y p.1 (by rw [← hk]; exact hp)
        rw [ho.apart _ _ _ hy hx]
      | _ => exact absurd hx (ho.other x p hp (by simp [hk]))
    · intro e; exact ho.own x p.1 (by rw [← e]; exact hp)
  have hn := ho.once
  generalize r.parts = ps at hk hn
  induction ps with
  | nil => simp
  | cons p ps ih =>
    simp only [List.map_cons, List.nodup_cons] at hn
    have ih' := ih (fun q hq => hk q (by simp [hq])) hn.2
    by_cases e : p.2 = .q x
    · have : Key.q x ∉ ps.map (·.2) := by rw [← e]; exact hn.1
      rw [if_neg this] at ih'
      have h1 : p.1 ∈ r.names x := (hk p (by simp)).mpr e
      simp only [List.filterMap_cons, h1, if_true, ih', List.map_cons, e, List.mem_cons, true_or]
      cases hq : d.q x <;> simp [Dict.word, hq]
    · have h1 : p.1 ∉ r.names x := fun hx => e ((hk p (by simp)).mp hx)
      have e' : ¬ (Key.q x = p.2) := fun h => e h.symm
      simp only [List.filterMap_cons, h1, if_false, List.map_cons, List.mem_cons, e', false_or]
      exact ih'

/-! ### C60 -/

/-- A runner of the list, its program possibly replaced by another one. -/
def Known (r : Runner) : Prop := ∃ r0 ∈ runners, ∃ run : Str, run.head? ≠ some '-' ∧ r = { r0 with run := run }

theorem Known.ok {r : Runner} (h : Known r) : r.Ok := by
  obtain ⟨r0, h0, run, _, rfl⟩ := h
  have := runners_ok r0 h0
  exact ⟨this.apart, this.help, this.dash, this.own, this.other, this.once, this.opts, this.gpu⟩

/-- The names a user chooses (machine file, GPU option of the platform) are no options for the layout. -/
def NoClash (r : Runner) (p : Plat) (a : Request) : Prop :=
  ∀ x, (∀ s, a.machinefile = some s → s ∉ r.names x) ∧ ∀ s, p.name = some s → s ∉ r.names x

/-- What `command` does, taken apart. -/
theorem command_ok {r : Runner} {res : Option (Avail × List Str)} {p : Plat} {a : Request} {cmd : List Word} {sp : Specs}
    (h : command r res p a = .ok (cmd, sp)) : ∃ pa gw hs mf, parseExtra r a.extra = .ok pa ∧
      mpiSpecs (res.map (·.1)) (settingOf r p) (merged a pa .procs) (merged a pa .nodes) (merged a pa .ppn) a.ng (userFile r a).isSome a.auto a.mat = .ok sp ∧
      gpuPart r p sp.setting = .ok gw ∧ places r (res.map (·.2)) a sp = .ok (hs, mf) ∧
      cmd = formCommand r { q := remaining sp pa (dropPpn r (res.map (·.1)) (settingOf r p) a pa), hosts := hs, mfile := mf
                            extra := a.extra.map .lit ++ gw ++ r.options.map .lit } := by
  unfold command at h
  split at h
  · cases h
  rename_i pa hpa
  split at h
  · cases h
  rename_i sp' hsp
  split at h
  · cases h
  rename_i gw hgw
  split at h
  · cases h
  rename_i hs mf hpl
  cases h
  exact ⟨pa, gw, hs, mf, hpa, hsp, hgw, hpl, rfl⟩

theorem gpuPart_names {r : Runner} (ho : r.Ok) {p : Plat} {v : Option Int} {gw : List Word} (h : gpuPart r p v = .ok gw) {x : Q}
    (hp : ∀ s, p.name = some s → s ∉ r.names x) : ∀ w ∈ gw, w.isName (r.names x) = false := by
  intro w hw
  cases v with
  | none => simp only [gpuPart, Except.ok.injEq] at h; subst h; cases hw
  | some v =>
    simp only [gpuPart, gpuWords] at h
    split at h
    · cases h; cases hw
    · split at h
      · cases h
      · rename_i d hd
        cases h
        have hname : p.option d ∉ r.names x := by
          unfold Plat.option
          have := ho.gpu x _ d hd
          split
          · cases hn : p.name with
            | none => exact this
            | some s => exact hp s hn
          · exact this
        unfold gpuOption at hw
        split at hw
        · simp only [List.mem_singleton] at hw; subst hw; rfl
        · simp only [List.mem_cons, List.not_mem_nil, or_false] at hw
          rcases hw with rfl | rfl
          · simpa [Word.isName] using hname
          · rfl

theorem places_file {r : Runner} {nodes : Option (List Str)} {a : Request} {sp : Specs} {hs : Option (List Str)} {mf : Option Word}
    (h : places r nodes a sp = .ok (hs, mf)) : ∀ w, mf = some w → w = .auto ∨ ∃ s, a.machinefile = some s ∧ w = .lit s := by
  intro w hw
  unfold places at h
  split at h
  · split at h
    · cases h; cases hw
    · split at h
      · cases h
      · cases h; cases hw; exact .inl rfl
    · cases h; cases hw
  · cases h
    cases hf : userFile r a with
    | none => simp [hf] at hw
    | some s =>
      simp only [hf, Option.map_some, Option.some.injEq] at hw
      refine .inr ⟨s, ?_, hw.symm⟩
      unfold userFile at hf
      split at hf
      · exact hf
      · cases hf

/-- The command states each quantity with the values the user wrote in `extra_args`, and only if there are none with the value
of the layout, once; the options added for GPUs, files and hosts state none of them.  A quantity that the runner has an option
for is stated, except that jsrun may leave out the processes per node. -/
theorem C60_stated {r : Runner} (hr : Known r) {res : Option (Avail × List Str)} {p : Plat} {a : Request} {cmd : List Word} {sp : Specs}
    (h : command r res p a = .ok (cmd, sp)) (hpl : Plain r a.extra) (hcl : NoClash r p a) (x : Q) :
    (stated (r.names x) (a.extra.map .lit) ≠ [] → stated (r.names x) cmd = stated (r.names x) (a.extra.map .lit)) ∧
    (stated (r.names x) (a.extra.map .lit) = [] →
      (stated (r.names x) cmd = [] ∨ stated (r.names x) cmd = (sp.layout.map fun l => Word.num (l.get x)).toList) ∧
      (Key.q x ∈ r.parts.map (·.2) → r.rmRpn = false ∨ x ≠ .ppn →
        stated (r.names x) cmd = (sp.layout.map fun l => Word.num (l.get x)).toList)) := by
  obtain ⟨pa, gw, hs, mf, hpa, hsp, hgw, hplc, rfl⟩ := command_ok h
  have ho := hr.ok
  obtain ⟨s1, s2, s3⟩ := scan_stated ho _ a.extra _ pa (Nat.le_refl _) hpl hpa x
  have hrun : (Word.lit r.run).isName (r.names x) = false := by
    obtain ⟨r0, h0, run, hrun, rfl⟩ := hr
    simp only [Word.isName, decide_eq_false_iff_not]
    exact fun hm => hrun (ho.dash x run hm).1
  unfold formCommand
  rw [List.cons_append, stated_no hrun, stated_parts, parts_once ho, List.append_assoc, s3]
  · rw [stated_none (gpuPart_names ho hgw (hcl x).2)]
    have hopt : stated (r.names x) (r.options.map .lit) = [] := by
      have := stated_none (names := r.names x) (ws := r.options.map .lit) (by
        intro w hw
        simp only [List.mem_map] at hw
        obtain ⟨s, hs, rfl⟩ := hw
        simpa [Word.isName] using ho.opts x s hs) []
      simpa [stated] using this
    rw [hopt, List.append_nil]
    generalize hE : stated (r.names x) (a.extra.map .lit) = E at *
    constructor
    · intro hne
      have hsome : (pa x).isSome = true := by
        rw [s1]
        unfold lastOr
        cases hl : E.getLast? with
        | none => rw [List.getLast?_eq_none_iff] at hl; exact absurd hl hne
        | some w => exact s2 w (List.mem_of_getLast? hl)
      simp [remaining, hsome]
    · intro he
      subst he
      have hnone : pa x = none := by rw [s1]; rfl
      have e : ∀ o : Option Layout, (Option.map Word.num (o.map (·.get x))) = o.map fun l => Word.num (l.get x) := by
        intro o; cases o <;> rfl
      simp only [List.append_nil, remaining, hnone, Option.isSome_none, Bool.false_eq_true, if_false]
      constructor
      · split
        · split
          · exact .inl rfl
          · right; rw [e]
        · exact .inl rfl
      · intro hk hj
        have hd : ¬ (x = .ppn ∧ dropPpn r (res.map (·.1)) (settingOf r p) a pa = true) := by
          rintro ⟨e1, e2⟩
          rcases hj with hj | hj
          · simp [dropPpn, hj] at e2
          · exact hj e1
        rw [if_pos hk, if_neg hd, e]
  · intro q hq w hw hn
    cases hk : q.2 with
    | q y =>
      rw [hk] at hw
      simp only [Dict.word, Option.map_eq_some_iff] at hw
      obtain ⟨n, _, rfl⟩ := hw
      rfl
    | hosts =>
      rw [hk] at hw
      simp only [Dict.word, Option.map_eq_some_iff] at hw
      obtain ⟨n, _, rfl⟩ := hw
      rfl
    | mfile =>
      rw [hk] at hw
      rcases places_file hplc w hw with rfl | ⟨s, hs, rfl⟩
      · rfl
      · simpa [Word.isName] using (hcl x).1 s hs
    | env => rw [hk] at hw; cases hw

/-- The layout honours the numbers it was computed from; the number of processes may be rounded up. -/
theorem specs_honour {res : Option Avail} {st : Setting} {np nn ppn ng : Option Int} {mf auto mat : Bool} {sp : Specs} {l : Layout}
    (h : mpiSpecs res st np nn ppn ng mf auto mat = .ok sp) (hl : sp.layout = some l) (hnp : ∀ a, np = some a → 0 ≤ a)
    (hnn : ∀ b, nn = some b → 0 ≤ b) :
    Honours nn l.nodes ∧ Honours ppn l.ppn ∧ ∀ a, np = some a → a ≠ 0 → RoundedUp l.nodes a l.procs := by
  cases mf with
  | true =>
    unfold mpiSpecs at h
    split at h
    · cases h
    · simp only [taskPartition, if_true] at h
      cases h
      cases hl
  | false =>
    cases res with
    | some w =>
      obtain ⟨l', h1, _, h2, h3, h4, _⟩ := C52_layout h hnp hnn
      rw [hl] at h1; cases h1
      exact ⟨h2, h3, h4⟩
    | none =>
      have hmin : ∃ nn1, minNodes none np ppn nn ng = .ok nn1 ∧ ∀ b, nn = some b → nn1 = some b := by
        unfold minNodes
        split
        · exact ⟨_, rfl, fun b hb => hb⟩
        · refine ⟨none, ?_, fun b hb => by cases hb⟩
          split <;> rfl
      obtain ⟨nn1, hmin, hb⟩ := hmin
      unfold mpiSpecs prepare at h
      simp only [hmin, adjust'] at h
      split at h
      · cases h
      rename_i np' nn' ppn' g v hp
      split at hp
      · cases hp
      split at hp
      · cases hp
      cases hp
      simp only [taskPartition, Bool.false_eq_true, if_false] at h
      split at h
      · cases h
      rename_i l' hl'
      cases h
      simp only at hl
      subst hl
      generalize hp : partition _ _ _ = o at hl'
      cases o with
      | error e => cases hl'
      | ok l0 =>
        cases hl'
        have hf := C42_honours_partial hp
        exact ⟨fun b hb' hb0 => hf.nodes b (hb b hb') hb0, hf.ppn, fun a ha ha0 => .inl (hf.procs a ha ha0)⟩

/-- Full statement: the numbers that the MPI program reads from the command (the last one counts) are those of the layout that
was checked against the worker's resources.  Proved when the user does not give a number both as an argument and, differently,
in `extra_args`, writes no 0 there, and the processes asked for in `extra_args` divide over the nodes; otherwise it is false
(`C60_both_witness`, `C60_rounded_witness`, `C60_zero_witness`). -/
theorem C60_agrees_partial {r : Runner} (hr : Known r) {res : Option (Avail × List Str)} {p : Plat} {a : Request} {cmd : List Word} {sp : Specs} {l : Layout}
    (h : command r res p a = .ok (cmd, sp)) (hl : sp.layout = some l) (hpl : Plain r a.extra) (hcl : NoClash r p a)
    (hpos : ∀ x v, a.get x = some v → 0 ≤ v) (hpos' : ∀ x v, lastOr none (stated (r.names x) (a.extra.map .lit)) = some v → 0 ≤ v)
    (x : Q) (hx : ∀ v, lastOr none (stated (r.names x) (a.extra.map .lit)) = some v →
      (a.get x = none ∨ a.get x = some v) ∧ v ≠ 0 ∧ (x = .procs → l.nodes ∣ v)) :
    ∀ w, (stated (r.names x) cmd).getLast? = some w → intOf w = some (l.get x) := by
  intro w hw
  obtain ⟨k1, k2⟩ := C60_stated hr h hpl hcl x
  obtain ⟨pa, gw, hs, mf, hpa, hsp, hgw, hplc, _⟩ := command_ok h
  have hscan := fun y => scan_stated hr.ok _ a.extra _ pa (Nat.le_refl _) hpl hpa y
  have hmerge : ∀ y v, merged a pa y = some v → 0 ≤ v := by
    intro y v hv
    unfold merged at hv
    split at hv
    · rename_i u hu
      exact hpos y v (by rw [← hv]; exact hu)
    · rw [(hscan y).1] at hv
      exact hpos' y v hv
  obtain ⟨b1, b2, b3⟩ := specs_honour hsp hl (hmerge .procs) (hmerge .nodes)
  by_cases hE : stated (r.names x) (a.extra.map .lit) = []
  · rcases (k2 hE).1 with e | e
    · rw [e] at hw; cases hw
    · rw [e, hl] at hw
      simp only [Option.map_some, Option.toList_some, List.getLast?_singleton, Option.some.injEq] at hw
      subst hw
      rfl
  · rw [k1 hE] at hw
    have hsome := (hscan x).2.1 w (List.mem_of_getLast? hw)
    obtain ⟨v, hv⟩ := Option.isSome_iff_exists.mp hsome
    have hlast : lastOr none (stated (r.names x) (a.extra.map .lit)) = some v := by simp [lastOr, hw, hv]
    obtain ⟨c1, c2, c3⟩ := hx v hlast
    have hpx : pa x = some v := by rw [(hscan x).1]; exact hlast
    have hm : merged a pa x = some v := by
      unfold merged
      rcases c1 with c1 | c1
      · rw [c1]; exact hpx
      · rw [c1]
    rw [hv]
    congr 1
    cases x with
    | nodes => exact (b1 v hm c2).symm
    | ppn => exact (b2 v hm c2).symm
    | procs =>
      rcases b3 v hm c2 with e | ⟨_, hn, _⟩
      · exact e.symm
      · exact absurd (c3 rfl) hn

/-- The hosts named on the command line are the first nodes of the worker, as many as the layout has. -/
theorem C60_hosts {r : Runner} {w : Avail} {ns : List Str} {p : Plat} {a : Request} {cmd : List Word} {sp : Specs} {l : Layout}
    (h : command r (some (w, ns)) p a = .ok (cmd, sp)) (hw : w.nodes = ns.length) (hl : sp.layout = some l) (h0 : 0 ≤ l.nodes)
    (hn : (userFile r a).isSome = false) :
    (∀ hs, .hosts hs ∈ cmd → hs = ns.take l.nodes.toNat ∧ (hs.length : Int) = l.nodes) ∧
    (r.express = .hosts → Key.hosts ∈ r.parts.map (·.2) → ∃ hs, .hosts hs ∈ cmd) := by
  obtain ⟨pa, gw, hs0, mf, hpa, hsp, hgw, hplc, rfl⟩ := command_ok h
  have hle : l.nodes ≤ w.nodes := by
    rw [hn] at hsp
    simp only [Option.map_some, mpiSpecs] at hsp
    split at hsp
    · cases hsp
    split at hsp
    · cases hsp
    rename_i l' hl'
    cases hsp
    cases hl
    exact (C43_bounds hl').2.1
  have hfile : userFile r a = none := by simpa using hn
  have hpl : ∀ hs, hs0 = some hs → hs = ns.take l.nodes.toNat ∧ (hs.length : Int) = l.nodes := by
    intro hs e
    subst e
    simp only [places, hfile, Option.map_some, hl] at hplc
    split at hplc
    · cases hplc
      have e : hosts ns l = ns.take l.nodes.toNat := by
        unfold hosts upto
        rw [if_neg (by omega)]
      rw [e]
      refine ⟨rfl, ?_⟩
      rw [List.length_take]
      omega
    · split at hplc <;> cases hplc
    · cases hplc
  constructor
  · intro hs hm
    apply hpl
    simp only [formCommand, List.mem_cons, List.mem_append, List.cons_append, List.mem_flatMap] at hm
    rcases hm with hm | ⟨q, hq, hm⟩ | ((hm | hm) | hm)
    · cases hm
    · unfold Dict.words at hm
      split at hm
      · rename_i v hv
        simp only [List.mem_cons, List.not_mem_nil, or_false] at hm
        rcases hm with hm | hm
        · cases hm
        · subst hm
          cases hk : q.2 with
          | hosts => simpa [hk, Dict.word] using hv
          | q y => simp [hk, Dict.word] at hv
          | mfile =>
            simp only [hk, Dict.word] at hv
            rcases places_file hplc _ hv with e | ⟨s, _, e⟩ <;> cases e
          | env => simp [hk, Dict.word] at hv
      · cases hm
    · simp at hm
    · exfalso
      cases hset : sp.setting with
      | none => rw [hset] at hgw; simp only [gpuPart, Except.ok.injEq] at hgw; subst hgw; cases hm
      | some v =>
        rw [hset] at hgw
        simp only [gpuPart, gpuWords] at hgw
        split at hgw
        · cases hgw; cases hm
        · split at hgw
          · cases hgw
          · cases hgw
            unfold gpuOption at hm
            split at hm <;> simp at hm
    · simp at hm
  · intro he hk
    simp only [places, hfile, Option.map_some, hl, he] at hplc
    cases hplc
    refine ⟨hosts ns l, ?_⟩
    simp only [List.mem_map] at hk
    obtain ⟨q, hq, hk⟩ := hk
    simp only [formCommand, List.cons_append, List.mem_cons, List.mem_append, List.mem_flatMap]
    right; left
    exact ⟨q, hq, by simp [Dict.words, hk, Dict.word]⟩

/-- With a machine file of the user (and a runner that supports it) libEnsemble states no number itself, and the file is named. -/
theorem C60_machinefile {r : Runner} (hr : Known r) {res : Option (Avail × List Str)} {p : Plat} {a : Request} {cmd : List Word} {sp : Specs}
    {f : Str} (h : command r res p a = .ok (cmd, sp)) (hf : a.machinefile = some f) (hm : r.mfile = true) (hpl : Plain r a.extra) (hcl : NoClash r p a) :
    (∀ x, stated (r.names x) cmd = stated (r.names x) (a.extra.map .lit)) ∧ (Key.mfile ∈ r.parts.map (·.2) → .lit f ∈ cmd) := by
  obtain ⟨pa, gw, hs0, mf, hpa, hsp, hgw, hplc, hcmd⟩ := command_ok h
  have hfile : userFile r a = some f := by simp [userFile, hm, hf]
  have hlay : sp.layout = none := by
    rw [hfile] at hsp
    simp only [Option.isSome_some, mpiSpecs] at hsp
    split at hsp
    · cases hsp
    · simp only [taskPartition, if_true] at hsp
      cases hsp
      rfl
  constructor
  · intro x
    obtain ⟨k1, k2⟩ := C60_stated hr h hpl hcl x
    by_cases hE : stated (r.names x) (a.extra.map .lit) = []
    · rcases (k2 hE).1 with e | e
      · rw [e, hE]
      · rw [e, hlay, hE]; rfl
    · exact k1 hE
  · intro hk
    subst hcmd
    have : mf = some (.lit f) := by
      simp only [places, hfile] at hplc
      cases hplc
      rfl
    simp only [List.mem_map] at hk
    obtain ⟨q, hq, hk⟩ := hk
    simp only [formCommand, List.cons_append, List.mem_cons, List.mem_append, List.mem_flatMap]
    right; left
    exact ⟨q, hq, by simp [Dict.words, hk, Dict.word, this]⟩

/-! ### Examples and witnesses -/

/-- A worker with one set on each of two nodes: 8 cores and 4 GPUs per node, two sets per node. -/
def cmdW : Avail := { nodes := 2, slotCount := some 1, matching := true, rsets := 2, cores := 8, enforce := true, procsPer := 4, gpusPer := 2, gpus := true }

def cmdNodes : List Str := ["a".toList, "b".toList]

/-- Words of a text. -/
def words (l : List String) : List Str := l.map String.toList

theorem mpich_known : Known mpich := ⟨mpich, by simp [runners], "mpirun".toList, by decide, rfl⟩
theorem srun_known : Known srun := ⟨srun, by simp [runners], "srun".toList, by decide, rfl⟩

/-- Decidable form of `Plain`. -/
def plainB (r : Runner) (ws : List Str) : Bool :=
  ws.all fun w => decide (w ≠ ['-', '-']) && (decide (classify r.opts w = .pos) || decide (classify r.opts w = .skip) ||
    Q.list.any fun x => decide (w ∈ r.names x))

theorem plainB_sound {r : Runner} {ws : List Str} (h : plainB r ws = true) : Plain r ws := by
  intro w hw
  have := List.all_eq_true.mp h w hw
  simp only [Bool.and_eq_true, Bool.or_eq_true, decide_eq_true_eq, List.any_eq_true] at this
  refine ⟨this.1, ?_⟩
  rcases this.2 with (h | h) | ⟨x, _, h⟩
  · exact .inl h
  · exact .inr (.inl h)
  · exact .inr (.inr ⟨x, h⟩)

/-- Six processes asked for in `extra_args`, with an option that libEnsemble does not know; GPUs are added by srun's option.  The hypotheses
of the theorems above hold. -/
theorem cmd_demo : (command srun (some (cmdW, cmdNodes)) {} { extra := words ["-n", "6", "--mem", "3"], ng := some 2 }).toOption.map (·.1) =
      some [.lit "srun".toList, .lit "-w".toList, .hosts cmdNodes, .lit "--nodes".toList, .num 2, .lit "--ntasks-per-node".toList, .num 3,
        .lit "-n".toList, .lit "6".toList, .lit "--mem".toList, .lit "3".toList, .lit "--gpus-per-task".toList, .num 0, .lit "--exact".toList] ∧
    (command srun (some (cmdW, cmdNodes)) {} { extra := words ["-n", "6", "--mem", "3"], ng := some 2 }).toOption.map (·.2.layout) = some (some ⟨6, 2, 3⟩) ∧
    plainB srun (words ["-n", "6", "--mem", "3"]) = true ∧
    (command mpich (some (cmdW, cmdNodes)) {} { np := some 4, nn := some 2 }).toOption.map (·.1) =
      some [.lit "mpirun".toList, .lit "-hosts".toList, .hosts cmdNodes, .lit "-np".toList, .num 4, .lit "--ppn".toList, .num 2] := by
  decide +kernel

/-- `C60_agrees_partial` applies to the first command of `cmd_demo`, for each quantity. -/
example : ∃ cmd sp, command srun (some (cmdW, cmdNodes)) {} { extra := words ["-n", "6", "--mem", "3"], ng := some 2 } = .ok (cmd, sp) ∧
    ∀ x w, (stated (srun.names x) cmd).getLast? = some w → intOf w = some (Layout.get ⟨6, 2, 3⟩ x) := by
  obtain ⟨_, h2, h3, _⟩ := cmd_demo
  generalize hc : command srun (some (cmdW, cmdNodes)) {} { extra := words ["-n", "6", "--mem", "3"], ng := some 2 } = c at h2
  cases c with
  | error e => cases h2
  | ok c =>
    refine ⟨c.1, c.2, rfl, fun x => ?_⟩
    have hl : c.2.layout = some ⟨6, 2, 3⟩ := by simpa [Except.toOption] using h2
    have hE : ∀ x, lastOr none (stated (srun.names x) ((words ["-n", "6", "--mem", "3"]).map .lit)) = if x = .procs then some 6 else none := by
      intro x; cases x <;> decide +kernel
    refine C60_agrees_partial srun_known hc hl (plainB_sound h3) (fun x => ⟨by simp, by simp⟩) (fun x v hv => by cases x <;> cases hv) ?_ x ?_
    · intro x v hv
      rw [hE] at hv
      split at hv
      · cases hv; decide
      · cases hv
    · intro v hv
      rw [hE] at hv
      split at hv
      · cases hv
        refine ⟨.inl (by cases x <;> rfl), by decide, fun _ => by decide⟩
      · cases hv

/-- Processes given both ways: the layout has those of the argument, the command those of `extra_args`. -/
theorem C60_both_witness :
    (command mpich (some (cmdW, cmdNodes)) {} { np := some 4, extra := words ["-n", "8"] }).toOption.map (fun c => (stated (mpich.names .procs) c.1, c.2.layout)) =
      some ([.lit "8".toList], some ⟨4, 1, 4⟩) := by decide +kernel

/-- Three processes on two nodes are rounded up to four in the layout, two per node; the command still says three. -/
theorem C60_rounded_witness :
    (command srun (some (cmdW, cmdNodes)) {} { nn := some 2, extra := words ["-n", "3"] }).toOption.map
      (fun c => (stated (srun.names .procs) c.1, stated (srun.names .nodes) c.1, stated (srun.names .ppn) c.1, c.2.layout)) =
      some ([.lit "3".toList], [.num 2], [.num 2], some ⟨4, 2, 2⟩) := by decide +kernel

/-- `-n 0` counts as omitted for the layout, but stays on the command line. -/
theorem C60_zero_witness :
    (command srun (some (cmdW, cmdNodes)) {} { extra := words ["-n", "0"] }).toOption.map (fun c => (stated (srun.names .procs) c.1, c.2.layout)) =
      some ([.lit "0".toList], some ⟨8, 2, 4⟩) := by decide +kernel

/-- Two GPUs for six processes: one GPU per node is granted, but the option says 0 GPUs per task. -/
theorem C60_task_gpus_witness :
    (command srun (some (cmdW, cmdNodes)) {} { np := some 6, ng := some 2 }).toOption.map (fun c => (stated ["--gpus-per-task".toList] c.1, c.2.gpusPerNode)) =
      some ([.num 0], some 1) := by decide +kernel

/-- `-hosts` in `extra_args` is taken for `-h`: argparse ends the program. -/
theorem C60_help_witness : command mpich (some (cmdW, cmdNodes)) {} { np := some 2, extra := words ["-hosts", "a"] } = .error .exit := by
  have : ∀ e : Except CErr PArgs, (match e with | .error .exit => true | _ => false) = true → e = .error .exit := by
    intro e h
    split at h
    · rfl
    · cases h
  have : parseExtra mpich (words ["-hosts", "a"]) = .error .exit := this _ (by decide +kernel)
  simp [command, this]

/-- A GPU option named by the platform is refused for runners that have no default option of their own. -/
theorem C60_gpu_name_witness (v : Int) : gpuPart mpich { type := some .perNode, name := some "--gpus=".toList } (some v) = .error .noGpuOption := rfl

end Verif.Mpi
