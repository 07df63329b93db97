import Verif.CopyBack.Model

/-!
# C84 — results are copied back
-/

namespace Verif.CopyBack
open Verif.Labels (Str Opts Calc stem str rjust)

/-! ### Specification -/

/-- The content of a file: the file `n` (`p = none`), or the file `p` in the directory `n`. -/
def content : Option Entry → Option Nat → Option Nat
  | some (.file c), none => some c
  | some (.dir f), some q => f q
  | _, _ => none

/-- Everything in the first is in the second, for the names and paths in `T`. -/
def Saved (T : Str → Option Nat → Prop) (ens back : Store) : Prop :=
  ∀ n p c, T n p → content (ens n) p = some c → content (back n) p = some c

/-- All workers that have done something have ended. -/
def Over (s : St) : Prop := ∀ w, s.regs w ≠ [] → s.done w = true

/-! ### Copies keep what is there -/

theorem copyDir_has (ov : Bool) (src dst : Option Entry) (p : Option Nat) (c : Nat) (h : content src p = some c) :
    content (copyDir ov src dst) p = some c := by
  cases src with
  | none => cases p <;> simp [content] at h
  | some e =>
    cases e with
    | file x => simpa [copyDir] using h
    | dir f =>
      cases dst with
      | none => simpa [copyDir] using h
      | some d =>
        cases d with
        | file y => simpa [copyDir] using h
        | dir g =>
          cases p with
          | none => simp [content] at h
          | some q =>
            simp only [content] at h
            cases ov <;> simp [copyDir, content, h]

theorem copyEntry_has (ov : Bool) (src dst : Option Entry) (p : Option Nat) (c : Nat) (h : content src p = some c)
    (hk : content dst p = some c ∨ p = none ∨ ov = true) : content (copyEntry ov src dst) p = some c := by
  cases src with
  | none => cases p <;> simp [content] at h
  | some e =>
    cases e with
    | file x => simpa [copyEntry] using h
    | dir f =>
      cases ov with
      | true => simpa [copyEntry] using h
      | false =>
        rcases hk with hk | hk | hk
        · cases dst with
          | none => simpa [copyEntry] using h
          | some d => simpa [copyEntry] using hk
        · subst hk; simp [content] at h
        · cases hk

theorem copyRegs_keep (ov : Bool) (ens : Store) (n : Str) (p : Option Nat) (c : Nat) (h : content (ens n) p = some c) (rs : List Reg) :
    ∀ b : Store, content (b n) p = some c → content ((copyRegs ov ens rs b).1 n) p = some c := by
  have one : ∀ (b : Store) (m : Str), content (b n) p = some c →
      content ((if n = m then copyDir ov (ens m) (b m) else b n)) p = some c := by
    intro b m hb
    split
    · next hm => subst hm; exact copyDir_has ov _ _ p c h
    · exact hb
  induction rs with
  | nil => intro b hb; exact hb
  | cons r rs ih =>
    intro b hb
    cases r with
    | ens => exact ih b hb
    | worker m => exact one b m hb
    | own m => exact ih _ (one b m hb)
    | inner m => exact ih _ (one b m hb)

theorem copyRegs_calc (ov : Bool) (ens : Store) (n : Str) (p : Option Nat) (c : Nat) (h : content (ens n) p = some c) (rs : List Reg)
    (hw : ∀ r ∈ rs, ∀ m, r ≠ .worker m) : ∀ b : Store, .own n ∈ rs → content ((copyRegs ov ens rs b).1 n) p = some c := by
  induction rs with
  | nil => intro b hm; cases hm
  | cons r rs ih =>
    intro b hm
    have hw' : ∀ r ∈ rs, ∀ m, r ≠ .worker m := fun r hr => hw r (by simp [hr])
    have key : ∀ b' : Store, (Reg.own n ∈ rs ∨ content (b' n) p = some c) → content ((copyRegs ov ens rs b').1 n) p = some c := by
      intro b' hor
      rcases hor with hor | hor
      · exact ih hw' b' hor
      · exact copyRegs_keep ov ens n p c h rs b' hor
    cases r with
    | ens => exact key b (Or.inl (by simpa using hm))
    | worker m => exact absurd rfl (hw (.worker m) (by simp) m)
    | inner m => exact key _ (Or.inl (by simpa using hm))
    | own m =>
      refine key _ ?_
      rcases List.mem_cons.1 hm with heq | hm
      · injection heq with heq
        subst heq
        right
        rw [if_pos rfl]
        exact copyDir_has ov _ _ p c h
      · exact Or.inl hm

theorem copyBack_keep (cf : Conf) (ens : Store) (regs : List Reg) (b : Store) (n : Str) (p : Option Nat) (c : Nat) (h : content (ens n) p = some c)
    (hb : content (b n) p = some c) : content (copyBack cf ens regs b n) p = some c := by
  unfold copyBack
  split
  · exact hb
  · have hk := copyRegs_keep cf.overwrite ens n p c h regs b hb
    cases hr : copyRegs cf.overwrite ens regs b with
    | mk b' t =>
      rw [hr] at hk
      cases t with
      | true => exact hk
      | false =>
        dsimp only
        split
        · exact hk
        · dsimp only
          split
          · exact hk
          · exact copyEntry_has _ _ _ p c h (Or.inl hk)

/-! ### What is registered -/

def wname (w : Nat) : Str := stem ("worker".toList ++ str w)

/-- The directories of a worker. -/
structure RegOk (cf : Conf) (w : Nat) (regs : List Reg) : Prop where
  worker : cf.o.workerDirs = true → (regs = [] ∨ ∃ rest, regs = .worker (wname w) :: rest) ∧ ∀ r ∈ regs, r = .worker (wname w) ∨ ∃ n, r = .inner n
  loose : cf.o.workerDirs = false → ∀ r ∈ regs, r = .ens ∨ ∃ n, r = .own n
  both : (cf.o.simDirs && cf.o.genDirs) = true → .ens ∉ regs

theorem calcDirs_both (o : Opts) (h : (o.simDirs && o.genDirs) = true) (c : Calc) : o.calcDirs c = true := by
  rw [Bool.and_eq_true] at h
  cases c <;> simp [Opts.calcDirs, h.1, h.2]

theorem regOk_register {cf : Conf} {w : Nat} {regs : List Reg} (h : RegOk cf w regs) (c : Calc) : RegOk cf w (register regs (regsFor cf w c)) := by
  obtain ⟨h1, h2, h3⟩ := h
  have hcd := calcDirs_both cf.o (c := c)
  unfold regsFor
  constructor
  · intro hw
    obtain ⟨ha, hb⟩ := h1 hw
    simp only [hw, if_true]
    have add : ∀ (l : List Reg), (∃ rest, l = .worker (wname w) :: rest) → (∀ r ∈ l, r = .worker (wname w) ∨ ∃ n, r = .inner n) → ∀ n,
        (∃ rest, (if Reg.inner n ∈ l then l else l ++ [.inner n]) = .worker (wname w) :: rest) ∧
        ∀ r ∈ (if Reg.inner n ∈ l then l else l ++ [.inner n]), r = .worker (wname w) ∨ ∃ n, r = .inner n := by
      intro l hl hall n
      split
      · exact ⟨hl, hall⟩
      · obtain ⟨rest, rfl⟩ := hl
        refine ⟨⟨rest ++ [.inner n], rfl⟩, fun r hr => ?_⟩
        rcases List.mem_append.1 hr with hr | hr
        · exact hall r hr
        · exact Or.inr ⟨n, List.mem_singleton.1 hr⟩
    have first : (∃ rest, (if Reg.worker (wname w) ∈ regs then regs else regs ++ [.worker (wname w)]) = .worker (wname w) :: rest) ∧
        ∀ r ∈ (if Reg.worker (wname w) ∈ regs then regs else regs ++ [.worker (wname w)]), r = .worker (wname w) ∨ ∃ n, r = .inner n := by
      rcases ha with rfl | ⟨rest, rfl⟩
      · simp
      · rw [if_pos (by simp)]
        exact ⟨⟨rest, rfl⟩, hb⟩
    split
    · have := add _ first.1 first.2 (stem (c.name ++ rjust cf.o.pad c.text))
      exact ⟨Or.inr this.1, this.2⟩
    · exact ⟨Or.inr first.1, first.2⟩
  · intro hw r hr
    simp only [hw, Bool.false_eq_true, if_false] at hr
    have key : ∀ x : Reg, (x = .ens ∨ ∃ n, x = .own n) → r ∈ register regs [x] → r = .ens ∨ ∃ n, r = .own n := by
      intro x hx hr
      simp only [register, List.foldl_cons, List.foldl_nil] at hr
      split at hr
      · exact h2 hw r hr
      · rcases List.mem_append.1 hr with hr | hr
        · exact h2 hw r hr
        · rw [List.mem_singleton.1 hr]; exact hx
    split at hr
    · exact key _ (Or.inr ⟨_, rfl⟩) hr
    · exact key _ (Or.inl rfl) hr
  · intro hb hm
    have h3' := h3 hb
    simp only [hcd hb, if_true] at hm
    have key : ∀ (l : List Reg) (x : Reg), x ≠ .ens → Reg.ens ∉ l → Reg.ens ∉ (if x ∈ l then l else l ++ [x]) := by
      intro l x hx hl
      split
      · exact hl
      · intro hm
        rcases List.mem_append.1 hm with hm | hm
        · exact hl hm
        · exact hx (List.mem_singleton.1 hm).symm
    split at hm
    · exact key _ _ (by simp) (key _ _ (by simp) h3') hm
    · exact key _ _ (by simp) h3' hm

theorem may_register {regs : List Reg} {n : Str} (h : may regs n = true) (new : List Reg) : may (register regs new) n = true := by
  unfold register
  induction new generalizing regs with
  | nil => exact h
  | cons r new ih =>
    rw [List.foldl_cons]
    apply ih
    split
    · exact h
    · unfold may at h ⊢
      rw [List.any_append, h]
      rfl

/-! ### All steps -/

/-- A worker that ends copies what it may have written. -/
def Copies (cf : Conf) (T : Str → Option Nat → Prop) : Prop :=
  ∀ (ens : Store) (w : Nat) (regs : List Reg) (b : Store) (n : Str) (p : Option Nat) (c : Nat), RegOk cf w regs → T n p → may regs n = true →
    content (ens n) p = some c → content (copyBack cf ens regs b n) p = some c

structure Inv (cf : Conf) (T : Str → Option Nat → Prop) (s : St) : Prop where
  regs : ∀ w, RegOk cf w (s.regs w)
  saved : ∀ n p c, T n p → content (s.ens n) p = some c → (∃ w, s.done w = false ∧ may (s.regs w) n = true) ∨ content (s.back n) p = some c

theorem inv_step {cf : Conf} {T : Str → Option Nat → Prop} (hT : Copies cf T) {s : St} (h : Inv cf T s) (x : Step) : Inv cf T (step cf s x) := by
  have wr : ∀ (w : Nat) (n : Str) (e : Option Entry), s.done w = false → may (s.regs w) n = true →
      Inv cf T { s with ens := fun m => if m = n then e else s.ens m } := by
    intro w n e hd hm
    refine ⟨h.regs, fun m p c ht hc => ?_⟩
    dsimp only at hc ⊢
    split at hc
    · next he => subst he; exact Or.inl ⟨w, hd, hm⟩
    · exact h.saved m p c ht hc
  cases x with
  | call w c =>
    simp only [step]
    split
    · exact h
    · refine ⟨fun v => ?_, fun n p c' ht hc => ?_⟩
      · dsimp only
        split
        · next he => subst he; exact regOk_register (h.regs v) c
        · exact h.regs v
      · rcases h.saved n p c' ht hc with ⟨v, hd, hm⟩ | hb
        · refine Or.inl ⟨v, hd, ?_⟩
          dsimp only
          split
          · next he => subst he; exact may_register hm _
          · exact hm
        · exact Or.inr hb
  | write w n p c =>
    simp only [step]
    split
    · next hg =>
      cases he : s.ens n with
      | none => exact wr w n _ hg.1 hg.2
      | some e =>
        cases e with
        | file x => exact h
        | dir f => exact wr w n _ hg.1 hg.2
    · exact h
  | put w n c =>
    simp only [step]
    split
    · next hg =>
      have hm : may (s.regs w) n = true := List.any_eq_true.2 ⟨_, hg.2, rfl⟩
      cases he : s.ens n with
      | none => exact wr w n _ hg.1 hm
      | some e =>
        cases e with
        | file x => exact wr w n _ hg.1 hm
        | dir f => exact h
    · exact h
  | finish w =>
    simp only [step]
    split
    · exact h
    · refine ⟨h.regs, fun n p c ht hc => ?_⟩
      dsimp only at hc ⊢
      rcases h.saved n p c ht hc with ⟨v, hd, hm⟩ | hb
      · by_cases hv : v = w
        · subst hv
          exact Or.inr (hT s.ens v (s.regs v) s.back n p c (h.regs v) ht hm hc)
        · exact Or.inl ⟨v, by rw [if_neg hv]; exact hd, hm⟩
      · exact Or.inr (copyBack_keep cf s.ens _ _ n p c hc hb)

theorem inv_run {cf : Conf} {T : Str → Option Nat → Prop} (hT : Copies cf T) (ss : List Step) : Inv cf T (run cf ss) := by
  have h0 : Inv cf T ({} : St) := by
    refine ⟨fun w => ⟨fun _ => ⟨Or.inl rfl, fun r hr => by cases hr⟩, fun _ r hr => (by cases hr), fun _ hr => (by cases hr)⟩, fun n p c _ hc => ?_⟩
    cases p <;> simp [content] at hc
  have : ∀ (ss : List Step) (s : St), Inv cf T s → Inv cf T (ss.foldl (step cf) s) := by
    intro ss
    induction ss with
    | nil => intro s h; exact h
    | cons x ss ih => intro s h; exact ih _ (inv_step hT h x)
  exact this ss _ h0

theorem saved_run {cf : Conf} {T : Str → Option Nat → Prop} (hT : Copies cf T) (ss : List Step) (h : Over (run cf ss)) :
    Saved T (run cf ss).ens (run cf ss).back := by
  intro n p c ht hc
  rcases (inv_run hT ss).saved n p c ht hc with ⟨w, hd, hm⟩ | hb
  · have : (run cf ss).regs w ≠ [] := by intro he; rw [he] at hm; simp [may] at hm
    rw [h w this] at hd; cases hd
  · exact hb

/-! ### C84 -/

theorem copies_own (cf : Conf) (h : cf.o.workerDirs = true ∨ (cf.o.simDirs && cf.o.genDirs) = true) : Copies cf (fun _ _ => True) := by
  intro ens w regs b n p c hr _ hm hc
  have hne : regs ≠ [] := by intro he; rw [he] at hm; simp [may] at hm
  unfold copyBack
  rw [if_neg hne]
  cases hw : cf.o.workerDirs with
  | true =>
    obtain ⟨ha, hb⟩ := hr.worker hw
    rcases ha with he | ⟨rest, he⟩
    · exact absurd he hne
    · subst he
      have hn : n = wname w := by
        obtain ⟨r, hr1, hr2⟩ := List.any_eq_true.1 hm
        rcases hb r hr1 with rfl | ⟨m, rfl⟩
        · exact (of_decide_eq_true hr2).symm
        · cases hr2
      subst hn
      simp only [copyRegs, if_true]
      exact copyDir_has _ _ _ p c hc
  | false =>
    have hboth : (cf.o.simDirs && cf.o.genDirs) = true := by 
      rcases h with h | h
      · rw [hw] at h; cases h
      · exact h
    have hall := hr.loose hw
    have hens := hr.both hboth
    have hmem : Reg.own n ∈ regs := by
      obtain ⟨r, hr1, hr2⟩ := List.any_eq_true.1 hm
      rcases hall r hr1 with rfl | ⟨m, rfl⟩
      · exact absurd hr1 hens
      · rw [← of_decide_eq_true hr2]; exact hr1
    have hk := copyRegs_calc cf.overwrite ens n p c hc regs (fun r hr m he => by
      rcases hall r hr with h | ⟨m', h⟩ <;> rw [h] at he <;> cases he) b hmem
    cases hcr : copyRegs cf.overwrite ens regs b with
    | mk b' t =>
      rw [hcr] at hk
      cases t with
      | true => exact hk
      | false => dsimp only; rw [if_pos hboth]; exact hk

/-- **C84**, every worker or every calculation has its directory: when all workers have ended, everything they wrote is in the copy, with its last content. -/
theorem C84_own (cf : Conf) (h : cf.o.workerDirs = true ∨ (cf.o.simDirs && cf.o.genDirs) = true) (ss : List Step) (ho : Over (run cf ss)) :
    Saved (fun _ _ => True) (run cf ss).ens (run cf ss).back := saved_run (copies_own cf h) ss ho

theorem regs_noworker (cf : Conf) (hw : cf.o.workerDirs = false) (ov : Bool) (ens : Store) (w : Nat) (regs : List Reg) (hr : RegOk cf w regs) :
    ∀ b, (copyRegs ov ens regs b).2 = false := by
  have hall := hr.loose hw
  clear hr
  induction regs with
  | nil => intro b; rfl
  | cons r rs ih =>
    intro b
    have ih' := ih fun r hr => hall r (by simp [hr])
    rcases hall r (by simp) with rfl | ⟨n, rfl⟩
    · exact ih' b
    · exact ih' _

theorem copies_shared (cf : Conf) (hw : cf.o.workerDirs = false) (hb : (cf.o.simDirs && cf.o.genDirs) = false) (T : Str → Option Nat → Prop)
    (hT : ∀ n p, T n p → calcName n = false ∧ (p = none ∨ cf.overwrite = true)) : Copies cf T := by
  intro ens w regs b n p c hr ht hm hc
  obtain ⟨hn, hp⟩ := hT n p ht
  have hne : regs ≠ [] := by intro he; rw [he] at hm; simp [may] at hm
  unfold copyBack
  rw [if_neg hne]
  have h2 := regs_noworker cf hw cf.overwrite ens w regs hr b
  cases hcr : copyRegs cf.overwrite ens regs b with
  | mk b' t =>
    rw [hcr] at h2
    dsimp only at h2
    subst h2
    simp only [hb, Bool.false_eq_true, if_false, hn]
    exact copyEntry_has _ _ _ p c hc (Or.inr hp)

/-- A name that begins with `sim` or `gen` and a digit. -/
def LikeCalc (n : Str) : Prop := ∃ d rest, d.isDigit = true ∧ (n = "sim".toList ++ d :: rest ∨ n = "gen".toList ++ d :: rest)

theorem calcName_iff (n : Str) : calcName n = true ↔ LikeCalc n := by
  constructor
  · intro h
    unfold calcName at h
    split at h
    · exact ⟨_, _, h, Or.inl rfl⟩
    · exact ⟨_, _, h, Or.inr rfl⟩
    · cases h
  · rintro ⟨d, rest, hd, rfl | rfl⟩
    · exact hd
    · exact hd

/-- **C84**, a shared ensemble directory: files in it are in the copy with their last content, unless their names begin like those of calculations; what is in
its directories only if `reuse_output_dir` is set. -/
theorem C84_shared_partial (cf : Conf) (hw : cf.o.workerDirs = false) (hb : (cf.o.simDirs && cf.o.genDirs) = false) (ss : List Step)
    (ho : Over (run cf ss)) :
    Saved (fun n p => ¬ LikeCalc n ∧ (p = none ∨ cf.overwrite = true)) (run cf ss).ens (run cf ss).back :=
  saved_run (copies_shared cf hw hb _ fun n _ h => ⟨by
    cases hc : calcName n with
    | false => rfl
    | true => exact absurd ((calcName_iff n).1 hc) h.1, h.2⟩) ss ho

def sharedConf (ov : Bool) : Conf := ⟨⟨[], false, false, false, 4⟩, ov⟩

/-- A file whose name begins with `sim` or `gen` and a digit is not copied. -/
theorem C84_name_witness (ov : Bool) : ∀ n ∈ ["sim0.out".toList, "gen1.log".toList],
    let s := run (sharedConf ov) [.call 1 (.sim [0]), .put 1 n 7, .finish 1]
    s.done 1 = true ∧ content (s.ens n) none = some 7 ∧ content (s.back n) none = none := by
  cases ov <;> decide

/-- What a worker writes into a directory after another worker has ended is not copied. -/
theorem C84_later_witness :
    let s := run (sharedConf false) [.call 1 (.sim [0]), .call 2 (.sim [1]), .write 1 "plots".toList 1 10, .finish 1, .write 2 "plots".toList 2 20, .finish 2]
    s.done 1 = true ∧ s.done 2 = true ∧ content (s.ens "plots".toList) (some 2) = some 20 ∧ content (s.back "plots".toList) (some 2) = none ∧
      content (s.back "plots".toList) (some 1) = some 10 := by decide

/-- The same steps with `reuse_output_dir`: all is copied. -/
example : content ((run (sharedConf true) [.call 1 (.sim [0]), .call 2 (.sim [1]), .write 1 "plots".toList 1 10, .finish 1, .write 2 "plots".toList 2 20,
    .finish 2]).back "plots".toList) (some 2) = some 20 := by decide

/-- Two workers with directories for calculations; both write into the directory of generator calls. -/
example : let s := run ⟨⟨[], false, true, true, 4⟩, false⟩ [.call 1 (.gen 1), .write 1 "gen0001".toList 1 10, .call 2 (.gen 1), .finish 1,
    .write 2 "gen0001".toList 1 11, .finish 2]
    content (s.back "gen0001".toList) (some 1) = some 11 := by decide

/-- Every file in the copy was in the ensemble directory at the same place: nothing is made up. -/
theorem C84_only (cf : Conf) (ss : List Step) (n : Str) (p : Option Nat) (c : Nat) (h : content ((run cf ss).back n) p = some c) :
    ∃ pre, pre <+: ss ∧ content ((run cf pre).ens n) p = some c := by
  have key : ∀ (ens : Store) (regs : List Reg) (b : Store), content (copyBack cf ens regs b n) p = some c →
      content (ens n) p = some c ∨ content (b n) p = some c := by
    intro ens regs b hc
    have cd : ∀ dst, content (copyDir cf.overwrite (ens n) dst) p = some c → content (ens n) p = some c ∨ content dst p = some c := by
      intro dst hc
      cases he : ens n with
      | none => rw [he] at hc; right; simpa [copyDir] using hc
      | some e =>
        rw [he] at hc
        cases e with
        | file x => left; simpa [copyDir] using hc
        | dir f =>
          cases dst with
          | none => left; simpa [copyDir] using hc
          | some d =>
            cases d with
            | file y => left; simpa [copyDir] using hc
            | dir g =>
              cases ho : cf.overwrite with
              | true => left; simpa [copyDir, ho] using hc
              | false =>
                cases p with
                | none => simp [copyDir, ho, content] at hc
                | some q =>
                  simp only [copyDir, ho, content, Bool.false_eq_true, if_false] at hc ⊢
                  cases hf : f q with
                  | none => rw [hf] at hc; right; simpa using hc
                  | some y => rw [hf] at hc; left; simpa using hc
    have cr : ∀ (rs : List Reg) (b : Store), content ((copyRegs cf.overwrite ens rs b).1 n) p = some c →
        content (ens n) p = some c ∨ content (b n) p = some c := by
      intro rs
      induction rs with
      | nil => intro b hc; exact Or.inr hc
      | cons r rs ih =>
        intro b hc
        have one : ∀ m, content (if n = m then copyDir cf.overwrite (ens m) (b m) else b n) p = some c →
            content (ens n) p = some c ∨ content (b n) p = some c := by
          intro m hc
          split at hc
          · next he => subst he; exact cd _ hc
          · exact Or.inr hc
        cases r with
        | ens => exact ih b hc
        | worker m => exact one m hc
        | own m => 
          rcases ih _ hc with h | h
          · exact Or.inl h
          · exact one m h
        | inner m => 
          rcases ih _ hc with h | h
          · exact Or.inl h
          · exact one m h
    unfold copyBack at hc
    split at hc
    · exact Or.inr hc
    · have hcr := cr regs b
      cases hr : copyRegs cf.overwrite ens regs b with
      | mk b' t =>
        rw [hr] at hc hcr
        cases t with
        | true => exact hcr hc
        | false =>
          dsimp only at hc hcr
          split at hc
          · exact hcr hc
          · dsimp only at hc
            split at hc
            · exact hcr hc
            · cases he : ens n with
              | none => rw [he] at hc hcr; exact hcr (by simpa [copyEntry] using hc)
              | some e =>
                cases e with
                | file x => left; rw [he] at hc; simpa [copyEntry] using hc
                | dir f =>
                  rw [he] at hc hcr
                  cases ho : cf.overwrite with
                  | true => left; simpa [copyEntry, ho] using hc
                  | false =>
                    cases hd : b' n with
                    | none => left; simpa [copyEntry, ho, hd] using hc
                    | some d => apply hcr; simpa [copyEntry, ho, hd] using hc
  have main : ∀ (rev : List Step), content ((run cf rev.reverse).back n) p = some c → ∃ pre, pre <+: rev.reverse ∧ content ((run cf pre).ens n) p = some c := by
    intro rev
    induction rev with
    | nil => intro hc; cases p <;> simp [run, content] at hc
    | cons x rev ih =>
      intro hc
      rw [List.reverse_cons] at hc ⊢
      have ext : content ((run cf rev.reverse).back n) p = some c → ∃ pre, pre <+: rev.reverse ++ [x] ∧ content ((run cf pre).ens n) p = some c := by
        intro h
        obtain ⟨pre, h1, h2⟩ := ih h
        exact ⟨pre, h1.trans (List.prefix_append _ _), h2⟩
      have hrun : run cf (rev.reverse ++ [x]) = step cf (run cf rev.reverse) x := by simp [run, List.foldl_append]
      rw [hrun] at hc
      cases x with
      | call w cc => simp only [step] at hc; split at hc <;> exact ext hc
      | write w m q v =>
        simp only [step] at hc
        split at hc
        · split at hc <;> exact ext hc
        · exact ext hc
      | put w m v =>
        simp only [step] at hc
        split at hc
        · split at hc <;> exact ext hc
        · exact ext hc
      | finish w =>
        simp only [step] at hc
        split at hc
        · exact ext hc
        · rcases key _ _ _ hc with h | h
          · exact ⟨rev.reverse, List.prefix_append _ _, h⟩
          · exact ext h
  have := main ss.reverse (by rw [List.reverse_reverse]; exact h)
  rwa [List.reverse_reverse] at this

end Verif.CopyBack
