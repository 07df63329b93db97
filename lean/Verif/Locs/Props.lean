import Verif.Locs.Model
/-!
C48: the working directory is restored.
-/
namespace Verif.Locs

variable {P N K : Type} [DecidableEq P] [DecidableEq K] {resolve : P → N → P}

/-! ### Specification -/

/-- The program changes the directory only inside `with` blocks that name a directory. -/
def Tidy : Prog P N K → Prop
  | .chdir _ => False
  | .seq p q => Tidy p ∧ Tidy q
  | .catch p q => Tidy p ∧ Tidy q
  | .inDir none p => Tidy p
  | .inDir (some _) _ => True
  | .inLoc _ p => Tidy p
  | _ => True

/-- No directory is removed. -/
def Keeps : Prog P N K → Prop
  | .files f => ∀ p, f p true = true
  | .seq p q => Keeps p ∧ Keeps q
  | .catch p q => Keeps p ∧ Keeps q
  | .inDir _ p => Keeps p
  | .inLoc _ p => Keeps p
  | _ => True

/-- A name that means the same everywhere (an absolute path). -/
def Fixed (resolve : P → N → P) (n : N) : Prop := ∀ c c', resolve c n = resolve c' n

/-- Registered names are absolute paths; names given to `with` blocks satisfy `G`. -/
def Names (resolve : P → N → P) (G : N → Prop) : Prog P N K → Prop
  | .register _ n => Fixed resolve n
  | .seq p q => Names resolve G p ∧ Names resolve G q
  | .catch p q => Names resolve G p ∧ Names resolve G q
  | .inDir d p => (∀ n, d = some n → G n) ∧ Names resolve G p
  | .inLoc _ p => Names resolve G p
  | _ => True

/-! ### Helper lemmas -/

theorem push_cases (s : St P N K) (d : Option N) :
    (d = none ∧ push resolve s d = ({ s with stack := none :: s.stack }, .ok)) ∨
    (∃ n, d = some n ∧ s.dirs s.cwd = true ∧ s.dirs (resolve s.cwd n) = true ∧
      push resolve s d = ({ s with stack := some s.cwd :: s.stack, cwd := resolve s.cwd n }, .ok)) ∨
    (∃ n, d = some n ∧ s.dirs (resolve s.cwd n) = false ∧
      push resolve s d = ({ s with stack := some s.cwd :: s.stack, slips := s.slips + 1 }, .raised)) ∨
    (∃ n, d = some n ∧ s.dirs s.cwd = false ∧ push resolve s d = (s, .raised)) := by
  cases d with
  | none => exact .inl ⟨rfl, rfl⟩
  | some n =>
    right
    unfold push
    cases h1 : s.dirs s.cwd <;> cases h2 : s.dirs (resolve s.cwd n) <;> simp_all

theorem leave_slips (r : St P N K × Ended) : r.1.slips ≤ (leave r).1.slips := by
  unfold leave pop
  cases h : r.1.stack with
  | nil => simp
  | cons e st =>
    cases e with
    | none => simp
    | some p => by_cases hd : r.1.dirs p = true <;> simp [hd]

theorem within_slips {s : St P N K} {d : Option N} {body : St P N K → St P N K × Ended} (h : ∀ s, s.slips ≤ (body s).1.slips) :
    s.slips ≤ (within resolve s d body).1.slips := by
  unfold within
  rcases push_cases (resolve := resolve) s d with ⟨_, e⟩ | ⟨n, _, _, _, e⟩ | ⟨n, _, _, e⟩ | ⟨n, _, _, e⟩
  · rw [e]; exact Nat.le_trans (h { s with stack := none :: s.stack }) (leave_slips (body { s with stack := none :: s.stack }))
  · rw [e]; exact Nat.le_trans (h { s with stack := some s.cwd :: s.stack, cwd := resolve s.cwd n })
      (leave_slips (body { s with stack := some s.cwd :: s.stack, cwd := resolve s.cwd n }))
  · rw [e]; exact Nat.le_succ _
  · rw [e]; exact Nat.le_refl _

theorem run_slips : ∀ (p : Prog P N K) (s : St P N K), s.slips ≤ (run resolve p s).1.slips := by
  intro p
  induction p with
  | skip => intro s; exact Nat.le_refl _
  | raise => intro s; exact Nat.le_refl _
  | chdir n => intro s; simp only [run, go]; split <;> exact Nat.le_refl _
  | files f => intro s; exact Nat.le_refl _
  | register k n => intro s; exact Nat.le_refl _
  | seq p q ihp ihq =>
    intro s
    have h := ihp s
    simp only [run]
    cases hr : run resolve p s with
    | mk s' e =>
      rw [hr] at h
      cases e
      · exact Nat.le_trans h (ihq s')
      · exact h
  | «catch» p q ihp ihq =>
    intro s
    have h := ihp s
    simp only [run]
    cases hr : run resolve p s with
    | mk s' e =>
      rw [hr] at h
      cases e
      · exact h
      · exact Nat.le_trans h (ihq s')
  | inDir d p ih => intro s; exact within_slips ih
  | inLoc k p ih => intro s; exact within_slips ih

/-- A block, given that its body leaves the stack alone: either it was not entered and nothing changed, or the body ran and
directory and stack are as before. -/
theorem within_spec {s : St P N K} {d : Option N} {body : St P N K → St P N K × Ended}
    (hm : ∀ s, s.slips ≤ (body s).1.slips) (hb : ∀ s, (body s).1.slips = s.slips → (body s).1.stack = s.stack)
    (hs : (within resolve s d body).1.slips = s.slips) :
    (within resolve s d body = (s, .raised) ∧ d ≠ none ∧ s.dirs s.cwd = false) ∨
    ∃ s', push resolve s d = (s', .ok) ∧ (body s').1.slips = s'.slips ∧ (within resolve s d body).2 = (body s').2 ∧
      (within resolve s d body).1.stack = s.stack ∧ (within resolve s d body).1.dirs = (body s').1.dirs ∧
      (within resolve s d body).1.cwd = (if d = none then (body s').1.cwd else s.cwd) := by
  have hw : ∀ s', push resolve s d = (s', .ok) → within resolve s d body = leave (body s') := by
    intro s' e; unfold within; rw [e]
  rcases push_cases (resolve := resolve) s d with ⟨hd, e⟩ | ⟨n, hd, _, _, e⟩ | ⟨n, hd, _, e⟩ | ⟨n, hd, hc, e⟩
  · right
    refine ⟨_, e, ?_⟩
    rw [hw _ e] at hs ⊢
    have h0 : (body { s with stack := none :: s.stack }).1.slips = s.slips :=
      Nat.le_antisymm (Nat.le_trans (leave_slips (body { s with stack := none :: s.stack })) (Nat.le_of_eq hs)) (hm { s with stack := none :: s.stack })
    have h1 := hb _ h0
    refine ⟨h0, ?_⟩
    unfold leave pop
    rw [h1]
    simp [hd]
  · right
    refine ⟨_, e, ?_⟩
    rw [hw _ e] at hs ⊢
    have h0 : (body { s with stack := some s.cwd :: s.stack, cwd := resolve s.cwd n }).1.slips = s.slips :=
      Nat.le_antisymm (Nat.le_trans (leave_slips (body { s with stack := some s.cwd :: s.stack, cwd := resolve s.cwd n })) (Nat.le_of_eq hs))
        (hm { s with stack := some s.cwd :: s.stack, cwd := resolve s.cwd n })
    have h1 := hb _ h0
    refine ⟨h0, ?_⟩
    unfold leave pop at hs ⊢
    rw [h1] at hs ⊢
    simp only at hs ⊢
    by_cases hx : (body { s with stack := some s.cwd :: s.stack, cwd := resolve s.cwd n }).1.dirs s.cwd = true
    · simp [hx, hd]
    · simp only [hx, if_false, Bool.false_eq_true] at hs
      simp only [h0] at hs
      omega
  · exfalso
    have : within resolve s d body = ({ s with stack := some s.cwd :: s.stack, slips := s.slips + 1 }, .raised) := by
      unfold within; rw [e]
    rw [this] at hs
    simp only at hs
    omega
  · left
    refine ⟨?_, by simp [hd], hc⟩
    unfold within; rw [e]

/-! ## C48 -/

/-- Full statement: after any nesting of `with` blocks, with exceptions anywhere, the stack is as before.  Proved when none of
the changes of directory made by the stack itself fails.  Missing: a block whose directory does not exist leaves an entry
behind (`C48_entry_witness`). -/
theorem C48_stack_partial : ∀ (p : Prog P N K) (s : St P N K), (run resolve p s).1.slips = s.slips →
    (run resolve p s).1.stack = s.stack := by
  intro p
  induction p with
  | skip => intro s _; rfl
  | raise => intro s _; rfl
  | chdir n => intro s _; simp only [run, go]; split <;> rfl
  | files f => intro s _; rfl
  | register k n => intro s _; rfl
  | seq p q ihp ihq =>
    intro s hs
    have h := ihp s
    have hm := run_slips (resolve := resolve) p s
    simp only [run] at hs ⊢
    cases hr : run resolve p s with
    | mk s' e =>
      rw [hr] at h hs hm
      cases e
      · simp only at hs ⊢
        have hq := run_slips (resolve := resolve) q s'
        have e1 : s'.slips = s.slips := Nat.le_antisymm (by rw [← hs]; exact hq) hm
        rw [ihq s' (by rw [hs, e1]), h e1]
      · exact h hs
  | «catch» p q ihp ihq =>
    intro s hs
    have h := ihp s
    have hm := run_slips (resolve := resolve) p s
    simp only [run] at hs ⊢
    cases hr : run resolve p s with
    | mk s' e =>
      rw [hr] at h hs hm
      cases e
      · exact h hs
      · simp only at hs ⊢
        have hq := run_slips (resolve := resolve) q s'
        have e1 : s'.slips = s.slips := Nat.le_antisymm (by rw [← hs]; exact hq) hm
        rw [ihq s' (by rw [hs, e1]), h e1]
  | inDir d p ih =>
    intro s hs
    rcases within_spec (run_slips p) ih hs with ⟨e, _⟩ | ⟨s', _, _, _, e, _⟩
    · simp only [run]; rw [e]
    · exact e
  | inLoc k p ih =>
    intro s hs
    rcases within_spec (run_slips p) ih hs with ⟨e, _⟩ | ⟨s', _, _, _, e, _⟩
    · simp only [run]; rw [e]
    · exact e

/-- After a block that names a directory the working directory is the one from before, whatever the body does: change
directories, nest blocks, raise anywhere.  (Partial as above.) -/
theorem C48_block_partial (n : N) (p : Prog P N K) (s : St P N K) (hs : (run resolve (.inDir (some n) p) s).1.slips = s.slips) :
    (run resolve (.inDir (some n) p) s).1.cwd = s.cwd ∧ (run resolve (.inDir (some n) p) s).1.stack = s.stack := by
  refine ⟨?_, C48_stack_partial _ s hs⟩
  rcases within_spec (run_slips p) (C48_stack_partial p) hs with ⟨e, _⟩ | ⟨s', _, _, _, _, _, e⟩
  · simp only [run]; rw [e]
  · exact e

/-- The same for a registered location. -/
theorem C48_location_partial (k : K) (p : Prog P N K) (s : St P N K) (hk : s.locs k ≠ none)
    (hs : (run resolve (.inLoc k p) s).1.slips = s.slips) :
    (run resolve (.inLoc k p) s).1.cwd = s.cwd ∧ (run resolve (.inLoc k p) s).1.stack = s.stack := by
  cases h : s.locs k with
  | none => exact absurd h hk
  | some n =>
    have e : run resolve (.inLoc k p) s = run resolve (.inDir (some n) p) s := by simp only [run, h]
    rw [e] at hs ⊢
    exact C48_block_partial n p s hs

/-- Whole programs: code that changes directories only in such blocks ends in the directory where it started, also when it
raises.  (Partial as above.) -/
theorem C48_program_partial : ∀ (p : Prog P N K) (s : St P N K), Tidy p → (run resolve p s).1.slips = s.slips →
    (run resolve p s).1.cwd = s.cwd := by
  intro p
  induction p with
  | skip => intro s _ _; rfl
  | raise => intro s _ _; rfl
  | chdir n => intro s h _; exact h.elim
  | files f => intro s _ _; rfl
  | register k n => intro s _ _; rfl
  | seq p q ihp ihq =>
    intro s ht hs
    have h := ihp s ht.1
    have hm := run_slips (resolve := resolve) p s
    simp only [run] at hs ⊢
    cases hr : run resolve p s with
    | mk s' e =>
      rw [hr] at h hs hm
      cases e
      · simp only at hs ⊢
        have hq := run_slips (resolve := resolve) q s'
        have e1 : s'.slips = s.slips := Nat.le_antisymm (by rw [← hs]; exact hq) hm
        rw [ihq s' ht.2 (by rw [hs, e1]), h e1]
      · exact h hs
  | «catch» p q ihp ihq =>
    intro s ht hs
    have h := ihp s ht.1
    have hm := run_slips (resolve := resolve) p s
    simp only [run] at hs ⊢
    cases hr : run resolve p s with
    | mk s' e =>
      rw [hr] at h hs hm
      cases e
      · exact h hs
      · simp only at hs ⊢
        have hq := run_slips (resolve := resolve) q s'
        have e1 : s'.slips = s.slips := Nat.le_antisymm (by rw [← hs]; exact hq) hm
        rw [ihq s' ht.2 (by rw [hs, e1]), h e1]
  | inDir d p ih =>
    intro s ht hs
    rcases within_spec (run_slips p) (C48_stack_partial p) hs with ⟨e, _⟩ | ⟨s', e1, e2, _, _, _, e⟩
    · simp only [run]; rw [e]
    · simp only [run]
      rw [e]
      cases d with
      | none =>
        cases e1
        exact ih _ ht e2
      | some n => rfl
  | inLoc k p ih =>
    intro s ht hs
    rcases within_spec (run_slips p) (C48_stack_partial p) hs with ⟨e, _⟩ | ⟨s', e1, e2, _, _, _, e⟩
    · simp only [run]; rw [e]
    · simp only [run]
      rw [e]
      split
      · rename_i hk
        rw [hk] at e1
        cases e1
        exact ih _ ht e2
      · rfl

/-- A block never hides an exception of its body and never adds one. -/
theorem C48_exception_partial (d : Option N) (p : Prog P N K) (s s' : St P N K) (he : push resolve s d = (s', .ok))
    (hs : (run resolve (.inDir d p) s).1.slips = s.slips) : (run resolve (.inDir d p) s).2 = (run resolve p s').2 := by
  rcases within_spec (run_slips p) (C48_stack_partial p) hs with ⟨_, hd, hc⟩ | ⟨s'', e1, _, e2, _⟩
  · exfalso
    cases d with
    | none => exact hd rfl
    | some n =>
      unfold push at he
      simp [hc] at he
  · rw [e1] at he
    cases he
    exact e2

/-- Nothing fails if no directory is removed, registered names are absolute paths and the directories named by blocks exist
from the start, seen from everywhere: then the premise of the theorems above holds. -/
theorem C48_no_slips : ∀ (p : Prog P N K) (s : St P N K) (G : N → Prop), Keeps p → Names resolve G p →
    (∀ k n, s.locs k = some n → ∀ c, s.dirs (resolve c n) = true) → (∀ n, G n → ∀ c, s.dirs (resolve c n) = true) → s.dirs s.cwd = true →
    (∀ q, some q ∈ s.stack → s.dirs q = true) →
    (run resolve p s).1.slips = s.slips ∧ (∀ k n, (run resolve p s).1.locs k = some n → ∀ c, (run resolve p s).1.dirs (resolve c n) = true) ∧
    (∀ q, s.dirs q = true → (run resolve p s).1.dirs q = true) ∧ (run resolve p s).1.dirs (run resolve p s).1.cwd = true := by
  intro p
  induction p with
  | skip => intro s G _ _ hl _ hc _; exact ⟨rfl, hl, fun _ h => h, hc⟩
  | raise => intro s G _ _ hl _ hc _; exact ⟨rfl, hl, fun _ h => h, hc⟩
  | chdir n =>
    intro s G _ _ hl _ hc _
    simp only [run, go]
    split
    · rename_i h; exact ⟨rfl, hl, fun _ h => h, h⟩
    · exact ⟨rfl, hl, fun _ h => h, hc⟩
  | files f =>
    intro s G hk _ hl _ hc _
    have key : ∀ q, s.dirs q = true → f q (s.dirs q) = true := by intro q hq; rw [hq]; exact hk q
    exact ⟨rfl, fun k n h c => key _ (hl k n h c), key, key _ hc⟩
  | register k n =>
    intro s G _ hn hl _ hc _
    refine ⟨rfl, ?_, ?_, ?_⟩
    · intro k' n' h
      simp only [run, register] at h
      split at h
      · cases h
        intro c
        simp only [run, register, hn c s.cwd]
        simp
      · intro c
        simp [run, register, hl k' n' h c]
    · intro q hq; simp [run, register, hq]
    · simp [run, register, hc]
  | seq p q ihp ihq =>
    intro s G hk hn hl hg hc hst
    have h := ihp s G hk.1 hn.1 hl hg hc hst
    have hst' := C48_stack_partial (resolve := resolve) p s h.1
    simp only [run]
    cases hr : run resolve p s with
    | mk s' e =>
      rw [hr] at h hst'
      obtain ⟨h1, h2, h3, h4⟩ := h
      cases e
      · obtain ⟨k1, k2, k3, k4⟩ := ihq s' G hk.2 hn.2 h2 (fun n hn c => h3 _ (hg n hn c)) h4
          (fun x hx => h3 _ (hst x (by simp only at hst'; rwa [hst'] at hx)))
        exact ⟨by rw [k1, h1], k2, fun x hx => k3 x (h3 x hx), k4⟩
      · exact ⟨h1, h2, h3, h4⟩
  | «catch» p q ihp ihq =>
    intro s G hk hn hl hg hc hst
    have h := ihp s G hk.1 hn.1 hl hg hc hst
    have hst' := C48_stack_partial (resolve := resolve) p s h.1
    simp only [run]
    cases hr : run resolve p s with
    | mk s' e =>
      rw [hr] at h hst'
      obtain ⟨h1, h2, h3, h4⟩ := h
      cases e
      · exact ⟨h1, h2, h3, h4⟩
      · obtain ⟨k1, k2, k3, k4⟩ := ihq s' G hk.2 hn.2 h2 (fun n hn c => h3 _ (hg n hn c)) h4
          (fun x hx => h3 _ (hst x (by simp only at hst'; rwa [hst'] at hx)))
        exact ⟨by rw [k1, h1], k2, fun x hx => k3 x (h3 x hx), k4⟩
  | inDir d p ih =>
    intro s G hk hn hl hg hc hst
    exact within_ok (ih · G) hk hn.2 hl hg hc hst (fun n h => hg n (hn.1 n h))
  | inLoc k p ih =>
    intro s G hk hn hl hg hc hst
    exact within_ok (ih · G) hk hn hl hg hc hst (fun n h => hl k n h)
where
  within_ok {p : Prog P N K} {s : St P N K} {G : N → Prop} {d : Option N}
      (ih : ∀ (s : St P N K), Keeps p → Names resolve G p →
        (∀ k n, s.locs k = some n → ∀ c, s.dirs (resolve c n) = true) → (∀ n, G n → ∀ c, s.dirs (resolve c n) = true) → s.dirs s.cwd = true →
        (∀ q, some q ∈ s.stack → s.dirs q = true) →
        (run resolve p s).1.slips = s.slips ∧ (∀ k n, (run resolve p s).1.locs k = some n → ∀ c, (run resolve p s).1.dirs (resolve c n) = true) ∧
        (∀ q, s.dirs q = true → (run resolve p s).1.dirs q = true) ∧ (run resolve p s).1.dirs (run resolve p s).1.cwd = true)
      (hk : Keeps p) (hn : Names resolve G p) (hl : ∀ k n, s.locs k = some n → ∀ c, s.dirs (resolve c n) = true) (hg : ∀ n, G n → ∀ c, s.dirs (resolve c n) = true)
      (hc : s.dirs s.cwd = true) (hst : ∀ q, some q ∈ s.stack → s.dirs q = true) (hd : ∀ n, d = some n → ∀ c, s.dirs (resolve c n) = true) :
      (within resolve s d (run resolve p)).1.slips = s.slips ∧ (∀ k n, (within resolve s d (run resolve p)).1.locs k = some n → ∀ c, (within resolve s d (run resolve p)).1.dirs (resolve c n) = true) ∧
      (∀ q, s.dirs q = true → (within resolve s d (run resolve p)).1.dirs q = true) ∧
      (within resolve s d (run resolve p)).1.dirs (within resolve s d (run resolve p)).1.cwd = true := by
    rcases push_cases (resolve := resolve) s d with ⟨_, e⟩ | ⟨n, _, h1, h2, e⟩ | ⟨n, h0, h1, e⟩ | ⟨n, _, h1, e⟩
    · obtain ⟨k1, k2, k3, k4⟩ := ih { s with stack := none :: s.stack } hk hn hl hg hc (by
        intro q hq; simp at hq; exact hst q hq)
      have hst' := C48_stack_partial (resolve := resolve) p _ k1
      unfold within
      rw [e]
      simp only [leave, pop, hst']
      exact ⟨k1, k2, k3, k4⟩
    · obtain ⟨k1, k2, k3, k4⟩ := ih { s with stack := some s.cwd :: s.stack, cwd := resolve s.cwd n } hk hn hl hg h2 (by
        intro q hq
        simp at hq
        rcases hq with rfl | hq
        · exact h1
        · exact hst q hq)
      have hst' := C48_stack_partial (resolve := resolve) p _ k1
      unfold within
      rw [e]
      simp only [leave, pop, hst', k3 s.cwd h1, if_true]
      exact ⟨k1, k2, k3, trivial⟩
    · rw [hd n h0] at h1; cases h1
    · rw [hc] at h1; cases h1

/-- Paths as lists of names, absolute or relative. -/
def res (cwd : List String) (n : Bool × List String) : List String := if n.1 then n.2 else cwd ++ n.2

def home : St (List String) (Bool × List String) String :=
  { cwd := ["home"], stack := [], locs := fun _ => none, slips := 0
    dirs := fun p => decide (p ∈ [["home"], ["home", "a"], ["home", "a", "b"], ["tmp"]]) }

/-- Nested blocks, a change of directory in user code and an exception in the innermost block, caught outside. -/
def nested : Prog (List String) (Bool × List String) String :=
  .seq (.register "calc" (true, ["home", "a"]))
    (.catch (.inLoc "calc" (.seq (.chdir (true, ["tmp"])) (.inDir (some (true, ["home", "a", "b"])) (.seq (.chdir (true, ["home"])) .raise)))) .skip)

example : Tidy (.seq (.inDir (some (true, ["home", "a"])) (.chdir (true, ["tmp"]))) .raise : Prog (List String) (Bool × List String) String) ∧
    (run res nested home).1.cwd = ["home"] ∧ (run res nested home).2 = .ok ∧ (run res nested home).1.slips = 0 ∧
    (run res (.inDir (some (true, ["home", "a"])) .raise) home).2 = .raised := by
  refine ⟨⟨trivial, trivial⟩, ?_⟩
  decide

/-- The premises of `C48_no_slips`. -/
example : Keeps nested ∧ Names res (fun n => n = (true, ["home", "a", "b"])) nested ∧
    (∀ n, n = (true, ["home", "a", "b"]) → ∀ c, home.dirs (res c n) = true) ∧ home.dirs home.cwd = true :=
  ⟨⟨trivial, ⟨trivial, trivial, trivial⟩, trivial⟩,
    ⟨fun _ _ => rfl, ⟨trivial, fun _ h => (Option.some.inj h).symm, trivial, trivial⟩, trivial⟩,
    by rintro n rfl c; rfl, rfl⟩

/-- A block whose directory does not exist leaves its entry on the stack, so the block around it goes back to the wrong
directory. -/
theorem C48_entry_witness :
    (run res (.inDir (some (false, ["a"])) (.inDir (some (false, ["missing"])) .skip)) home).1.cwd = ["home", "a"] ∧
    (run res (.inDir (some (false, ["a"])) (.inDir (some (false, ["missing"])) .skip)) home).1.stack = [some ["home"]] := by decide

/-- If the directory is removed meanwhile, leaving the block raises and stays inside. -/
theorem C48_removed_witness :
    (run res (.inDir (some (true, ["tmp"])) (.files (fun p b => decide (p ≠ ["home"]) && b))) home).1.cwd = ["tmp"] ∧
    (run res (.inDir (some (true, ["tmp"])) (.files (fun p b => decide (p ≠ ["home"]) && b))) home).2 = .raised := by decide

/-- A block for a location that is not registered saves nothing: a change of directory inside stays. -/
theorem C48_unregistered_witness : (run res (.inLoc "other" (.chdir (true, ["tmp"]))) home).1.cwd = ["tmp"] := by decide

end Verif.Locs
