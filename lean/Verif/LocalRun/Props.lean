import Verif.LocalRun.Model

/-!
# C89: a local optimization run evaluates what the optimizer asks for
-/

namespace Verif.LocalRun

variable {X V : Type} [DecidableEq X]

/-- The points of a list of evaluations the manager has to answer. -/
def away (x0 : X) (l : List (X × V)) : List (X × V) := l.filter (fun p => decide (p.1 ≠ x0))

/-- The values at the head of the replies. -/
def values : List (Reply V) → List V
  | .value v :: rest => v :: values rest
  | _ => []

/-- What holds of a run: the optimizer asked for every point it has seen, in this order; other points than the first were sent, in order, and a point still without answer may follow;
their values are those of the replies, in order; the first point has the value the run began with. -/
structure Honest (opt : List (X × V) → Ask X) (start : X × V) (replies : List (Reply V)) (o : Out X V) : Prop where
  asked : ∀ (i : Nat) (x : X) (v : V), o.seen[i]? = some (x, v) → opt (o.seen.take i) = .eval x
  sent : o.sent = (away start.1 o.seen).map (·.1) ∨
    ∃ x, opt o.seen = .eval x ∧ x ≠ start.1 ∧ o.sent = (away start.1 o.seen).map (·.1) ++ [x] ∧ ∀ u, o.back = some u → u = raised
  vals : (away start.1 o.seen).map (·.2) <+: values replies
  first : ∀ p ∈ o.seen, p.1 = start.1 → p.2 = start.2

theorem take_snoc_get {α : Type} {l : List α} {a : α} {P : List α → α → Prop} (hl : ∀ (i : Nat) b, l[i]? = some b → P (l.take i) b) (ha : P l a) (i : Nat) (b : α)
    (h : (l ++ [a])[i]? = some b) : P ((l ++ [a]).take i) b := by
  rcases Nat.lt_trichotomy i l.length with hi | hi | hi
  · rw [List.getElem?_append_left hi] at h
    rw [List.take_append_of_le_length (by omega)]
    exact hl i b h
  · subst hi
    rw [List.getElem?_append_right (by omega)] at h
    simp at h
    subst h
    rw [List.take_append_of_le_length (by omega), List.take_length]
    exact ha
  · rw [List.getElem?_eq_none (by simp; omega)] at h
    cases h

theorem run_honest (opt : List (X × V) → Ask X) (best : List (X × V) → X) (start : X × V) : ∀ (n : Nat) (sent : List X) (seen : List (X × V)) (past replies : List (Reply V)),
    (∀ (i : Nat) p, seen[i]? = some p → opt (seen.take i) = .eval p.1) → sent = (away start.1 seen).map (·.1) →
    past = ((away start.1 seen).map (·.2)).map Reply.value → (∀ p ∈ seen, p.1 = start.1 → p.2 = start.2) →
    Honest opt start (past ++ replies) (run opt best start n sent seen replies)
  | n, sent, seen, past, replies, ha, hs, hp, hf => by
    have hv : ∀ (l : List V) (r : List (Reply V)), l <+: values (l.map Reply.value ++ r) := by
      intro l r
      induction l with
      | nil => exact List.nil_prefix
      | cons v l ih => simpa [values] using ih
    have hvs : (away start.1 seen).map (·.2) <+: values (past ++ replies) := by rw [hp]; exact hv _ _
    have hA : ∀ (i : Nat) (x : X) (v : V), seen[i]? = some (x, v) → opt (seen.take i) = .eval x := fun i x v h => ha i (x, v) h
    cases n with
    | zero => exact ⟨hA, Or.inl hs, hvs, hf⟩
    | succ n =>
      rw [run]
      cases ho : opt seen with
      | finish x c => exact ⟨hA, Or.inl hs, hvs, hf⟩
      | error => exact ⟨hA, Or.inl hs, hvs, hf⟩
      | eval x =>
        dsimp only
        split
        · rename_i hx
          refine run_honest opt best start n sent (seen ++ [(x, start.2)]) past replies ?_ ?_ ?_ ?_
          · exact fun i b h => take_snoc_get (P := fun l p => opt l = .eval p.1) ha ho i b h
          · rw [hs]; simp [away, hx]
          · rw [hp]; simp [away, hx]
          · intro p hp' he
            rcases List.mem_append.mp hp' with h | h
            · exact hf p h he
            · simp at h; subst h; rfl
        · rename_i hx
          have hlast : ∀ b : Option (Updates X), (∀ u, b = some u → u = raised) → Honest opt start (past ++ replies) ⟨sent ++ [x], seen, b⟩ := by
            intro b hb
            exact ⟨hA, Or.inr ⟨x, ho, hx, by rw [hs], hb⟩, hvs, hf⟩
          cases replies with
          | nil => exact hlast none (by simp)
          | cons r rest =>
            cases r with
            | bad => exact hlast _ (by simp)
            | stop => exact hlast _ (by simp)
            | value v =>
              have e : past ++ Reply.value v :: rest = (past ++ [Reply.value v]) ++ rest := by simp
              rw [e]
              refine run_honest opt best start n (sent ++ [x]) (seen ++ [(x, v)]) (past ++ [Reply.value v]) rest ?_ ?_ ?_ ?_
              · exact fun i b h => take_snoc_get (P := fun l p => opt l = .eval p.1) ha ho i b h
              · rw [hs]; simp [away, hx]
              · rw [hp]; simp [away, hx]
              · intro p hp' he
                rcases List.mem_append.mp hp' with h | h
                · exact hf p h he
                · simp at h; subst h; exact absurd he hx

/-- Every run is honest. -/
theorem C89_honest (opt : List (X × V) → Ask X) (best : List (X × V) → X) (start : X × V) (n : Nat) (replies : List (Reply V)) :
    Honest opt start replies (run opt best start n [] [] replies) := by
  have := run_honest opt best start n [] [] [] replies (by simp) rfl rfl (by simp)
  simpa using this

theorem run_end (opt : List (X × V) → Ask X) (best : List (X × V) → X) (start : X × V) : ∀ (n : Nat) (sent : List X) (seen : List (X × V)) (replies : List (Reply V)) (u : Updates X),
    (run opt best start n sent seen replies).back = some u →
    (run opt best start n sent seen replies).seen.length ≤ seen.length + n ∧
    (u.done = true → ((∃ x c, opt (run opt best start n sent seen replies).seen = .finish x c ∧ u.xOpt = if 0 < c ∧ c < 5 then some x else none) ∨
      ((run opt best start n sent seen replies).seen.length = seen.length + n ∧ u.xOpt = none))) ∧
    (u.done = false → u.xOpt = none ∧ (opt (run opt best start n sent seen replies).seen = .error ∨ ∃ r ∈ replies, ∀ v, r ≠ Reply.value v))
  | 0, sent, seen, replies, u, h => by
    simp only [run, Option.some.injEq] at h
    subst h
    refine ⟨by simp [run], fun _ => Or.inr ⟨by simp [run], by simp [ended]⟩, fun h => by simp [ended] at h⟩
  | n + 1, sent, seen, replies, u, h => by
    rw [run] at h ⊢
    cases ho : opt seen with
    | finish x c =>
      rw [ho] at h
      simp only [Option.some.injEq] at h
      subst h
      exact ⟨by simp, fun _ => Or.inl ⟨x, c, ho, rfl⟩, fun h => by simp [ended] at h⟩
    | error =>
      rw [ho] at h
      simp only [Option.some.injEq] at h
      subst h
      exact ⟨by simp, fun h => by simp [raised] at h, fun _ => ⟨rfl, Or.inl ho⟩⟩
    | eval x =>
      rw [ho] at h
      dsimp only at h ⊢
      split at h
      · rename_i hx
        rw [if_pos hx]
        have := run_end opt best start n sent (seen ++ [(x, start.2)]) replies u h
        simp only [List.length_append, List.length_singleton] at this
        obtain ⟨h1, h2, h3⟩ := this
        refine ⟨by omega, fun hd => ?_, h3⟩
        rcases h2 hd with h4 | ⟨h4, h5⟩
        · exact Or.inl h4
        · exact Or.inr ⟨by omega, h5⟩
      · rename_i hx
        rw [if_neg hx]
        cases replies with
        | nil => simp at h
        | cons r rest =>
          cases r with
          | bad =>
            simp only [Option.some.injEq] at h
            subst h
            exact ⟨by simp, fun h => by simp [raised] at h, fun _ => ⟨rfl, Or.inr ⟨.bad, List.mem_cons_self, by simp⟩⟩⟩
          | stop =>
            simp only [Option.some.injEq] at h
            subst h
            exact ⟨by simp, fun h => by simp [raised] at h, fun _ => ⟨rfl, Or.inr ⟨.stop, List.mem_cons_self, by simp⟩⟩⟩
          | value v =>
            have := run_end opt best start n (sent ++ [x]) (seen ++ [(x, v)]) rest u h
            simp only [List.length_append, List.length_singleton] at this
            dsimp only
            obtain ⟨h1, h2, h3⟩ := this
            refine ⟨by omega, fun hd => ?_, fun hd => ?_⟩
            · rcases h2 hd with h4 | ⟨h4, h5⟩
              · exact Or.inl h4
              · exact Or.inr ⟨by omega, h5⟩
            · obtain ⟨h4, h5⟩ := h3 hd
              refine ⟨h4, ?_⟩
              rcases h5 with h5 | ⟨r, hr, h6⟩
              · exact Or.inl h5
              · exact Or.inr ⟨r, List.mem_cons_of_mem _ hr, h6⟩

/-- How a run ends.  It evaluates at most `localopt_maxeval` points.  With "done" the optimizer has returned, or the evaluations are used up; "x_opt" is the point it returned and is there exactly
for the exit codes 1 to 4.  Without "done" there is no "x_opt", and there was an error or a reply other than a value. -/
theorem C89_end_partial (opt : List (X × V) → Ask X) (best : List (X × V) → X) (start : X × V) (n : Nat) (replies : List (Reply V)) (u : Updates X)
    (h : (run opt best start n [] [] replies).back = some u) :
    (run opt best start n [] [] replies).seen.length ≤ n ∧
    (u.done = true → ((∃ x c, opt (run opt best start n [] [] replies).seen = .finish x c ∧ (u.xOpt = if 0 < c ∧ c < 5 then some x else none)) ∨
      ((run opt best start n [] [] replies).seen.length = n ∧ u.xOpt = none))) ∧
    (u.done = false → u.xOpt = none ∧ (opt (run opt best start n [] [] replies).seen = .error ∨ ∃ r ∈ replies, ∀ v, r ≠ Reply.value v)) := by
  have := run_end opt best start n [] [] replies u h
  simpa using this

/-- A run that is answered with values never waits, whatever the optimizer does, if there are as many values as evaluations; and it is "done" unless the optimizer raises an error. -/
theorem C89_returns (opt : List (X × V) → Ask X) (best : List (X × V) → X) (start : X × V) : ∀ (n : Nat) (sent : List X) (seen : List (X × V)) (vs : List V), n ≤ vs.length →
    (∀ l, opt l ≠ .error) → ∃ u, (run opt best start n sent seen (vs.map Reply.value)).back = some u ∧ u.done = true
  | 0, _, seen, _, _, _ => ⟨_, rfl, rfl⟩
  | n + 1, sent, seen, vs, hl, he => by
    rw [run]
    cases ho : opt seen with
    | finish x c => exact ⟨_, rfl, rfl⟩
    | error => exact absurd ho (he _)
    | eval x =>
      dsimp only
      split
      · exact C89_returns opt best start n _ _ vs (by omega) he
      · cases vs with
        | nil => simp at hl
        | cons v vs => exact C89_returns opt best start n _ _ vs (by simp at hl; omega) he

/-- An optimizer that asks for the first point, then for 1, 2, … and returns the last at the third value. -/
def walk (l : List (Nat × Int)) : Ask Nat := if l.length < 3 then .eval l.length else .finish 2 1

example : run walk (fun _ => 0) (0, 9) 10 [] [] [.value 7, .value 5] = ⟨[1, 2], [(0, 9), (1, 7), (2, 5)], some ⟨true, some 2⟩⟩ := by decide
example : run walk (fun _ => 0) (0, 9) 2 [] [] [.value 7, .value 5] = ⟨[1], [(0, 9), (1, 7)], some ⟨true, none⟩⟩ := by decide
example : run walk (fun _ => 0) (0, 9) 10 [] [] [.value 7, .stop] = ⟨[1, 2], [(0, 9), (1, 7)], some ⟨false, none⟩⟩ := by decide

/-- An optimizer that fails at once.  NLopt for Python raises an error also for an end that is not unusual, when rounding limits progress. -/
def fails (_ : List (Nat × Int)) : Ask Nat := .error

/-- `except Exception` hides errors: when the optimizer fails, or a result has no value, the generator returns what it returns when the manager stops it, so that nobody is told and the
run is not "done". -/
theorem C89_hidden_witness : (run fails (fun _ => 0) (0, 9) 10 [] [] []).back = some raised ∧ (run walk (fun _ => 0) (0, 9) 10 [] [] [.bad]).back = some raised ∧
    (run walk (fun _ => 0) (0, 9) 10 [] [] [.stop]).back = some raised := by decide

end Verif.LocalRun
