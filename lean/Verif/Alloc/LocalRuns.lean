/-
Finished local optimization runs in `start_persistent_local_opt_gens` (alloc_funcs/start_persistent_local_opt_gens.py:36-45), C79.
-/
namespace Verif.Alloc.Runs

/-- What `persis_info[i]` is: a number (such as `num_gens_started`, manager.py:639) or the dictionary of a worker, with the key `done`, the value of
`x_opt` and the rows `run_order` if they are there.  `X`: points. -/
inductive Entry (X : Type)
  | num (n : Nat)
  | worker (done : Bool) (xOpt : Option X) (runOrder : Option (List Nat))

/-- The columns `num_active_runs` and `local_min`. -/
structure Cols where
  active : Nat → Int
  localMin : Nat → Bool

inductive Err
  | type                 -- `"done" in 0`
  | key                  -- no `run_order`
  | assertion            -- not just one optimum
deriving DecidableEq

/-- `H["num_active_runs"][rows] -= 1`: numpy subtracts once for each row in the list, however often it is there. -/
def lower (rows : List Nat) (h : Cols) : Cols := { h with active := fun i => if i ∈ rows then h.active i - 1 else h.active i }

/-- Lines 39-40. -/
def countDown (done : Bool) (run : Option (List Nat)) (h : Cols) : Except Err Cols :=
  if done then match run with
    | some rows => .ok (lower rows h)
    | none => .error .key
  else .ok h

/-- Lines 41-45; `at_ x`: the rows of the history with the point `x`. -/
def note {X : Type} (at_ : X → List Nat) (done : Bool) (xOpt : Option X) (run : Option (List Nat)) (h : Cols) : Except Err (Cols × Entry X) :=
  match xOpt with
  | some x =>
    match at_ x with
    | [i] => .ok ({ h with localMin := fun j => if j = i then true else h.localMin j }, .worker false none none)
    | _ => .error .assertion
  | none => .ok (h, .worker done none run)

/-- The body of the loop (start_persistent_local_opt_gens.py:39-45). -/
def finishOne {X : Type} (at_ : X → List Nat) (h : Cols) : Entry X → Except Err (Cols × Entry X)
  | .num _ => .error .type
  | .worker done xOpt run =>
    match countDown done run h with
    | .error e => .error e
    | .ok h => note at_ done xOpt run h

/-- The loop (start_persistent_local_opt_gens.py:38-45). -/
def finishAll {X : Type} (at_ : X → List Nat) : Cols → List (Entry X) → Except Err (Cols × List (Entry X))
  | h, [] => .ok (h, [])
  | h, e :: es => match finishOne at_ h e with
    | .error x => .error x
    | .ok (h, e) => match finishAll at_ h es with
      | .error x => .error x
      | .ok (h, es) => .ok (h, e :: es)

/-! ### Specification -/

/-- The number of finished runs that have row `i`. -/
def ended {X : Type} (i : Nat) : List (Entry X) → Int
  | [] => 0
  | .worker true _ (some rows) :: es => (if i ∈ rows then 1 else 0) + ended i es
  | _ :: es => ended i es

/-- The rows of the reported optima. -/
def optima {X : Type} (at_ : X → List Nat) : List (Entry X) → List Nat
  | [] => []
  | .worker _ (some x) _ :: es => at_ x ++ optima at_ es
  | _ :: es => optima at_ es

/-- Every finished run reported an optimum. -/
def Converged {X : Type} (e : Entry X) : Prop := ∀ done xOpt run, e = .worker done xOpt run → done = true → xOpt ≠ none

/-- If the loop does not raise: the counter of each row is lowered by the number of finished runs with it, the rows of the optima are
marked, and nothing else changes. -/
theorem C79_counts {X : Type} (at_ : X → List Nat) (es : List (Entry X)) : ∀ (h h' : Cols) (es' : List (Entry X)),
    finishAll at_ h es = .ok (h', es') →
    (∀ i, h'.active i = h.active i - ended i es) ∧ (∀ i, h'.localMin i = true ↔ h.localMin i = true ∨ i ∈ optima at_ es) ∧
    es'.length = es.length := by
  induction es with
  | nil => intro h h' es' he; cases he; simp [ended, optima]
  | cons e es ih =>
    intro h h' es' he
    simp only [finishAll] at he
    split at he
    · cases he
    · rename_i h1 e1 hx
      split at he
      · cases he
      · rename_i h2 es2 hy
        cases he
        obtain ⟨g1, g2, g3⟩ := ih _ _ _ hy
        cases e with
        | num n => cases hx
        | worker done xOpt run =>
          simp only [finishOne] at hx
          split at hx
          · cases hx
          · rename_i h0 hc
            have k1 : (∀ i, h0.active i = h.active i - (ended i (.worker done xOpt run :: es) - ended i es)) ∧ h0.localMin = h.localMin := by
              cases done with
              | false => cases hc; exact ⟨fun i => by simp only [ended]; omega, rfl⟩
              | true =>
                cases run with
                | none => cases hc
                | some rows =>
                  cases hc
                  refine ⟨fun i => ?_, rfl⟩
                  simp only [lower, ended]
                  split <;> omega
            have k2 : h1.active = h0.active ∧ ∀ i, h1.localMin i = true ↔ h0.localMin i = true ∨ i ∈ (xOpt.map at_).getD [] := by
              cases xOpt with
              | none => cases hx; exact ⟨rfl, fun i => by simp⟩
              | some x =>
                simp only [note] at hx
                split at hx
                · rename_i j hj
                  cases hx
                  refine ⟨rfl, fun i => ?_⟩
                  simp only [Option.map, Option.getD, hj, List.mem_singleton]
                  split
                  · rename_i h; simp [h]
                  · rename_i h; simp [h]
                · cases hx
            have k3 : ∀ i, i ∈ optima at_ (.worker done xOpt run :: es) ↔ i ∈ (xOpt.map at_).getD [] ∨ i ∈ optima at_ es := by
              intro i; cases xOpt <;> simp [optima]
            refine ⟨fun i => ?_, fun i => ?_, by simp [g3]⟩
            · rw [g1 i, k2.1, k1.1 i]; omega
            · rw [g2 i, k2.2 i, k1.2, k3 i, or_assoc]

/-- Finished runs that reported an optimum are counted down once: in the next call nothing happens.  Partial: without the hypothesis this is
false, see `C79_again_down_witness`. -/
theorem C79_once_partial {X : Type} (at_ : X → List Nat) (es : List (Entry X)) (hc : ∀ e ∈ es, Converged e) : ∀ (h h' : Cols) (es' : List (Entry X)),
    finishAll at_ h es = .ok (h', es') → ∀ k, finishAll at_ k es' = .ok (k, es') := by
  induction es with
  | nil => intro h h' es' he k; cases he; rfl
  | cons e es ih =>
    intro h h' es' he k
    simp only [finishAll] at he
    split at he
    · cases he
    · rename_i h1 e1 hx
      split at he
      · cases he
      · rename_i h2 es2 hy
        cases he
        have h3 := ih (fun e he => hc e (List.mem_cons_of_mem _ he)) _ _ _ hy k
        have h4 : finishOne at_ k e1 = .ok (k, e1) := by
          cases e with
          | num n => cases hx
          | worker done xOpt run =>
            simp only [finishOne] at hx
            split at hx
            · cases hx
            · cases xOpt with
              | some x =>
                simp only [note] at hx
                split at hx
                · cases hx; rfl
                · cases hx
              | none =>
                have : done = false := by
                  cases done with
                  | false => rfl
                  | true => exact absurd rfl (hc _ List.mem_cons_self true none run rfl rfl)
                subst this
                cases hx
                rfl
        simp only [finishAll, h4, h3]

/-- Witness: a run that ended without an optimum (the limit of evaluations, uniform_or_localopt.py:105-108) lowers the counter of its rows in
every call. -/
theorem C79_again_down_witness : ∃ (es es1 es2 : List (Entry Nat)) (h h1 h2 : Cols),
    finishAll (fun x => [x]) h es = .ok (h1, es1) ∧ finishAll (fun x => [x]) h1 es1 = .ok (h2, es2) ∧
    h.active 0 = 1 ∧ h1.active 0 = 0 ∧ h2.active 0 = -1 :=
  ⟨[.worker true none (some [0])], _, _, ⟨fun _ => 1, fun _ => false⟩, _, _, rfl, rfl, rfl, rfl, rfl⟩

/-- An entry of `persis_info` that is a number raises.  Every run leaves one (`num_gens_started`, manager.py:639), so that this function cannot be
used with the `persis_info` of an earlier run. -/
theorem C79_number {X : Type} (at_ : X → List Nat) (es : List (Entry X)) (n : Nat) (hn : .num n ∈ es) : ∀ h, ∃ e, finishAll at_ h es = .error e := by
  induction es with
  | nil => cases hn
  | cons e es ih =>
    intro h
    simp only [finishAll]
    rcases List.mem_cons.mp hn with rfl | hn
    · exact ⟨.type, rfl⟩
    · split
      · exact ⟨_, rfl⟩
      · obtain ⟨x, hx⟩ := ih hn ‹_›
        rw [hx]
        exact ⟨x, rfl⟩

/-- Two finished runs and one that goes on; and the error. -/
example : ∃ h' es', finishAll (fun x : Nat => [x]) ⟨fun _ => 2, fun _ => false⟩
      [.worker true (some 3) (some [0, 3]), .worker false none (some [1]), .worker true (some 5) (some [0, 5])] = .ok (h', es') ∧
    h'.active 0 = 0 ∧ h'.active 1 = 2 ∧ h'.active 3 = 1 ∧ h'.localMin 5 = true ∧ h'.localMin 0 = false := ⟨_, _, rfl, rfl, rfl, rfl, rfl, rfl⟩
example : finishAll (fun x : Nat => [x]) ⟨fun _ => 2, fun _ => false⟩ [.worker false none none, .num 0] = .error .type := rfl

end Verif.Alloc.Runs
