import Verif.Batch.Values
import Verif.History.Props
/-!
# C95: each point of a batch gets its own value
-/
namespace Verif.Batch
open Verif.History

theorem assignFrom_spec {α : Type} (g : α → Int) (xs : List α) (done rest : List Int) (h : rest.length = xs.length) :
    assignFrom g done.length xs (done ++ rest) = done ++ xs.map g := by
  induction xs generalizing done rest with
  | nil => cases rest with
    | nil => rfl
    | cons _ _ => cases h
  | cons x xs ih =>
    cases rest with
    | nil => cases h
    | cons r rest =>
      rw [assignFrom]
      have e : (done ++ r :: rest).set done.length (g x) = (done ++ [g x]) ++ rest := by
        rw [List.set_append_right _ _ (Nat.le_refl _)]
        simp
      have := ih (done ++ [g x]) rest (by simpa using h)
      rw [List.length_append, List.length_singleton] at this
      rw [e, this]
      simp

/-- C95: the simulators with a loop give each point its own value, in order. -/
theorem C95_each {α : Type} (g : α → Int) (xs : List α) : loopSim g xs = xs.map g := by
  have := assignFrom_spec g xs [] (List.replicate xs.length 0) (by simp)
  simpa [loopSim] using this

/-- An answer of a manager's history: row `inds[k]` has the value of the `k`-th point. -/
theorem stored_scalar {h h' : Hist} {inds : List Nat} {f : Field} {vs : List Int} {t : Int} {kill : Bool} (hnd : inds.Nodup) (hf : f ∈ h.fields)
    (h1 : f ≠ .simEnded) (h2 : f ≠ .simEndedTime) (hok : apply h (.simReturn inds (some (answer f vs)) t kill) = (h', none))
    (hs : ∀ i ∈ inds, ∀ old, cell h.rows i f = some old → ∃ n, old = .s n) :
    ∀ k i : Nat, inds[k]? = some i → ∃ v, vs[k]? = some v ∧ cell h'.rows i f = some (.s v) := by
  intro k i hk
  obtain ⟨_, H, _⟩ := C07_exact_rows h h' inds (answer f vs) t kill hnd (by simp [answer, Rec.fields]) hok
  obtain ⟨_, _, _, H, _⟩ := H k i hk
  obtain ⟨src, old, e1, e2, e3⟩ := H f (by simp [answer, Rec.fields]) hf h1 h2
  obtain ⟨n, rfl⟩ := hs i (List.mem_of_getElem? hk) old e2
  simp only [answer, List.getElem?_map, Option.map_eq_some_iff] at e1
  obtain ⟨v, hv, rfl⟩ := e1
  exact ⟨v, hv, e3⟩

/-- In the history: the row of each point has the value of this point. -/
theorem C95_each_stored {α : Type} (g : α → Int) (xs : List α) (h h' : Hist) (inds : List Nat) (f : Field) (t : Int) (kill : Bool)
    (hnd : inds.Nodup) (hf : f ∈ h.fields) (h1 : f ≠ .simEnded) (h2 : f ≠ .simEndedTime)
    (hok : apply h (.simReturn inds (some (answer f (loopSim g xs))) t kill) = (h', none))
    (hs : ∀ i ∈ inds, ∀ old, cell h.rows i f = some old → ∃ n, old = .s n) :
    ∀ k i : Nat, inds[k]? = some i → ∃ x, xs[k]? = some x ∧ cell h'.rows i f = some (.s (g x)) := by
  intro k i hk
  obtain ⟨v, hv, hc⟩ := stored_scalar hnd hf h1 h2 hok hs k i hk
  rw [C95_each, List.getElem?_map, Option.map_eq_some_iff] at hv
  obtain ⟨x, hx, rfl⟩ := hv
  exact ⟨x, hx, hc⟩

/-- `borehole` for one point: its value.  Missing: batches of several points. -/
theorem C95_borehole_partial {α : Type} (inside : α → Bool) (g : α → Int) (x : α) (h : inside x = true) : boreholeSim inside g [x] = some ([x].map g) := by
  simp [boreholeSim, h]

/-- `borehole` for several points: all get the value of the first. -/
theorem C95_borehole_first {α : Type} (inside : α → Bool) (g : α → Int) (x : α) (xs : List α) (h : ∀ y ∈ x :: xs, inside y = true) :
    ∃ vs, boreholeSim inside g (x :: xs) = some vs ∧ vs.length = (x :: xs).length ∧ ∀ v ∈ vs, v = g x := by
  refine ⟨List.replicate (x :: xs).length (g x), ?_, by simp, fun v hv => (List.mem_replicate.1 hv).2⟩
  rw [boreholeSim, if_pos (List.all_eq_true.2 h)]
  rfl

/-- It is right exactly if all points have the same value. -/
theorem C95_borehole_right {α : Type} (inside : α → Bool) (g : α → Int) (x : α) (xs : List α) (h : ∀ y ∈ x :: xs, inside y = true) :
    boreholeSim inside g (x :: xs) = some ((x :: xs).map g) ↔ ∀ y ∈ xs, g y = g x := by
  have e : boreholeSim inside g (x :: xs) = some (List.replicate (x :: xs).length (g x)) := by
    rw [boreholeSim, if_pos (List.all_eq_true.2 h)]; rfl
  rw [e, Option.some.injEq, eq_comm, List.eq_replicate_iff]
  simp

/-- The wrong values reach the history: every row of the order has the value of the first point. -/
theorem C95_borehole_stored {α : Type} (inside : α → Bool) (g : α → Int) (x : α) (xs : List α) (vs : List Int) (h h' : Hist) (inds : List Nat) (f : Field)
    (t : Int) (kill : Bool) (hv : boreholeSim inside g (x :: xs) = some vs) (hnd : inds.Nodup) (hf : f ∈ h.fields) (h1 : f ≠ .simEnded) (h2 : f ≠ .simEndedTime)
    (hok : apply h (.simReturn inds (some (answer f vs)) t kill) = (h', none))
    (hs : ∀ i ∈ inds, ∀ old, cell h.rows i f = some old → ∃ n, old = .s n) : ∀ i ∈ inds, cell h'.rows i f = some (.s (g x)) := by
  intro i hi
  obtain ⟨k, hk⟩ := List.getElem?_of_mem hi
  obtain ⟨v, hv', hc⟩ := stored_scalar hnd hf h1 h2 hok hs k i hk
  rw [boreholeSim] at hv
  split at hv
  · cases hv
    have := (List.mem_replicate.1 (List.mem_of_getElem? hv')).2
    rw [hc, this]
  · cases hv

theorem simRows_short (t : Int) (d : Rec) (hf : d.fields ≠ []) (inds : List Nat) (j : Nat) (h : Hist) (hl : d.rows.length < j + inds.length) (hj : j ≤ d.rows.length) :
    (simRows t (some d) j inds h).2 ≠ none := by
  induction inds generalizing j h with
  | nil => simp at hl; omega
  | cons i is ih =>
    rw [simRows]
    split
    · simp
    · rename_i r hr
      split
      · simp
      · rename_i r' hw
        apply ih
        · simp only [List.length_cons] at hl; omega
        · rcases Nat.lt_or_ge j d.rows.length with h1 | h1
          · exact h1
          · simp only [simRowWrite] at hw
            rw [if_neg (by simpa using hf), List.getElem?_eq_none h1] at hw
            cases hw

/-- An answer with fewer records than rows in the order is never stored: the manager raises an exception. -/
theorem C95_short (h : Hist) (inds : List Nat) (d : Rec) (t : Int) (kill : Bool) (hf : d.fields ≠ []) (hl : d.rows.length < inds.length) :
    (apply h (.simReturn inds (some d) t kill)).2 ≠ none := by
  intro hn
  simp only [apply] at hn
  rw [updateF] at hn
  split at hn
  · cases hn
  · rename_i g hg
    exact simRows_short t d hf inds 0 (preSim h (some d)) (by omega) (Nat.zero_le _) (by rw [hg])

/-- `norm_eval`: one record for any number of points, so that an order of several rows stops the run. -/
theorem C95_norm {α : Type} (norm : List α → Int) (xs : List α) (h : Hist) (inds : List Nat) (f : Field) (t : Int) (kill : Bool) (hl : 2 ≤ inds.length) :
    (apply h (.simReturn inds (some (answer f (normSim norm xs))) t kill)).2 ≠ none :=
  C95_short h inds _ t kill (by simp [answer, Rec.fields]) (by simp [answer, normSim]; omega)

/-- `borehole` of surmise_test_function: the value of a single point; an exception for several. -/
theorem C95_surmise {α : Type} (g fail : α → Int) (late : Bool) (x y : α) (xs : List α) :
    surmiseSim g fail late [x] = some [if late then fail x else g x] ∧ surmiseSim g fail late (x :: y :: xs) = none := ⟨rfl, rfl⟩

example : loopSim (fun x : Int => x * x) [3, 1, 2] = [9, 1, 4] := by decide

/-- Three points with three values: all have the first. -/
theorem C95_borehole_witness : boreholeSim (fun _ => true) (fun x : Int => x * x) [3, 1, 2] = some [9, 9, 9] := by decide

def vHist : Hist := init (libEFields.map (·, Shape.scalar) ++ [(.user 1, .scalar)]) 3 ⟨[], []⟩ true

/-- The history after each of the answers. -/
theorem C95_stored_witness :
    (apply vHist (.simReturn [0, 1, 2] (some (answer (.user 1) (loopSim (fun x : Int => x * x) [3, 1, 2]))) 5 false)).1.rows.map (fun r => r (.user 1)) = [.s 9, .s 1, .s 4] ∧
    (boreholeSim (fun _ => true) (fun x : Int => x * x) [3, 1, 2]).map (fun vs =>
      ((apply vHist (.simReturn [0, 1, 2] (some (answer (.user 1) vs)) 5 false)).1.rows.map (fun r => r (.user 1)), (apply vHist (.simReturn [0, 1, 2] (some (answer (.user 1) vs)) 5 false)).2)) =
      some ([.s 9, .s 9, .s 9], none) := by
  constructor <;> decide

end Verif.Batch
