import Verif.Gest.Model
/-!
# Simulation functions in the format of gest-api: properties (C81)
-/

namespace Verif.Gest

/-! ### Specification: one call for each point -/

/-- Each point once, in order, with `libE_info` if the simulator takes it; the first exception ends it. Besides the state: the inputs of all calls made. -/
def once {S} (f : Sim S) : List Dict → S → S × List Dict × Except Exc (List Dict)
  | [], s => (s, [], .ok [])
  | x :: xs, s => match f.body s f.takes x with
    | (s, .error e) => (s, [x], .error e)
    | (s, .ok d) => match once f xs s with
      | (s, cs, .error e) => (s, x :: cs, .error e)
      | (s, cs, .ok ds) => (s, x :: cs, .ok (d :: ds))

/-- The simulator raises no TypeError of its own. -/
def NoTypeError {S} (f : Sim S) : Prop := ∀ s b x, (f.body s b x).2 ≠ .error .type

theorem attempt_once {S} (f : Sim S) (h : NoTypeError f) (s : S) (x : Dict) : attempt f s x = f.body s f.takes x := by
  unfold attempt Sim.call
  cases ht : f.takes with
  | true =>
    simp only [Bool.not_true, Bool.and_false, Bool.false_eq_true, if_false]
    split
    · rename_i s' heq
      exact absurd (congrArg Prod.snd heq) (h s true x)
    · rfl
  | false => simp

/-- All points have the fields of the variables and constants. -/
def HasInputs (inputs : List String) (rows : List Dict) : Prop := ∀ r ∈ rows, ∀ n ∈ inputs, (r.lookup n).isSome

/-- The input the simulator should see: the values of this point, nothing else. -/
def given (inputs : List String) (row : Dict) : Dict := inputs.map fun n => (n, (row.lookup n).getD 0)

theorem inputOf_given {inputs : List String} {row : Dict} (h : ∀ n ∈ inputs, (row.lookup n).isSome) : inputOf inputs row = some (given inputs row) := by
  unfold inputOf given
  induction inputs with
  | nil => rfl
  | cons n ns ih =>
    obtain ⟨v, hv⟩ := Option.isSome_iff_exists.mp (h n (List.mem_cons_self ..))
    rw [List.mapM_cons, ih (fun m hm => h m (List.mem_cons_of_mem _ hm))]
    simp [hv]

/-- A row of the result. -/
def row (cols outs : List String) (d : Dict) : Dict := cols.map fun c => (c, if c ∈ outs then (d.lookup c).getD 0 else 0)

theorem outputOf_row {cols outs : List String} (h : ∀ n ∈ outs, n ∈ cols) (d : Dict) : outputOf cols outs d = .ok (row cols outs d) := by
  unfold outputOf
  rw [if_pos]
  · rfl
  · rw [List.all_eq_true]
    intro n hn
    simp [h n hn]

/-- Each point is given to the simulator once, in order and with its own values, and the outputs are those of the calls; an exception of the simulator is
passed on.  Partial: for simulators that raise no TypeError of their own, see `C81_twice`. -/
theorem C81_once_partial {S} (f : Sim S) (hf : NoTypeError f) (inputs outs cols : List String) (hc : ∀ n ∈ outs, n ∈ cols) (rows : List Dict)
    (hr : HasInputs inputs rows) (s : S) :
    loop f inputs outs cols rows s =
      ((once f (rows.map (given inputs)) s).1, match (once f (rows.map (given inputs)) s).2.2 with | .error e => .error e | .ok ds => .ok (ds.map (row cols outs))) := by
  induction rows generalizing s with
  | nil => rfl
  | cons r rs ih =>
    simp only [loop, inputOf_given (hr r (List.mem_cons_self ..)), attempt_once f hf, List.map_cons, once]
    generalize f.body s f.takes (given inputs r) = y
    obtain ⟨s1, y⟩ := y
    cases y with
    | error e => rfl
    | ok d =>
      simp only [outputOf_row hc, ih (fun r' h => hr r' (List.mem_cons_of_mem _ h)) s1]
      generalize once f (rs.map (given inputs)) s1 = z
      obtain ⟨s2, cs, z⟩ := z
      cases z <;> rfl

/-- The calls of `once` that ends normally are the points, each once. -/
theorem C81_calls {S} (f : Sim S) (xs : List Dict) (s : S) (h : ∃ ds, (once f xs s).2.2 = .ok ds) : (once f xs s).2.1 = xs := by
  induction xs generalizing s with
  | nil => rfl
  | cons x xs ih =>
    obtain ⟨ds, h⟩ := h
    simp only [once] at h ⊢
    generalize f.body s f.takes x = y at h ⊢
    obtain ⟨s1, y⟩ := y
    cases y with
    | error e => cases h
    | ok d =>
      have := ih s1
      dsimp only at h ⊢
      revert this h
      generalize once f xs s1 = z
      obtain ⟨s2, cs, z⟩ := z
      cases z with
      | error e => exact fun h _ => (nomatch h)
      | ok ds => exact fun _ this => congrArg (x :: ·) (this ⟨ds, rfl⟩)

/-- As many rows come back as points went in. -/
theorem C81_length {S} (f : Sim S) (inputs outs cols : List String) (rows : List Dict) (s : S) {s' os} (h : loop f inputs outs cols rows s = (s', .ok os)) :
    os.length = rows.length := by
  induction rows generalizing s s' os with
  | nil => cases h; rfl
  | cons r rs ih =>
    simp only [loop] at h
    split at h
    · cases h
    · rename_i x hx
      split at h
      · cases h
      · rename_i s1 d hd
        split at h
        · cases h
        · rename_i o ho
          split at h
          · cases h
          · rename_i s2 os' hl
            cases h
            simp [ih s1 hl]

/-- A TypeError raised inside a simulator that takes `libE_info` leads to a second call of the same point, without it, in the state the first call left. -/
theorem C81_twice {S} (f : Sim S) (ht : f.takes = true) (s s1 : S) (x : Dict) (h : f.body s true x = (s1, .error .type)) : attempt f s x = f.body s1 false x := by
  simp [attempt, Sim.call, ht, h]

/-- A simulator that counts its calls and raises a TypeError in the first. -/
def counter : Sim Nat := ⟨true, fun s info x => (s + 1, if info then .error .type else .ok [("f", (x.lookup "x").getD 0 + s)])⟩

/-- Witness: the error of the first call is not seen, the result is that of the second call, which had no executor. -/
theorem C81_twice_witness : loop counter ["x"] ["f"] ["f"] [[("x", 10)], [("x", 20)]] 0 = (4, .ok [[("f", 11)], [("f", 23)]]) := rfl

/-- An output that the simulator does not return is 0 in the history, without an error. -/
theorem C81_missing (cols outs : List String) (d : Dict) (c : String) (hc : c ∈ cols) (h : d.lookup c = none) : (c, 0) ∈ row cols outs d := by
  unfold row
  rw [List.mem_map]
  refine ⟨c, hc, ?_⟩
  simp [h]

/-- What is returned is stored under its own name. -/
theorem C81_stored (cols outs : List String) (d : Dict) (c : String) (v : Int) (hc : c ∈ cols) (ho : c ∈ outs) (h : d.lookup c = some v) : (row cols outs d).lookup c = some v := by
  unfold row
  induction cols with
  | nil => cases hc
  | cons k ks ih =>
    rw [List.map_cons, List.lookup_cons]
    by_cases hk : c = k
    · subst hk
      simp [ho, h]
    · have : (c == k) = false := by simpa using hk
      rw [this]
      exact ih ((List.mem_cons.mp hc).resolve_left hk)

/-- Outputs with names that the description does not have are left out. -/
theorem C81_unknown (cols outs : List String) (d : Dict) (c : String) (v : Int) (ho : c ∉ outs) (h : (c, v) ∈ row cols outs d) : v = 0 := by
  unfold row at h
  obtain ⟨k, _, hk⟩ := List.mem_map.mp h
  injection hk with h1 h2
  subst h1
  simpa [ho] using h2.symm

/-- A generator object is ignored when the function runs in a thread or elsewhere: such runners call `gen_f`, which is not there. -/
theorem C81_runner (endpoint : String) (threaded : Bool) (g : Generator) :
    (fromSpecs endpoint threaded (some g) = .globus ∨ fromSpecs endpoint threaded (some g) = .thread ↔ endpoint.length > 0 ∨ threaded = true) := by
  unfold fromSpecs
  split
  · simp [*]
  · split
    · simp [*]
    · cases g <;> simp [*]

/-- A function with `n` parameters gets the first `n` of the four arguments. -/
theorem C81_args (n : Nat) : (truncated n).length = min n 4 ∧ truncated n <+: [.input, .persisInfo, .specs, .libEInfo] := by
  unfold truncated
  exact ⟨by simp, List.take_prefix ..⟩

/-- An ordinary simulator: two points, one call each. -/
example : loop (S := Nat) ⟨false, fun s _ x => (s + 1, .ok [("f", 2 * (x.lookup "x").getD 0)])⟩ ["x"] ["f"] ["f", "g"] [[("sim_id", 0), ("x", 10)], [("sim_id", 1), ("x", 20)]] 0 =
    (2, .ok [[("f", 20), ("g", 0)], [("f", 40), ("g", 0)]]) := rfl

end Verif.Gest
