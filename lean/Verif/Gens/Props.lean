import Verif.Gens.Spec
/-!
Property C71: the persistent sampling generators keep the number of points under way constant, end when they are told to, count, cancel
and number points correctly.
-/
namespace Verif.Gens
open Verif.Worker (Obs isStop UAct UserF Body Order)

theorem made_send {G : Gen} {h : List Obs} {m : Made} (hm : G h = .send m) : made G (.sent :: h) = m :: made G h := by
  simp [made, hm]

theorem pts_send {G : Gen} {h : List Obs} {m : Made} (hm : G h = .send m) : pts G (.sent :: h) = pts G h + m.size := by
  simp [pts, made_send hm, Nat.add_comm]

theorem pts_other {G : Gen} {h : List Obs} {x : Obs} (hx : x ≠ .sent) : pts G (x :: h) = pts G h := by
  cases x <;> first | rfl | exact absurd rfl hx

/-- Points sent, those about to be sent included. -/
def Even (G : Gen) (b0 : Nat) (h : List Obs) : Prop :=
  (∀ m, G h = .send m → pts G h + m.size = b0 + given h) ∧ (∀ b, G h = .recv b → pts G h = b0 + given h)

/-- A loop that sends a batch, waits, and then sends as many points as it was given. -/
structure Loops (b0 : Nat) (G : Gen) : Prop where
  start : G [] = .send (.points b0)
  sent : ∀ h, (G h).ends = false → ∃ b, G (.sent :: h) = .recv b
  nothing : ∀ h, G h = .recv false → G (.nothing :: h) = .recv false
  signal : ∀ h t b, isStop t = true → G (.signal t b :: h) = .ret none
  input : ∀ h t o b, G (.input t o b :: h) = .ret none ∨ (isStop t = false ∧ G (.input t o b :: h) = .send (.points o.rows.length))
  error : ∀ h, G (.error :: h) = .raise

theorem Loops.even {b0 : Nat} {G : Gen} (L : Loops b0 G) {h : List Obs} (hp : Plays G h) : Even G b0 h := by
  induction hp with
  | start => exact ⟨fun m hm => by rw [L.start] at hm; injection hm with hm; subst hm; simp [pts, made, given, Made.size], fun b hb => by rw [L.start] at hb; cases hb⟩
  | @step h x hp hx ih =>
    cases hG : G h with
    | send m =>
      rw [hG] at hx
      cases x with
      | sent =>
        obtain ⟨b, hb⟩ := L.sent h (by rw [hG]; rfl)
        refine ⟨fun m' hm' => (by rw [hb] at hm'; cases hm'), fun _ _ => ?_⟩
        rw [pts_send hG, ih.1 m hG]; rfl
      | _ => exact hx.elim
    | recv b =>
      have h0 := ih.2 b hG
      rw [hG] at hx
      cases x with
      | sent => exact hx.elim
      | nothing =>
        cases b with
        | true => exact hx.elim
        | false =>
          have := L.nothing h hG
          exact ⟨fun m' hm' => (by rw [this] at hm'; cases hm'), fun _ _ => by rw [pts_other (by nofun), h0]; rfl⟩
      | signal t b' =>
        have := L.signal h t b' hx
        exact ⟨fun m' hm' => (by rw [this] at hm'; cases hm'), fun _ hb => by rw [this] at hb; cases hb⟩
      | input t o r =>
        rcases L.input h t o r with hi | ⟨_, hi⟩
        · exact ⟨fun m' hm' => (by rw [hi] at hm'; cases hm'), fun _ hb => by rw [hi] at hb; cases hb⟩
        · refine ⟨fun m' hm' => ?_, fun _ hb => by rw [hi] at hb; cases hb⟩
          rw [hi] at hm'; injection hm' with hm'; subst hm'
          rw [pts_other (by nofun), h0]
          simp [given, Made.size, Nat.add_assoc]
      | error =>
        have := L.error h
        exact ⟨fun m' hm' => (by rw [this] at hm'; cases hm'), fun _ hb => by rw [this] at hb; cases hb⟩
      | poll b => cases b <;> exact hx.elim
    | ret m => rw [hG] at hx; exact hx.elim
    | raise => rw [hG] at hx; exact hx.elim

theorem uniform_loops (b0 : Nat) : Loops b0 (uniform b0) where
  start := rfl
  sent _ _ := ⟨true, rfl⟩
  nothing h hn := by
    unfold uniform at hn
    split at hn
    · cases hn
    · cases hn
    · split at hn <;> cases hn
  signal h t b ht := by simp [uniform, goesOn, tagOf, ht]
  input h t o b := by
    cases ht : isStop t <;> simp [uniform, goesOn, tagOf, ht, batch]
  error _ := rfl

theorem nonblocking_loops (b0 : Nat) : Loops b0 (nonblocking b0) where
  start := rfl
  sent _ _ := ⟨false, rfl⟩
  nothing _ _ := rfl
  signal h t b ht := by simp [nonblocking, goesOn, tagOf, ht]
  input h t o b := by
    cases ht : isStop t <;> simp [nonblocking, goesOn, tagOf, ht, batch]
  error _ := rfl

theorem shutdown_loops (b0 limit : Nat) : Loops b0 (shutdown b0 limit) where
  start := rfl
  sent _ _ := ⟨true, rfl⟩
  nothing h hn := by
    unfold shutdown at hn
    split at hn
    · cases hn
    · cases hn
    · cases hn
    · repeat' split at hn
      all_goals cases hn
  signal h t b ht := by
    simp [shutdown, goesOn, tagOf, ht]
  input h t o b := by
    simp only [shutdown, goesOn, tagOf, batch]
    split
    · exact .inl rfl
    · by_cases ht : isStop t = true
      · exact .inl (by simp [ht])
      · exact .inr (by simp [ht])
  error _ := rfl

/-- Once a sampling generator waits, the points it has sent are the rows it has been given and `initial_batch_size` more: the number of
points under way stays the same, whatever the sizes of the arrays it receives. -/
theorem C71_balance (b0 : Nat) (G : Gen) (hG : G = uniform b0 ∨ G = nonblocking b0 ∨ ∃ limit, G = shutdown b0 limit) (h : List Obs) (hp : Plays G h)
    (b : Bool) (hw : G h = .recv b) : pts G h = b0 + given h := by
  rcases hG with rfl | rfl | ⟨limit, rfl⟩
  · exact ((uniform_loops b0).even hp).2 b hw
  · exact ((nonblocking_loops b0).even hp).2 b hw
  · exact ((shutdown_loops b0 limit).even hp).2 b hw

/-- Two of three points are given back, and two new ones are sent; then one. -/
example : Plays (uniform 3) [.sent, .input 2 { tag := 2, rows := [2] } (.data 0), .sent, .input 2 { tag := 2, rows := [0, 1] } (.data 0), .sent] ∧
    pts (uniform 3) [.sent, .input 2 { tag := 2, rows := [2] } (.data 0), .sent, .input 2 { tag := 2, rows := [0, 1] } (.data 0), .sent] = 6 :=
  ⟨.step (.step (.step (.step (.step .start (by decide)) (by decide)) (by decide)) (by decide)) (by decide), by decide⟩

/-- The fixed batches of `batched_history_matching` do not keep the number of points: with one value per message, points pile up. -/
theorem C71_batched_witness : Plays (batched 3) [.sent, .input 2 { tag := 2, rows := [2] } (.data 0), .sent, .input 2 { tag := 2, rows := [0] } (.data 0), .sent] ∧
    pts (batched 3) [.sent, .input 2 { tag := 2, rows := [2] } (.data 0), .sent, .input 2 { tag := 2, rows := [0] } (.data 0), .sent] = 9 ∧
    given [.sent, .input 2 { tag := 2, rows := [2] } (.data 0), .sent, .input 2 { tag := 2, rows := [0] } (.data 0), .sent] = 2 :=
  ⟨.step (.step (.step (.step (.step .start (by decide)) (by decide)) (by decide)) (by decide)) (by decide), by decide, by decide⟩

/-! ### The end -/

/-- The generator does not go on after it was told to stop. -/
theorem Plays.quiet {G : Gen} (hG : ∀ x h, Plays G (x :: h) → tells x = true → (G (x :: h)).ends = true) {h : List Obs} (hp : Plays G h) :
    ∀ x ∈ h.tail, tells x = false := by
  induction hp with
  | start => intro x hx; cases hx
  | @step h x hp hx ih =>
    intro y hy
    cases h with
    | nil => cases hy
    | cons z h =>
      simp only [List.tail_cons, List.mem_cons] at hy
      rcases hy with rfl | hy
      · refine Classical.byContradiction fun hn => ?_
        have := hG y h hp (by simpa using hn)
        cases hA : G (y :: h) <;> rw [hA] at this hx <;> first | exact hx.elim | cases this
      · exact ih y hy

/-- The sampling generators end when they are told to stop, not before, and then send nothing any more. -/
theorem C71_stops (b0 : Nat) (G : Gen) (hG : G = uniform b0 ∨ G = nonblocking b0 ∨ G = batched b0 ∨ ∃ pick vals, G = finalUpdate b0 pick vals) (h : List Obs) (hp : Plays G h) :
    ((G h).ends = true ↔ ∃ x, h.head? = some x ∧ tells x = true) ∧ ∀ x ∈ h.tail, tells x = false := by
  have h1 : ∀ x h, Plays G (x :: h) → ((G (x :: h)).ends = true ↔ tells x = true) := by
    intro x h hp
    cases x with
    | poll b => cases hp with | step hp hx => cases hA : G h <;> rw [hA] at hx <;> (try exact hx.elim) <;> (rename_i b' ; cases b' <;> exact hx.elim)
    | nothing =>
      rcases hG with rfl | rfl | rfl | ⟨pick, vals, rfl⟩ <;> simp [uniform, nonblocking, batched, finalUpdate, goesOn, tagOf, tells, Act.ends]
    | signal t b =>
      rcases hG with rfl | rfl | rfl | ⟨pick, vals, rfl⟩ <;> cases ht : isStop t <;>
        simp [uniform, nonblocking, batched, finalUpdate, goesOn, tagOf, tells, Act.ends, ht]
    | input t o b =>
      rcases hG with rfl | rfl | rfl | ⟨pick, vals, rfl⟩ <;> cases ht : isStop t <;>
        simp [uniform, nonblocking, batched, finalUpdate, goesOn, tagOf, tells, Act.ends, ht]
    | _ => rcases hG with rfl | rfl | rfl | ⟨pick, vals, rfl⟩ <;> simp [uniform, nonblocking, batched, finalUpdate, tells, Act.ends]
  refine ⟨?_, hp.quiet fun x h hp => (h1 x h hp).mpr⟩
  cases h with
  | nil => rcases hG with rfl | rfl | rfl | ⟨pick, vals, rfl⟩ <;> simp [uniform, nonblocking, batched, finalUpdate, goesOn, tagOf, Act.ends]
  | cons x h => simp [h1 x h hp]

example : Plays (uniform 3) [.signal 4 (.sig 20), .sent] ∧ (uniform 3 [.signal 4 (.sig 20), .sent]).ends = true :=
  ⟨.step (.step .start (by decide)) (by decide), by decide⟩

/-! ### The threshold of `persistent_request_shutdown` -/

theorem fCount_given (b0 : Nat) (limit : Nat) {h : List Obs} (hp : Plays (shutdown b0 limit) h) :
    (given h ≤ fCount b0 h) ∧ ((∀ x ∈ h, tells x = false) → fCount b0 h = given h) := by
  induction hp with
  | start => exact ⟨Nat.le_refl _, fun _ => rfl⟩
  | @step h x hp hx ih =>
    obtain ⟨ih1, ih2⟩ := ih
    cases x with
    | input t o r =>
      refine ⟨?_, fun hq => ?_⟩
      · simp only [given, fCount, batch]; omega
      · simp only [given, fCount, batch]; rw [ih2 fun x hx => hq x (List.mem_cons_of_mem _ hx)]
    | signal t b =>
      refine ⟨?_, fun hq => ?_⟩
      · simp only [given, fCount]; omega
      · have h1 := hq _ (List.mem_cons_self)
        cases hA : shutdown b0 limit h <;> rw [hA] at hx <;> first | exact hx.elim | (simp only [tells] at h1; rw [show isStop t = true from hx] at h1; cases h1)
    | _ => exact ⟨ih1, fun hq => ih2 fun x hx => hq x (List.mem_cons_of_mem _ hx)⟩

theorem shutdown_tells (b0 limit : Nat) (x : Obs) (h : List Obs) (hx : tells x = true) : (shutdown b0 limit (x :: h)).ends = true := by
  cases x with
  | input t o r =>
    simp only [tells] at hx
    simp only [shutdown, goesOn, tagOf, hx]
    split <;> rfl
  | signal t b =>
    simp only [tells] at hx
    simp only [shutdown, goesOn, tagOf, hx]
    split <;> rfl
  | _ => cases hx

/-- `persistent_request_shutdown` ends as soon as the rows it was given reach the limit, or when told to; as long as it goes on they are
fewer. -/
theorem C71_limit (b0 limit : Nat) (hl : 0 < limit) (h : List Obs) (hp : Plays (shutdown b0 limit) h) (hf : (shutdown b0 limit h).fails = false) :
    (shutdown b0 limit h).ends = true ↔ limit ≤ given h ∨ ∃ x, h.head? = some x ∧ tells x = true := by
  constructor
  · intro he
    refine Classical.byContradiction fun hn => ?_
    obtain ⟨hn1, hn2⟩ := not_or.mp hn
    have hq : ∀ x ∈ h, tells x = false := by
      intro x hx
      cases h with
      | nil => cases hx
      | cons z h =>
        rcases List.mem_cons.mp hx with rfl | hx
        · exact Classical.byContradiction fun hc => hn2 ⟨x, rfl, by simpa using hc⟩
        · exact hp.quiet (fun x h _ => shutdown_tells b0 limit x h) x hx
    have hc := (fCount_given b0 limit hp).2 hq
    unfold shutdown at he
    split at he
    · cases he
    · cases he
    · cases he
    · rename_i h1 h2 h3
      split at he
      · omega
      · have hg : goesOn h = true := by
          unfold goesOn
          cases h with
          | nil => exact absurd rfl h1
          | cons x h =>
            have := hq x List.mem_cons_self
            cases x <;> simp_all [tagOf, tells]
        rw [hg] at he
        cases he
  · rintro (h1 | ⟨x, hx, ht⟩)
    · have hc := (fCount_given b0 limit hp).1
      refine Classical.byContradiction fun hn => ?_
      have hlt : ∀ h, Plays (shutdown b0 limit) h → (shutdown b0 limit h).ends = false → (shutdown b0 limit h).fails = false → given h < limit := by
        intro h hp
        induction hp with
        | start => intro _ _; exact hl
        | @step h x hp hx ih =>
          intro he hf
          have hend : (shutdown b0 limit h).ends = false := by cases hA : shutdown b0 limit h <;> rw [hA] at hx <;> first | rfl | exact hx.elim
          have hfl : (shutdown b0 limit h).fails = false := by cases hA : shutdown b0 limit h <;> rw [hA] at hx <;> first | rfl | exact hx.elim
          cases x with
          | input t o r =>
            have h2 := (fCount_given b0 limit (.step hp hx)).1
            simp only [shutdown] at he
            split at he
            · cases he
            · omega
          | _ => exact ih hend hfl
      have := hlt h hp (by simpa using hn) hf
      omega
    · cases h with
      | nil => cases hx
      | cons y h => injection hx with hx; subst hx; exact shutdown_tells b0 limit y h ht

/-- Limit five: it goes on after three rows and ends after six. -/
example : Plays (shutdown 3 5) [.input 2 { tag := 2, rows := [3, 4, 5] } (.data 0), .sent, .input 2 { tag := 2, rows := [0, 1, 2] } (.data 0), .sent] ∧
    (shutdown 3 5 [.input 2 { tag := 2, rows := [3, 4, 5] } (.data 0), .sent, .input 2 { tag := 2, rows := [0, 1, 2] } (.data 0), .sent]).ends = true ∧
    (shutdown 3 5 [.input 2 { tag := 2, rows := [0, 1, 2] } (.data 0), .sent]).ends = false :=
  ⟨.step (.step (.step (.step .start (by decide)) (by decide)) (by decide)) (by decide), by decide, by decide⟩

end Verif.Gens
