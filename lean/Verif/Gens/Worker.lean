import Verif.Gens.PropsMore
import Verif.System.PropsLive
/-!
The sampling generators on workers, together with the manager.
-/
namespace Verif.Gens
open Verif.Worker

variable {code : Nat → List Obs → Made → Nat} {G : Gen} {S : UserF}

/-! ### On a worker -/

/-- What the generator has observed is a conversation. -/
def Talks (G : Gen) : Ph → Prop
  | .user o _ h => o.persistent = true → Plays G h
  | .userRows o _ h _ _ => o.persistent = true → Plays G h ∧ ∃ b, G h = .recv b
  | _ => True

theorem talks_call {w : W} {o : Order} {rows : Option Body} : Talks G (w.call o rows).ph := by
  unfold W.call
  split
  · exact fun _ => .start
  · trivial

theorem talks_back {w : W} {m : Msg} {o : Order} {rows : Option Body} {h : List Obs} {x : Obs} (hp : o.persistent = true → Plays G h ∧ ∃ b, G h = .recv b)
    (hx : o.persistent = true → ∀ b, Reply (.recv b) x) : Talks G (w.pushBack m o rows h x).ph := by
  unfold W.pushBack
  split
  · intro ho
    obtain ⟨h1, b, hb⟩ := hp ho
    exact .step h1 (by rw [hb]; exact hx ho b)
  · intro ho
    obtain ⟨h1, b, hb⟩ := hp ho
    exact .step h1 (by rw [hb]; trivial)

theorem talks_tick {w : W} (ht : Talks G w.ph) : Talks G (tick (asUser code G S) w).ph := by
  unfold tick
  cases hp : w.ph with
  | ended => simp only; rw [hp]; trivial
  | failed => simp only; rw [hp]; trivial
  | idle =>
    simp only
    split
    · rw [hp]; trivial
    · unfold W.handle
      dsimp only
      split
      · trivial
      · split
        · simp only [W.log]; trivial
        · split
          · split
            · split
              · simp only [W.log]; trivial
              · trivial
            · split
              · exact talks_call
              · trivial
          · trivial
  | skipRows o =>
    simp only
    split
    · rw [hp]; trivial
    · split <;> trivial
  | needRows o =>
    simp only
    split
    · rw [hp]; trivial
    · exact talks_call
  | user o rows h =>
    simp only
    rw [hp] at ht
    cases ho : o.persistent with
    | false =>
      have hno : ∀ {rows h}, Talks G (.user o rows h) := fun hc => by rw [ho] at hc; cases hc
      split
      · exact hno
      · trivial
      · unfold W.finish
        dsimp only
        repeat' split
        all_goals trivial
      · split
        · exact hno
        · split
          · rw [hp]; exact hno
          · try dsimp only
            split
            · exact hno
            · exact talks_back (fun hc => by rw [ho] at hc; cases hc) (fun hc => by rw [ho] at hc; cases hc)
      · split
        · exact hno
        · split
          · rw [hp]; exact hno
          · try dsimp only
            split
            · exact fun hc => by rw [ho] at hc; cases hc
            · split
              · exact talks_back (fun hc => by rw [ho] at hc; cases hc) (fun hc => by rw [ho] at hc; cases hc)
              · exact hno
    | true =>
      have hP : Plays G h := ht ho
      have hF : asUser code G S w.n o rows h = (G h).user (code w.n h) := by simp [asUser, ho]
      rw [hF]
      cases hG : G h with
      | send m => exact fun _ => .step hP (by rw [hG]; trivial)
      | raise => trivial
      | ret u =>
        simp only [Act.user, W.finish]
        repeat' split
        all_goals trivial
      | recv b =>
        simp only [Act.user]
        split
        · rename_i hb
          exact fun _ => .step hP (by rw [hG, hb.1]; trivial)
        · split
          · rw [hp]; exact ht
          · try dsimp only
            split
            · exact fun _ => ⟨hP, b, hG⟩
            · split
              · rename_i hs
                exact talks_back (fun _ => ⟨hP, b, hG⟩) (fun _ b => by cases b <;> exact hs)
              · exact fun _ => .step hP (by rw [hG]; trivial)
  | userRows o rows h t o' =>
    simp only
    rw [hp] at ht
    split
    · rw [hp]; exact ht
    · try dsimp only
      split
      · rename_i hs
        exact talks_back ht (fun _ b => by cases b <;> exact hs)
      · intro ho
        obtain ⟨h1, b, hb⟩ := ht ho
        exact .step h1 (by rw [hb]; trivial)

/-- On a worker the observations of a generator are conversations, so all theorems of C71 hold there. -/
theorem talks_run (k : Comms.Kind) (as : List Worker.Act) : Talks G (run (asUser code G S) k as).ph := by
  suffices ∀ w : W, Talks G w.ph → Talks G (as.foldl (act (asUser code G S)) w).ph from this _ trivial
  induction as with
  | nil => exact fun w hw => hw
  | cons a as ih =>
    intro w hw
    refine ih _ ?_
    cases a with
    | send m => exact hw
    | carry => exact hw
    | tick => exact talks_tick hw

/-! ### Points under way -/

/-- The number of points that the user function has sent; `size`: the number of points in an array. -/
def ptsOut (size : Nat → Nat) : List Ev → Nat
  | [] => 0
  | .out (.data x) :: tr => ptsOut size tr + size x
  | _ :: tr => ptsOut size tr

/-- The number of rows in orders that the user function has received. -/
def rowsIn : List Ev → Nat
  | [] => 0
  | .utook (_, .work o) :: tr => rowsIn tr + o.rows.length
  | _ :: tr => rowsIn tr

/-- The number of calls of persistent functions. -/
def calls : List Ev → Nat
  | [] => 0
  | .start o _ :: tr => calls tr + if o.persistent then 1 else 0
  | _ :: tr => calls tr

/-- The points that come next. -/
def toCome (G : Gen) : Ph → Nat
  | .user o _ h => if o.persistent then match G h with | .send m => m.size | _ => 0 else 0
  | .userRows o _ _ _ o' => if o.persistent then o'.rows.length else 0
  | _ => 0

def Flight (size : Nat → Nat) (b0 : Nat) (G : Gen) (w : W) : Prop := ptsOut size w.tr + toCome G w.ph ≤ b0 * calls w.tr + rowsIn w.tr

variable {size : Nat → Nat} {b0 : Nat}

theorem Loops.first (L : Loops b0 G) (o : Order) (rows : Option Body) : toCome G (.user o rows []) ≤ b0 * if o.persistent then 1 else 0 := by
  simp only [toCome, L.start, Made.size]
  split <;> simp

theorem Loops.last (L : Loops b0 G) {o : Order} {rows : Option Body} {h : List Obs} {x : Obs} (hx : (∃ t b, x = .signal t b ∧ isStop t = true) ∨ x = .error) :
    toCome G (.user o rows (x :: h)) = 0 := by
  rcases hx with ⟨t, b, rfl, ht⟩ | rfl
  · simp [toCome, L.signal h t b ht]
  · simp [toCome, L.error h]

theorem flight_call (L : Loops b0 G) {w : W} {o : Order} {rows : Option Body} (h : ptsOut size w.tr ≤ b0 * calls w.tr + rowsIn w.tr) : Flight size b0 G (w.call o rows) := by
  unfold Flight W.call
  have := L.first o rows
  split
  · simp only [ptsOut, calls, rowsIn, Nat.mul_add]; omega
  · simp only [W.fail, ptsOut, calls, rowsIn, toCome]; omega

theorem flight_back (L : Loops b0 G) {w : W} {m : Msg} {o : Order} {rows : Option Body} {hh : List Obs} {x : Obs} (h : ptsOut size w.tr ≤ b0 * calls w.tr + rowsIn w.tr)
    (hx : o.persistent = true → (∃ t b, x = .signal t b ∧ isStop t = true) ∨ x = .error) : Flight size b0 G (w.pushBack m o rows hh x) := by
  unfold Flight W.pushBack
  have h0 : ∀ x, (o.persistent = true → (∃ t b, x = Obs.signal t b ∧ isStop t = true) ∨ x = .error) → toCome G (.user o rows (x :: hh)) = 0 := by
    intro x hx
    cases ho : o.persistent with
    | false => simp [toCome, ho]
    | true => exact L.last (hx ho)
  split
  · simp only [ptsOut, calls, rowsIn]; rw [h0 x hx]; exact h
  · simp only; rw [h0 .error fun _ => .inr rfl]; exact h

theorem flight_finish {w : W} {o : Order} {u : UOut} (h : ptsOut size w.tr ≤ b0 * calls w.tr + rowsIn w.tr) : Flight size b0 G (w.finish o u) := by
  unfold Flight W.finish
  cases hb : (w.log (.ret u)).chan.buf <;> simp only <;> (repeat' split) <;> simpa only [W.log, W.fail, ptsOut, calls, rowsIn, toCome, Nat.add_zero] using h

theorem flight_tick (L : Loops b0 G) (hsize : ∀ n h m, size (code n h m) = m.size) (hS : ∀ n o rows h x, S n o rows h ≠ .send x) {w : W}
    (hf : Flight size b0 G w) : Flight size b0 G (tick (asUser code G S) w) := by
  have hle : ptsOut size w.tr ≤ b0 * calls w.tr + rowsIn w.tr := Nat.le_trans (Nat.le_add_right _ _) hf
  unfold tick
  cases hp : w.ph with
  | ended => exact hf
  | failed => exact hf
  | idle =>
    simp only
    split
    · exact hf
    · unfold W.handle
      dsimp only
      split
      · simpa only [Flight, W.log, ptsOut, calls, rowsIn, toCome, Nat.add_zero] using hle
      · split
        · simpa only [Flight, W.log, ptsOut, calls, rowsIn, hp, toCome, Nat.add_zero] using hle
        · split
          · split
            · split
              · simpa only [Flight, W.log, ptsOut, calls, rowsIn, hp, toCome, Nat.add_zero] using hle
              · simpa only [Flight, W.log, ptsOut, calls, rowsIn, toCome, Nat.add_zero] using hle
            · split
              · exact flight_call L (by simpa only [W.log, ptsOut, calls, rowsIn] using hle)
              · simpa only [Flight, W.log, ptsOut, calls, rowsIn, toCome, Nat.add_zero] using hle
          · simpa only [Flight, W.log, W.fail, ptsOut, calls, rowsIn, toCome, Nat.add_zero] using hle
  | skipRows o =>
    simp only
    split
    · exact hf
    · split <;> simpa only [Flight, W.log, W.fail, ptsOut, calls, rowsIn, toCome, Nat.add_zero] using hle
  | needRows o =>
    simp only
    split
    · exact hf
    · exact flight_call L (by simpa only [W.log, ptsOut, calls, rowsIn] using hle)
  | user o rows h =>
    simp only
    cases ho : o.persistent with
    | false =>
      have hF : asUser code G S w.n o rows h = S w.n o rows h := by simp [asUser, ho]
      have h0 : ∀ {rows h}, toCome G (.user o rows h) = 0 := by simp [toCome, ho]
      rw [hF]
      split
      · rename_i x hx; exact absurd hx (hS _ _ _ _ _)
      · simpa only [Flight, W.fail, ptsOut, calls, rowsIn, toCome, Nat.add_zero] using hle
      · exact flight_finish hle
      · split
        · simpa only [Flight, h0, Nat.add_zero] using hle
        · split
          · exact hf
          · try dsimp only
            split
            · simpa only [Flight, W.log, ptsOut, calls, rowsIn, h0, Nat.add_zero] using hle
            · exact flight_back L (by simpa only [W.log, ptsOut, calls, rowsIn] using hle) (fun hc => by rw [ho] at hc; cases hc)
      · split
        · simpa only [Flight, h0, Nat.add_zero] using hle
        · split
          · exact hf
          · rename_i c m hc
            obtain ⟨t, b⟩ := m
            dsimp only
            cases b with
            | work o' => simp only [Flight, W.log, ptsOut, calls, rowsIn, toCome, ho]; simp; omega
            | sig _ | data _ =>
              simp only
              split
              · exact flight_back L (by simpa only [W.log, ptsOut, calls, rowsIn] using hle) (fun hc => by rw [ho] at hc; cases hc)
              · simpa only [Flight, W.log, ptsOut, calls, rowsIn, h0, Nat.add_zero] using hle
    | true =>
      have hF : asUser code G S w.n o rows h = (G h).user (code w.n h) := by simp [asUser, ho]
      rw [hF]
      cases hG : G h with
      | send m =>
        obtain ⟨b, hb⟩ := L.sent h (by rw [hG]; rfl)
        have : toCome G w.ph = m.size := by rw [hp]; simp [toCome, ho, hG]
        unfold Flight at hf ⊢
        rw [this] at hf
        simp only [Act.user, ptsOut, calls, rowsIn, toCome, hb, hsize, ho, if_true]
        omega
      | raise => simpa only [Act.user, Flight, W.fail, ptsOut, calls, rowsIn, toCome, Nat.add_zero] using hle
      | ret u => exact flight_finish hle
      | recv b =>
        simp only [Act.user]
        split
        · rename_i hb
          have : toCome G (.user o rows (.nothing :: h)) = 0 := by simp [toCome, L.nothing h (by rw [hG, hb.1])]
          simpa only [Flight, this, Nat.add_zero] using hle
        · split
          · exact hf
          · rename_i c m hc
            obtain ⟨t, b⟩ := m
            dsimp only
            cases b with
            | work o' => simp only [Flight, W.log, ptsOut, calls, rowsIn, toCome, ho, if_true]; omega
            | sig _ | data _ =>
              simp only
              split
              · rename_i hs
                exact flight_back L (by simpa only [W.log, ptsOut, calls, rowsIn] using hle) (fun _ => .inl ⟨_, _, rfl, hs⟩)
              · have h0 : toCome G (.user o rows (.error :: h)) = 0 := L.last (.inr rfl)
                simpa only [Flight, W.log, ptsOut, calls, rowsIn, h0, Nat.add_zero] using hle
  | userRows o rows h t o' =>
    simp only
    split
    · exact hf
    · rename_i c m hc
      try dsimp only
      split
      · rename_i hs
        exact flight_back L (by simpa only [W.log, ptsOut, calls, rowsIn] using hle) (fun _ => .inl ⟨_, _, rfl, hs⟩)
      · unfold Flight at hf ⊢
        rw [hp] at hf
        simp only [W.log, ptsOut, calls, rowsIn]
        refine Nat.le_trans (Nat.add_le_add_left ?_ _) hf
        simp only [toCome]
        cases ho : o.persistent with
        | false => simp
        | true =>
          simp only [if_true]
          rcases L.input h t o' m.2 with hi | ⟨_, hi⟩ <;> rw [hi] <;> simp [Made.size]

/-- On a worker: a generator never has more points under way than its first batch, for each call. -/
theorem flight_run (L : Loops b0 G) (hsize : ∀ n h m, size (code n h m) = m.size) (hS : ∀ n o rows h x, S n o rows h ≠ .send x) (k : Comms.Kind) (as : List Worker.Act) :
    Flight size b0 G (run (asUser code G S) k as) := by
  suffices ∀ w : W, Flight size b0 G w → Flight size b0 G (as.foldl (act (asUser code G S)) w) from this _ (by simp [Flight, ptsOut, toCome])
  induction as with
  | nil => exact fun w hw => hw
  | cons a as ih =>
    intro w hw
    refine ih _ ?_
    cases a with
    | send m => exact hw
    | carry => exact hw
    | tick => exact flight_tick L hsize hS hw

end Verif.Gens
