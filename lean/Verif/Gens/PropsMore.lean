import Verif.Gens.Props
import Verif.History.Props
/-!
Property C71, continued: which points are cancelled, and how points are numbered and estimated.
-/
namespace Verif.Gens
open Verif.Worker (Obs isStop UAct UserF Body Order)

/-! ### `persistent_uniform_with_cancellations` -/

theorem cancelNext_given (b0 : Nat) (h : List Obs) : cancelFrom.cancelNext b0 h = b0 / 2 + given h := by
  induction h with
  | nil => rfl
  | cons x h ih => cases x <;> simp only [cancelFrom.cancelNext, given, ih, Nat.add_assoc]

theorem made_recv {G : Gen} {h : List Obs} {x : Obs} (hx : x ≠ .sent) : made G (x :: h) = made G h := by
  cases x <;> first | rfl | exact absurd rfl hx

/-- What has been sent and cancelled, depending on the position. -/
def CInv (b0 : Nat) (h : List Obs) : Prop :=
  match posOf h with
  | .make => cancelled (cancelling b0) h = List.range' (b0 / 2) (given h) ∧ pts (cancelling b0) h + batch b0 h = b0 + given h
  | .wait | .dead => cancelled (cancelling b0) h = List.range' (b0 / 2) (given h) ∧ pts (cancelling b0) h = b0 + given h
  | .request t => ∃ o r h', h = .input t o r :: h' ∧ cancelled (cancelling b0) h = List.range' (b0 / 2) (given h') ∧ pts (cancelling b0) h = b0 + given h'
  | .over => cancelled (cancelling b0) h = List.range' (b0 / 2) (given h)

theorem cinv {b0 : Nat} {h : List Obs} (hp : Plays (cancelling b0) h) : CInv b0 h := by
  induction hp with
  | start => simp [CInv, posOf, cancelled, made, given, pts, batch]
  | @step h x hp hx ih =>
    cases hpos : posOf h with
    | make =>
      have hG : cancelling b0 h = .send (.points (batch b0 h)) := by simp [cancelling, hpos]
      rw [hG] at hx
      cases x with
      | sent =>
        simp only [CInv, hpos] at ih
        simp only [CInv, posOf, hpos, pts_send hG, cancelled, made_send hG]
        simp only [cancelled] at ih
        simp only [List.reverse_cons, List.flatMap_append, ih.1, given, Made.size, ih.2]
        simp [Made.cancels]
      | _ => exact hx.elim
    | wait =>
      have hG : cancelling b0 h = .recv true := by simp [cancelling, hpos]
      rw [hG] at hx
      simp only [CInv, hpos] at ih
      cases x with
      | input t o r =>
        simp only [CInv, posOf, hpos]
        exact ⟨o, r, h, rfl, by simpa only [cancelled, made_recv (x := .input t o r) (by nofun)] using ih.1, by rw [pts_other (by nofun)]; exact ih.2⟩
      | signal t b =>
        simp only [CInv, posOf, hpos, show isStop t = true from hx, if_true]
        simpa only [cancelled, made_recv (x := .signal t b) (by nofun), given] using ih.1
      | error =>
        simp only [CInv, posOf, hpos]
        exact ⟨by simpa only [cancelled, made_recv (x := .error) (by nofun), given] using ih.1, by rw [pts_other (by nofun)]; exact ih.2⟩
      | _ => first | exact hx.elim | (rename_i b; cases b <;> exact hx.elim)
    | request t =>
      have hG : cancelling b0 h = .send (.cancel (List.range' (cancelFrom b0 h) (batch b0 h))) := by simp [cancelling, hpos]
      rw [hG] at hx
      simp only [CInv, hpos] at ih
      obtain ⟨o, r, h', rfl, ih1, ih2⟩ := ih
      cases x with
      | sent =>
        have hc : cancelled (cancelling b0) (.sent :: .input t o r :: h') = List.range' (b0 / 2) (given h' + o.rows.length) := by
          simp only [cancelled, made_send hG, List.reverse_cons, List.flatMap_append]
          simp only [cancelled] at ih1
          rw [ih1]
          simp only [List.flatMap_cons, List.flatMap_nil, List.append_nil, Made.cancels, cancelFrom, cancelNext_given, batch]
          exact List.range'_append_1
        simp only [CInv, posOf] at hpos ⊢
        rw [hpos]
        simp only
        by_cases ht : isStop t = true
        · simp only [ht, if_true, given]; exact hc
        · simp only [ht, if_false, given]
          refine ⟨hc, ?_⟩
          rw [pts_send hG, ih2]
          simp only [Made.size, batch, Nat.add_zero, Nat.add_assoc]
      | _ => exact hx.elim
    | over => rw [show cancelling b0 h = .ret none by simp [cancelling, hpos]] at hx; exact hx.elim
    | dead => rw [show cancelling b0 h = .raise by simp [cancelling, hpos]] at hx; exact hx.elim

/-- The ids of the request that comes next, if any. -/
def Act.cancels : Act → List Nat
  | .send m => m.cancels
  | _ => []

/-- `persistent_uniform_with_cancellations` asks to cancel one point for each row it is given: the points from half the first batch on, in
order, each once; the first half of the first batch is never cancelled. -/
theorem C71_cancel (b0 : Nat) (h : List Obs) (hp : Plays (cancelling b0) h) :
    cancelled (cancelling b0) h ++ (cancelling b0 h).cancels = List.range' (b0 / 2) (given h) := by
  have hi := cinv hp
  unfold CInv at hi
  split at hi
  · rename_i hpos; rw [hi.1]; simp [cancelling, hpos, Act.cancels, Made.cancels]
  · rename_i hpos; rw [hi.1]; simp [cancelling, hpos, Act.cancels]
  · rename_i hpos; rw [hi.1]; simp [cancelling, hpos, Act.cancels]
  · rename_i t hpos
    obtain ⟨o, r, h', rfl, h1, _⟩ := hi
    rw [h1]
    simp only [cancelling, hpos, Act.cancels, Made.cancels, cancelFrom, cancelNext_given, batch, given]
    exact List.range'_append_1
  · rename_i hpos; rw [hi]; simp [cancelling, hpos, Act.cancels]

/-- Six points, three rows back: half of six and the two after it. -/
example : Plays (cancelling 6) [.input 2 { tag := 2, rows := [0, 1, 2] } (.data 0), .sent] ∧
    cancelling 6 [.input 2 { tag := 2, rows := [0, 1, 2] } (.data 0), .sent] = .send (.cancel [3, 4, 5]) :=
  ⟨.step (.step .start (by decide)) (by decide), by decide⟩

/-- Only points that exist are cancelled, if at most half of the first batch (rounded up) is given back at a time.  Partial: in general it
is false, see `C71_cancel_violated`. -/
theorem C71_cancel_sent_partial (b0 : Nat) (h : List Obs) (hp : Plays (cancelling b0) h) (hs : ∀ t o r, .input t o r ∈ h → o.rows.length ≤ b0 - b0 / 2)
    (ids : List Nat) (hi : cancelling b0 h = .send (.cancel ids)) : ∀ i ∈ ids, i < pts (cancelling b0) h := by
  have hc := C71_cancel b0 h hp
  have hv := cinv hp
  intro i hi'
  unfold CInv at hv
  split at hv
  · rename_i hpos; simp [cancelling, hpos] at hi
  · rename_i hpos; simp [cancelling, hpos] at hi
  · rename_i hpos; simp [cancelling, hpos] at hi
  · rename_i t _
    obtain ⟨o, r, h', rfl, _, h2⟩ := hv
    have hm : i ∈ List.range' (b0 / 2) (given (Obs.input t o r :: h')) := by
      rw [← hc, hi]; exact List.mem_append_right _ hi'
    have := hs _ o r List.mem_cons_self
    rw [List.mem_range'_1] at hm
    rw [h2]
    simp only [given] at hm
    omega
  · rename_i hpos; simp [cancelling, hpos] at hi

example : Plays (cancelling 6) [.input 2 { tag := 2, rows := [0, 1, 2] } (.data 0), .sent] ∧
    ∀ t o r, .input t o r ∈ ([.input 2 { tag := 2, rows := [0, 1, 2] } (.data 0), .sent] : List Obs) → o.rows.length ≤ 6 - 6 / 2 :=
  ⟨.step (.step .start (by decide)) (by decide), by intro t o r hm; simp only [List.mem_cons, List.not_mem_nil, or_false, reduceCtorEq] at hm; injection hm with _ h; subst h; decide⟩

/-- If all results come back at once, as without `async_return`, points are cancelled that have not been generated. -/
theorem C71_cancel_violated (b0 : Nat) (hb : 2 ≤ b0) : ¬ CancelsSent (cancelling b0) := by
  intro hc
  have hp : Plays (cancelling b0) [.input 2 { tag := 2, rows := List.range b0 } (.data 0), .sent] :=
    .step (.step .start (by simp [cancelling, posOf, Reply])) (by simp [cancelling, posOf, Reply])
  have := hc _ hp (List.range' (b0 / 2) b0) (by simp [cancelling, posOf, cancelFrom, cancelFrom.cancelNext, batch]) (b0 / 2 + b0 - 1) (by rw [List.mem_range'_1]; omega)
  simp [pts, made, cancelling, posOf, batch, Made.size] at this
  omega

open Verif.History (demoCols demoPoints noH0 mkRow init updateXIn Hist Rec) in
/-- What the manager makes of it: four points come in, all four are given back, and the request for 2, 3, 4, 5 adds two rows that no
generator has made: cancelled, without coordinates; the next points come after them. -/
theorem C71_phantom_witness :
    let h1 := (updateXIn (init demoCols 8 noH0 true) 1 (demoPoints [10, 20, 30, 40]) 5 6).1
    let req : Rec := ⟨[(.simId, .scalar), (.cancelRequested, .scalar)], [2, 3, 4, 5].map fun i => mkRow [(.simId, .s i), (.cancelRequested, .s 1)]⟩
    let h2 := (updateXIn h1 1 req 7 8).1
    let h3 := (updateXIn h2 1 (demoPoints [50]) 9 10).1
    h1.index = 4 ∧ h2.index = 6 ∧ h3.index = 7 ∧ (h3.rows.map fun r => (r .simId, r .cancelRequested, r (.user 1))) =
      [(.s 0, .s 0, .v [10, 11]), (.s 1, .s 0, .v [20, 21]), (.s 2, .s 1, .v [30, 31]), (.s 3, .s 1, .v [40, 41]),
       (.s 4, .s 1, .v [0, 0]), (.s 5, .s 1, .v [0, 0]), (.s 6, .s 0, .v [50, 51]), (.s (-1), .s 0, .v [0, 0])] := by
  decide +kernel

/-! ### `persistent_uniform_final_update` -/

section
variable {b0 : Nat} {pick : List Obs → Nat → List Nat} {vals : Body → List (Nat × Int)}

theorem final_send {h : List Obs} {m : Made} (hm : finalUpdate b0 pick vals h = .send m) :
    m = .numbered (List.range' (nextId b0 h) (batch b0 h)) (pick h (batch b0 h)) := by
  unfold finalUpdate at hm
  split at hm
  · cases hm
  · cases hm
  · split at hm
    · injection hm with hm; exact hm.symm
    · cases hm

theorem Plays.sent_of {G : Gen} {h : List Obs} (hp : Plays G (.sent :: h)) : ∃ m, G h = .send m ∧ Plays G h := by
  cases hp with
  | step hp hx =>
    cases hA : G h with
    | send m => exact ⟨m, rfl, hp⟩
    | recv b => rw [hA] at hx; cases b <;> exact hx.elim
    | _ => rw [hA] at hx; exact hx.elim

theorem Plays.tail {G : Gen} {x : Obs} {h : List Obs} (hp : Plays G (x :: h)) : Plays G h := by cases hp; assumption

theorem nextId_pts {h : List Obs} (hp : Plays (finalUpdate b0 pick vals) h) : nextId b0 h = pts (finalUpdate b0 pick vals) h := by
  induction h with
  | nil => rfl
  | cons x h ih =>
    cases x with
    | sent =>
      obtain ⟨m, hm, hp⟩ := hp.sent_of
      rw [pts_send hm, final_send hm, nextId, ih hp]
      simp [Made.size]
    | _ => rw [pts_other (by nofun)]; exact ih hp.tail

theorem corners_length (hk : ∀ h b, (pick h b).length = b) (h : List Obs) : (corners b0 pick h).length = nextId b0 h := by
  induction h with
  | nil => rfl
  | cons x h ih => cases x <;> simp [corners, nextId, ih, hk]

theorem zipIdx_swap {α : Type _} (l : List α) (k : Nat) : (l.zipIdx k).map (fun p => (p.2, p.1)) = (List.range' k l.length).zip l := by
  induction l generalizing k with
  | nil => rfl
  | cons a l ih => simp [List.zipIdx_cons, List.range'_succ, ih]

theorem sentPairs_corners (hk : ∀ h b, (pick h b).length = b) {h : List Obs} (hp : Plays (finalUpdate b0 pick vals) h) :
    sentPairs (finalUpdate b0 pick vals) h = (corners b0 pick h).zipIdx.map fun p => (p.2, p.1) := by
  induction h with
  | nil => rfl
  | cons x h ih =>
    cases x with
    | sent =>
      obtain ⟨m, hm, hp⟩ := hp.sent_of
      have := ih hp
      simp only [sentPairs] at this
      simp only [sentPairs, made_send hm, List.reverse_cons, List.flatMap_append, this, final_send hm, corners, List.zipIdx_append, List.map_append]
      simp only [List.flatMap_cons, List.flatMap_nil, List.append_nil, Made.pairs, zipIdx_swap, corners_length hk, hk, Nat.zero_add]
    | _ => exact ih hp.tail

theorem tally_estimate (c : Nat) (h : List Obs) : tally vals c h = estimate vals h c := by
  have hfold : ∀ (l : List (Nat × Int)) (a : Int × Nat), l.foldl (fun a v => if v.1 = c then (a.1 + v.2, a.2 + 1) else a) a =
      (a.1 + ((l.filter (·.1 = c)).map (·.2)).sum, a.2 + (l.filter (·.1 = c)).length) := by
    intro l
    induction l with
    | nil => intro a; simp
    | cons v l ih =>
      intro a
      rw [List.foldl_cons, ih]
      by_cases hv : v.1 = c
      · simp [hv, Int.add_assoc, Nat.add_assoc, Nat.add_comm]
      · simp [hv]
  induction h with
  | nil => rfl
  | cons x h ih =>
    cases x with
    | input t o r =>
      rw [tally, hfold, ih]
      simp [estimate, values]
    | _ => exact ih
end

/-- `persistent_uniform_final_update` numbers its points from 0 on without gaps, and the array it returns in the end has one row for every
point it has sent, with its `sim_id` and `corner_id`, and as estimate the mean of all values it received for this corner. -/
theorem C71_final (b0 : Nat) (pick : List Obs → Nat → List Nat) (vals : Body → List (Nat × Int)) (hk : ∀ h b, (pick h b).length = b) (h : List Obs)
    (hp : Plays (finalUpdate b0 pick vals) h) :
    (sentPairs (finalUpdate b0 pick vals) h).map (·.1) = List.range (pts (finalUpdate b0 pick vals) h) ∧
    ∀ r, finalUpdate b0 pick vals h = .ret r →
      ∃ rows, r = some (.final rows) ∧ rows.map (fun x => (x.1, x.2.1)) = sentPairs (finalUpdate b0 pick vals) h ∧ ∀ x ∈ rows, x.2.2 = estimate vals h x.2.1 := by
  rw [sentPairs_corners hk hp]
  constructor
  · rw [zipIdx_swap, ← nextId_pts hp, ← corners_length hk h, List.map_fst_zip (by simp), List.range_eq_range']
  · intro r hr
    have : r = some (.final (lastArray b0 pick vals h)) := by
      unfold finalUpdate at hr
      split at hr
      · cases hr
      · cases hr
      · split at hr
        · cases hr
        · injection hr with hr; exact hr.symm
    refine ⟨_, this, by simp [lastArray, Function.comp_def], fun x hx => ?_⟩
    simp only [lastArray, List.mem_map] at hx
    obtain ⟨p, _, rfl⟩ := hx
    exact tally_estimate p.1 h

/-- Two points, values 3 and 5 for their corners, one more batch, and the end. -/
example : finalUpdate 2 (fun h b => (List.range b).map (· + h.length)) (fun _ => [(0, 3), (1, 5)])
      [.signal 4 (.sig 20), .sent, .input 2 { tag := 2, rows := [0, 1] } (.data 0), .sent] =
    .ret (some (.final [(0, 0, 3, 1), (1, 1, 5, 1), (2, 2, 0, 0), (3, 3, 0, 0)])) ∧
    Plays (finalUpdate 2 (fun h b => (List.range b).map (· + h.length)) (fun _ => [(0, 3), (1, 5)]))
      [.signal 4 (.sig 20), .sent, .input 2 { tag := 2, rows := [0, 1] } (.data 0), .sent] :=
  ⟨by decide, .step (.step (.step (.step .start (by decide)) (by decide)) (by decide)) (by decide)⟩

end Verif.Gens
