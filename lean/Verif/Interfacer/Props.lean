import Verif.Interfacer.Model

/-!
# C87: what the interface to a persistent generator hands over
-/

namespace Verif.Interfacer

variable {P R E V : Type}

/-! ### Specification -/

/-- The points which a process sends before it ends. -/
def lead : List (Msg P R E) → List P
  | .points p :: ms => p :: lead ms
  | _ => []

/-- How the process ends, if it does. -/
def final : List (Msg P R E) → Option (R ⊕ E)
  | [] => none
  | .points _ :: ms => final ms
  | .done r :: _ => some (.inl r)
  | .err e :: _ => some (.inr e)

/-- The points that calls returned. -/
def given (outs : List (Out P R E)) : List P := outs.filterMap (fun | .points p => some p | _ => none)

/-- The results that calls of `export` returned. -/
def exported (outs : List (Out P R E)) : List R := outs.filterMap (fun | .result r => r | _ => none)

theorem drain_final : ∀ (ms : List (Msg P R E)), (drain ms).map (·.2) = final ms
  | [] => rfl
  | .points _ :: ms => by rw [drain, final, drain_final ms]
  | .done _ :: _ => rfl
  | .err _ :: _ => rfl

/-! ### One call -/

/-- Points that may still come. -/
def left (s : St P R E V) : List P := if s.ended.isSome then [] else lead s.msgs

theorem settle_out (s : St P R E V) (e : R ⊕ E) : (settle s e).1.ended = s.ended ∧ (settle s e).1.msgs = s.msgs ∧ (settle s e).1.proc = s.proc ∧
    (settle s e).2.stuck = false ∧ given [(settle s e).2] = [] ∧ exported [(settle s e).2] = [] ∧
    (settle s e).1.result = (match e with | .inl r => some r | .inr _ => s.result) := by
  cases e <;> exact ⟨rfl, rfl, rfl, rfl, rfl, rfl, rfl⟩

theorem ensure_same (s : St P R E V) : (ensure s).ended = s.ended ∧ (ensure s).msgs = s.msgs ∧ (ensure s).result = s.result ∧ (ensure s).proc ≠ .absent ∧
    (s.proc ≠ .made → (ensure s).proc = .started) ∧ (s.proc = .made → (ensure s).proc = .made) := by
  unfold ensure
  split
  · rename_i h
    exact ⟨rfl, rfl, rfl, by simp, fun _ => rfl, fun hm => by rw [h] at hm; cases hm⟩
  · rename_i h
    refine ⟨rfl, rfl, rfl, h, fun hm => ?_, fun h => h⟩
    cases hp : s.proc with
    | absent => exact absurd hp h
    | made => exact absurd hp hm
    | started => rfl

theorem recv_left (s : St P R E V) : ∃ ps, given [(recv s).2] = ps ∧ left s = ps ++ left (recv s).1 := by
  unfold recv
  split
  · exact ⟨[], rfl, rfl⟩
  · rename_i he
    split
    · exact ⟨[], rfl, rfl⟩
    · split
      · exact ⟨[], rfl, rfl⟩
      · rename_i p ms hm
        refine ⟨[p], rfl, ?_⟩
        unfold left
        rw [if_neg he, if_neg he, hm]
        rfl
      · rename_i r ms hm
        refine ⟨[], rfl, ?_⟩
        unfold left
        rw [if_neg he, hm]
        rfl
      · rename_i r ms hm
        refine ⟨[], rfl, ?_⟩
        unfold left
        rw [if_neg he, hm]
        rfl

/-- Every call takes the points it returns from the front of those to come; `finalize` takes all and returns none. -/
theorem step_left (keep : List String) (yes : V) (stop : Int) (s : St P R E V) (c : Call V) :
    ∃ drop, left s = given [(step keep yes stop s c).2] ++ drop ++ left (step keep yes stop s c).1 ∧
      ((∀ h : c = .finalize, False) → drop = []) := by
  cases c with
  | setup =>
    simp only [step]
    split
    · exact ⟨[], rfl, fun _ => rfl⟩
    · exact ⟨[], rfl, fun _ => rfl⟩
  | suggest =>
    obtain ⟨ps, h1, h2⟩ := recv_left (ensure s)
    refine ⟨[], ?_, fun _ => rfl⟩
    simp only [step]
    have : left s = left (ensure s) := by
      unfold left
      rw [(ensure_same s).1, (ensure_same s).2.1]
    rw [this, h2, h1]
    simp
  | ingest a tag =>
    have h0 : left s = left (ensure s) := by
      unfold left
      rw [(ensure_same s).1, (ensure_same s).2.1]
    refine ⟨[], ?_, fun _ => rfl⟩
    simp only [step]
    split
    · simpa [given] using h0
    · split
      · simpa [given] using h0
      · simpa [given, left] using h0
  | finalize =>
    simp only [step]
    split
    · exact ⟨[], rfl, fun _ => rfl⟩
    · split
      · rename_i e he
        refine ⟨[], ?_, fun _ => rfl⟩
        have hs : s.ended = some e := he
        obtain ⟨h1, h2, _, _, h5, _⟩ := settle_out { s with inbox := s.inbox ++ [.nothing stop] } e
        rw [h5]
        unfold left
        rw [h1]
        simp [hs]
      · rename_i he
        have hs : s.ended = none := he
        split
        · refine ⟨[], ?_, fun _ => rfl⟩
          simp [given, left]
        · split
          · refine ⟨lead s.msgs, ?_, fun h => (h (by trivial)).elim⟩
            simp [given, left, hs, lead]
          · rename_i ms e hd
            refine ⟨lead s.msgs, ?_, fun h => (h (by trivial)).elim⟩
            obtain ⟨h1, h2, _, _, h5, _⟩ := settle_out { s with inbox := s.inbox ++ [.nothing stop], msgs := ms, ended := some e } e
            rw [h5]
            unfold left
            rw [h1]
            simp [hs]
  | «export» => exact ⟨[], rfl, fun _ => rfl⟩

theorem given_cons (o : Out P R E) (os : List (Out P R E)) : given (o :: os) = given [o] ++ given os := by
  unfold given
  rw [← List.filterMap_append]
  rfl

theorem exported_cons (o : Out P R E) (os : List (Out P R E)) : exported (o :: os) = exported [o] ++ exported os := by
  unfold exported
  rw [← List.filterMap_append]
  rfl

theorem stuck_waits {o : Out P R E} (h : o.stuck = true) : o = .waits := by cases o <;> simp [Out.stuck] at h ⊢

theorem run_left (keep : List String) (yes : V) (stop : Int) : ∀ (cs : List (Call V)) (s : St P R E V),
    given (run keep yes stop s cs).2 <+: left s
  | [], s => ⟨left s, by simp [run, given]⟩
  | c :: cs, s => by
    obtain ⟨drop, h1, h2⟩ := step_left keep yes stop s c
    simp only [run]
    split
    · rename_i h
      exact ⟨left s, by simp [given]⟩
    · rename_i hw
      by_cases hc : c = .finalize
      · -- nothing comes after `finalize`
        obtain ⟨t, ht⟩ := run_left keep yes stop cs (step keep yes stop s c).1
        have hl : left (step keep yes stop s c).1 = [] ∨ given [(step keep yes stop s c).2] ++ drop = [] := by
          subst hc
          simp only [step] at hw ⊢
          split
          · rename_i hp
            right
            have hb : (step keep yes stop s .finalize) = (s, .runtime) := by simp [step, hp]
            rw [hb] at h1
            simp only [given, List.filterMap_cons, List.filterMap_nil, List.nil_append] at h1 ⊢
            have := congrArg List.length h1
            rw [List.length_append] at this
            exact List.eq_nil_of_length_eq_zero (by omega)
          · rename_i hp
            rw [if_neg hp] at hw
            left
            split at hw
            · rename_i e he
              unfold left
              rw [(settle_out _ e).1]
              simp [he]
            · rename_i he
              split at hw
              · simp [Out.stuck] at hw
              · rename_i hst
                rw [if_neg hst]
                split at hw
                · simp [Out.stuck] at hw
                · rename_i ms e hd
                  unfold left
                  rw [(settle_out _ e).1]
                  simp
        rw [given_cons]
        rcases hl with h | h
        · rw [h] at ht
          have : given (run keep yes stop (step keep yes stop s c).1 cs).2 = [] := List.append_eq_nil_iff.mp ht |>.1
          rw [this, List.append_nil]
          exact ⟨drop ++ left (step keep yes stop s c).1, by rw [h1, List.append_assoc]⟩
        · have h3 := List.append_eq_nil_iff.mp h
          rw [h3.1, List.nil_append]
          refine ⟨t, ?_⟩
          rw [ht, h1, h3.1, h3.2]
          rfl
      · rw [h2 hc, List.append_nil] at h1
        obtain ⟨t, ht⟩ := run_left keep yes stop cs (step keep yes stop s c).1
        refine ⟨t, ?_⟩
        rw [given_cons, List.append_assoc, ht, h1]

/-- Points are handed out in the order in which the generator sends them, each at most once, whatever the calls. -/
theorem C87_points (keep : List String) (yes : V) (stop : Int) (msgs : List (Msg P R E)) (cs : List (Call V)) :
    given (run keep yes stop (fresh msgs) cs).2 <+: lead msgs := run_left keep yes stop cs (fresh msgs)

/-- Without `setup` by hand the n-th call for points gets the n-th points: no points are left out before `finalize`. -/
theorem C87_all (keep : List String) (yes : V) (stop : Int) : ∀ (n : Nat) (msgs : List (Msg P R E)), n ≤ (lead msgs).length →
    (run keep yes stop (fresh (V := V) msgs) (List.replicate n .suggest)).2 = ((lead msgs).take n).map .points := by
  have gen : ∀ (n : Nat) (s : St P R E V), s.ended = none → s.proc ≠ .made → n ≤ (lead s.msgs).length →
      (run keep yes stop s (List.replicate n .suggest)).2 = ((lead s.msgs).take n).map .points := by
    intro n
    induction n with
    | zero => intro s _ _ _; simp [run]
    | succ n ih =>
      intro s he hp hn
      obtain ⟨e1, e2, _, _, e5, _⟩ := ensure_same s
      have hst := e5 hp
      cases hm : s.msgs with
      | nil => rw [hm] at hn; simp [lead] at hn
      | cons m ms => cases m with
        | points p =>
          have hr : recv (ensure s) = ({ ensure s with msgs := ms }, .points p) := by
            unfold recv
            simp [e1, he, hst, e2, hm]
          rw [List.replicate_succ]
          simp only [run, step, hr, Out.stuck, lead, List.take_succ_cons, List.map_cons]
          rw [hm] at hn
          simp only [lead, List.length_cons] at hn
          simp only [Bool.false_eq_true, if_false]
          rw [ih { ensure s with msgs := ms } (by simp [e1, he]) (by simp [hst]) (by simpa using hn)]
        | done r => rw [hm] at hn; simp [lead] at hn
        | err e => rw [hm] at hn; simp [lead] at hn
  intro n msgs hn
  exact gen n (fresh msgs) rfl (by simp [fresh]) hn

example : (run (V := Nat) [] 1 9 (fresh (E := Nat) [.points 1, .points 2, .points 3, .done "r"]) [.suggest, .suggest, .finalize, .suggest, .export]).2 =
    [.points 1, .points 2, .nothing, .finished, .result (some "r")] ∧
    (run (V := Nat) [] 1 9 (fresh (E := Nat) [.points 1, .points 2, .points 3, .done "r"]) [.finalize, .export]).2 = [.runtime, .result none] := by
  decide

/-! ### The end -/

/-- What is known of the end is how the process ends. -/
structure Ends (f : Option (R ⊕ E)) (s : St P R E V) : Prop where
  msgs : s.ended = none → final s.msgs = f
  ended : ∀ e, s.ended = some e → f = some e
  result : ∀ r, s.result = some r → s.ended = some (.inl r)

theorem fresh_ends (msgs : List (Msg P R E)) : Ends (final msgs) (fresh (V := V) msgs) :=
  ⟨fun _ => rfl, fun _ h => (nomatch h), fun _ h => (nomatch h)⟩

theorem recv_ends {f : Option (R ⊕ E)} {s : St P R E V} (h : Ends f s) : Ends f (recv s).1 := by
  unfold recv
  split
  · exact h
  · rename_i he
    have he' : s.ended = none := by simpa using he
    split
    · exact h
    · split
      · exact h
      · rename_i p ms hm
        refine ⟨fun _ => ?_, h.ended, h.result⟩
        have := h.msgs he'
        rw [hm] at this
        exact this
      · rename_i r ms hm
        have := h.msgs he'
        rw [hm] at this
        refine ⟨fun h => (nomatch h), fun e hx => ?_, fun q hq => ?_⟩
        · cases hx; exact this.symm
        · have h2 := h.result q hq; rw [he'] at h2; cases h2
      · rename_i r ms hm
        have := h.msgs he'
        rw [hm] at this
        refine ⟨fun h => (nomatch h), fun e hx => ?_, fun q hq => ?_⟩
        · cases hx; exact this.symm
        · have h2 := h.result q hq; rw [he'] at h2; cases h2

theorem settle_ends {f : Option (R ⊕ E)} {s : St P R E V} {e : R ⊕ E} (h : Ends f s) (he : s.ended = some e) : Ends f (settle s e).1 := by
  cases e with
  | inl r =>
    refine ⟨h.msgs, h.ended, fun q hq => ?_⟩
    cases hq
    exact he
  | inr e => exact h

theorem step_ends (keep : List String) (yes : V) (stop : Int) {f : Option (R ⊕ E)} {s : St P R E V} (h : Ends f s) (c : Call V)
    (hw : (step keep yes stop s c).2.stuck = false) : Ends f (step keep yes stop s c).1 := by
  have hens : Ends f (ensure s) := by
    obtain ⟨e1, e2, e3, _⟩ := ensure_same s
    exact ⟨by rw [e1, e2]; exact h.msgs, by rw [e1]; exact h.ended, by rw [e1, e3]; exact h.result⟩
  cases c with
  | setup =>
    simp only [step]
    split
    · exact ⟨h.msgs, h.ended, h.result⟩
    · exact h
  | suggest => simp only [step]; exact recv_ends hens
  | ingest a tag =>
    simp only [step]
    split
    · exact hens
    · split
      · exact hens
      · exact ⟨hens.msgs, hens.ended, hens.result⟩
  | finalize =>
    simp only [step] at hw ⊢
    split
    · exact h
    · rename_i hp
      rw [if_neg hp] at hw
      split
      · rename_i e he
        exact settle_ends ⟨h.msgs, h.ended, h.result⟩ he
      · rename_i he
        have he' : s.ended = none := he
        rw [he] at hw
        simp only at hw
        split
        · rename_i hst
          rw [if_pos hst] at hw
          simp [Out.stuck] at hw
        · rename_i hst
          rw [if_neg hst] at hw
          split
          · rename_i hd
            rw [hd] at hw
            simp [Out.stuck] at hw
          · rename_i ms e hd
            have hf := drain_final s.msgs
            have hd' : drain s.msgs = some (ms, e) := hd
            rw [hd', h.msgs he'] at hf
            refine settle_ends ⟨fun h => (nomatch h), fun e' hx => ?_, fun q hq => ?_⟩ rfl
            · cases hx; exact hf.symm
            · have h2 := h.result q hq; rw [he'] at h2; cases h2
  | «export» => exact h

/-- What `export` returns is the value of the generator function, never anything else. -/
theorem C87_result (keep : List String) (yes : V) (stop : Int) (msgs : List (Msg P R E)) (cs : List (Call V)) (r : R)
    (h : r ∈ exported (run keep yes stop (fresh msgs) cs).2) : final msgs = some (.inl r) := by
  have gen : ∀ (cs : List (Call V)) (s : St P R E V), Ends (final msgs) s → r ∈ exported (run keep yes stop s cs).2 → final msgs = some (.inl r) := by
    intro cs
    induction cs with
    | nil => intro s _ h; simp [run, exported] at h
    | cons c cs ih =>
      intro s hs h
      simp only [run] at h
      split at h
      · simp [exported] at h
      · rename_i hw
        rw [exported_cons, List.mem_append] at h
        rcases h with h | h
        · cases c with
          | «export» =>
            simp only [step, exported, List.filterMap_cons, List.filterMap_nil] at h
            cases hr : s.result with
            | none => rw [hr] at h; simp at h
            | some q =>
              rw [hr] at h
              simp at h
              subst h
              exact hs.ended _ (hs.result _ hr)
          | setup => simp only [step] at h; split at h <;> simp [exported] at h
          | suggest =>
            simp only [step, recv] at h
            split at h
            · simp [exported] at h
            · split at h
              · simp [exported] at h
              · split at h <;> simp [exported] at h
          | ingest a tag =>
            simp only [step] at h
            split at h
            · simp [exported] at h
            · split at h <;> simp [exported] at h
          | finalize =>
            simp only [step] at h
            split at h
            · simp [exported] at h
            · split at h
              · rw [(settle_out _ _).2.2.2.2.2.1] at h; cases h
              · split at h
                · simp [exported] at h
                · split at h
                  · simp [exported] at h
                  · rw [(settle_out _ _).2.2.2.2.2.1] at h; cases h
        · exact ih _ (step_ends keep yes stop hs c (by simpa using hw)) h
  exact gen cs (fresh msgs) (fresh_ends msgs) h

/-- After a `finalize` that returns, `export` has the value. -/
theorem C87_exported (keep : List String) (yes : V) (stop : Int) (msgs : List (Msg P R E)) (cs : List (Call V)) (s : St P R E V) (os : List (Out P R E))
    (hr : run keep yes stop (fresh msgs) cs = (s, os)) (hos : ∀ o ∈ os, o.stuck = false) (hf : (step keep yes stop s .finalize).2 = .nothing) :
    ∃ r, final msgs = some (.inl r) ∧ (step keep yes stop (step keep yes stop s .finalize).1 .export).2 = .result (some r) := by
  have gen : ∀ (cs : List (Call V)) (s : St P R E V), Ends (final msgs) s → (∀ o ∈ (run keep yes stop s cs).2, o.stuck = false) →
      Ends (final msgs) (run keep yes stop s cs).1 := by
    intro cs
    induction cs with
    | nil => intro s hs _; exact hs
    | cons c cs ih =>
      intro s hs ho
      simp only [run] at ho ⊢
      split at ho
      · have := ho .waits (by simp)
        simp [Out.stuck] at this
      · rename_i hw
        rw [if_neg hw]
        exact ih _ (step_ends keep yes stop hs c (by simpa using hw)) (fun o h => ho o (List.mem_cons_of_mem _ h))
  have he := gen cs (fresh msgs) (fresh_ends msgs) (by rw [hr]; exact hos)
  rw [hr] at he
  have hE := step_ends keep yes stop he .finalize (by rw [hf]; rfl)
  have hres : ∃ r, (step keep yes stop s .finalize).1.result = some r := by
    simp only [step] at hf ⊢
    split at hf
    · cases hf
    · rename_i hp
      rw [if_neg hp]
      split at hf
      · rename_i e hh
        cases e with
        | inl r => exact ⟨r, rfl⟩
        | inr e => simp [settle] at hf
      · split at hf
        · cases hf
        · rename_i hst
          rw [if_neg hst]
          split at hf
          · cases hf
          · rename_i ms e hd
            cases e with
            | inl r => exact ⟨r, rfl⟩
            | inr e => simp [settle] at hf
  obtain ⟨r, hres⟩ := hres
  exact ⟨r, hE.ended _ (hE.result _ hres), congrArg Out.result hres⟩

/-- If the generator function ends, every call returns or raises, as long as `setup` is not called by hand. -/
theorem C87_returns_partial (keep : List String) (yes : V) (stop : Int) (msgs : List (Msg P R E)) (cs : List (Call V)) (hf : (final msgs).isSome)
    (hs : ∀ c ∈ cs, (h : c = .setup) → False) : .waits ∉ (run keep yes stop (fresh (V := V) msgs) cs).2 := by
  have one : ∀ (s : St P R E V) (c : Call V), Ends (final msgs) s → s.proc ≠ .made → ((h : c = .setup) → False) →
      (step keep yes stop s c).2.stuck = false ∧ (step keep yes stop s c).1.proc ≠ .made := by
    intro s c he hp hc
    obtain ⟨e1, e2, _, _, e5, _⟩ := ensure_same s
    have hst := e5 hp
    cases c with
    | setup => exact absurd rfl hc
    | suggest =>
      simp only [step, recv]
      split
      · exact ⟨rfl, by rw [hst]; simp⟩
      · rename_i hn
        rw [if_neg (by simp [hst])]
        split
        · rename_i hm
          have := he.msgs (by rw [← e1]; simpa using hn)
          rw [← e2, hm] at this
          rw [← this] at hf
          cases hf
        · exact ⟨rfl, by simp [hst]⟩
        · exact ⟨rfl, by simp [hst]⟩
        · exact ⟨rfl, by simp [hst]⟩
    | ingest a tag =>
      simp only [step]
      split
      · exact ⟨rfl, by rw [hst]; simp⟩
      · split
        · exact ⟨rfl, by rw [hst]; simp⟩
        · exact ⟨rfl, by simp [hst]⟩
    | finalize =>
      simp only [step]
      split
      · exact ⟨rfl, hp⟩
      · rename_i hab
        have hst' : s.proc = .started := by
          cases h : s.proc with
          | absent => exact absurd h hab
          | made => exact absurd h hp
          | started => rfl
        split
        · rename_i e _
          exact ⟨(settle_out _ e).2.2.2.1, by rw [(settle_out _ e).2.2.1]; exact hp⟩
        · rename_i hn
          rw [if_neg (by simp [hst'])]
          split
          · rename_i hd
            have := drain_final s.msgs
            have hd' : drain s.msgs = none := hd
            rw [hd', he.msgs hn] at this
            rw [← this] at hf
            cases hf
          · rename_i ms e _
            exact ⟨(settle_out _ e).2.2.2.1, by rw [(settle_out _ e).2.2.1]; exact hp⟩
    | «export» => exact ⟨rfl, hp⟩
  have gen : ∀ (cs : List (Call V)) (s : St P R E V), Ends (final msgs) s → s.proc ≠ .made → (∀ c ∈ cs, (h : c = .setup) → False) →
      .waits ∉ (run keep yes stop s cs).2 := by
    intro cs
    induction cs with
    | nil => intro s _ _ _ h; simp [run] at h
    | cons c cs ih =>
      intro s he hp hc
      obtain ⟨h1, h2⟩ := one s c he hp (hc c List.mem_cons_self)
      simp only [run, h1, Bool.false_eq_true, if_false, List.mem_cons, not_or]
      refine ⟨fun h => ?_, ih _ (step_ends keep yes stop he c h1) h2 (fun d hd => hc d (List.mem_cons_of_mem _ hd))⟩
      rw [← h] at h1
      cases h1
  exact gen cs (fresh msgs) (fresh_ends msgs) (by simp [fresh]) hs

/-- After `setup` by hand, which its documentation asks for, the process is never started: no points ever come, and the first call of `suggest` or `finalize` does not
return, whatever the generator function. -/
theorem C87_setup (keep : List String) (yes : V) (stop : Int) (msgs : List (Msg P R E)) (cs : List (Call V)) (c : Call V) (hc : c = .suggest ∨ c = .finalize) :
    .waits ∈ (run keep yes stop (fresh msgs) (.setup :: cs ++ [c])).2 ∧ given (run keep yes stop (fresh msgs) (.setup :: cs ++ [c])).2 = [] := by
  have gen : ∀ (cs : List (Call V)) (s : St P R E V), s.proc = .made → s.ended = none →
      .waits ∈ (run keep yes stop s (cs ++ [c])).2 ∧ given (run keep yes stop s (cs ++ [c])).2 = [] := by
    intro cs
    induction cs with
    | nil =>
      intro s hp he
      obtain ⟨e1, e2, _, _, _, e6⟩ := ensure_same s
      have hm := e6 hp
      have hw : (step keep yes stop s c).2 = .waits := by
        rcases hc with rfl | rfl
        · simp only [step, recv]
          rw [if_neg (by rw [e1, he]; simp), if_pos (by rw [hm]; simp)]
        · simp [step, hp, he]
      simp [run, hw, Out.stuck, given]
    | cons d ds ih =>
      intro s hp he
      obtain ⟨e1, e2, _, _, _, e6⟩ := ensure_same s
      have hm := e6 hp
      have hst : (step keep yes stop s d).2 = .waits ∨ ((step keep yes stop s d).1.proc = .made ∧ (step keep yes stop s d).1.ended = none ∧
          given [(step keep yes stop s d).2] = []) := by
        cases d with
        | setup => simp [step, hp, he, given]
        | suggest =>
          left
          simp only [step, recv]
          rw [if_neg (by rw [e1, he]; simp), if_pos (by rw [hm]; simp)]
        | ingest a tag =>
          right
          simp only [step]
          split
          · exact ⟨hm, by rw [e1, he], rfl⟩
          · split
            · exact ⟨hm, by rw [e1, he], rfl⟩
            · exact ⟨hm, by rw [← he, ← e1], rfl⟩
        | finalize => left; simp [step, hp, he]
        | «export» => exact .inr ⟨hp, he, rfl⟩
      rcases hst with h | ⟨h1, h2, h3⟩
      · simp [run, h, Out.stuck, given]
      · rw [List.cons_append]
        simp only [run]
        split
        · simp [given]
        · obtain ⟨i1, i2⟩ := ih _ h1 h2
          refine ⟨List.mem_cons_of_mem _ i1, ?_⟩
          rw [given_cons, h3, i2]
          rfl
  obtain ⟨h1, h2⟩ := gen cs { fresh (V := V) msgs with proc := .made } rfl rfl
  have hs : step keep yes stop (fresh msgs) .setup = ({ fresh (V := V) msgs with proc := .made }, .nothing) := by simp [step, fresh]
  rw [List.cons_append]
  simp only [run, hs, Out.stuck, Bool.false_eq_true, if_false]
  exact ⟨List.mem_cons_of_mem _ h1, by rw [given_cons, h2]; rfl⟩

example : (run (V := Nat) (R := Nat) (E := Nat) ["sim_id"] 1 9 (fresh [.points 1, .done 5]) [.setup, .ingest ⟨["sim_id"], [[0]]⟩ 2, .suggest, .suggest]).2 =
    [.nothing, .nothing, .waits] := by decide

/-- The error of a generator function is not shown by `suggest`, only by `finalize`. -/
theorem C87_hidden_witness : (run (V := Nat) (P := Nat) (R := Nat) [] 1 9 (fresh [.err "boom"]) [.suggest, .suggest, .export, .finalize]).2 =
    [.finished, .finished, .result none, .remote "boom"] := by decide

/-- Points sent before `finalize` and not asked for are dropped. -/
theorem C87_dropped_witness : (run (V := Nat) (E := Nat) [] 1 9 (fresh [.points 1, .points 2, .done 7]) [.suggest, .finalize, .suggest, .export]).2 =
    [.points 1, .nothing, .finished, .result (some 7)] := by decide

/-! ### Results sent to the generator -/

theorem pick_get (keep : List String) (f : String) (hk : f ∈ keep) : ∀ (fs : List String) (vs : List V), fs.length = vs.length → f ∈ fs →
    (pick keep fs vs)[(fs.filter (fun f => decide (f ∈ keep))).idxOf f]? = vs[fs.idxOf f]?
  | [], _, _, h => (nomatch h)
  | _ :: _, [], h, _ => by simp at h
  | g :: fs, v :: vs, hl, hf => by
    rw [pick, List.filter_cons]
    by_cases e : g = f
    · subst e
      simp [hk]
    · have hf' : f ∈ fs := (List.mem_cons.mp hf).resolve_left (fun h => e h.symm)
      have ih := pick_get keep f hk fs vs (by simpa using hl) hf'
      have hb : (g == f) = false := beq_eq_false_iff_ne.mpr e
      by_cases hg : g ∈ keep
      · simp only [hg, decide_true, if_true, List.idxOf_cons, hb, cond_false, List.getElem?_cons_succ]
        exact ih
      · simp only [hg, decide_false, if_false, List.idxOf_cons, hb, cond_false, List.getElem?_cons_succ, Bool.false_eq_true]
        exact ih

theorem pick_length (keep : List String) : ∀ (fs : List String) (vs : List V), fs.length = vs.length →
    (pick keep fs vs).length = (fs.filter (fun f => decide (f ∈ keep))).length
  | [], [], _ => rfl
  | [], _ :: _, h => by simp at h
  | _ :: _, [], h => by simp at h
  | g :: fs, v :: vs, hl => by
    rw [pick, List.filter_cons]
    have ih := pick_length keep fs vs (by simpa using hl)
    by_cases hg : g ∈ keep <;> simp [hg, ih]

theorem mapM_congr' {α β : Type} {f g : α → Option β} : ∀ {l : List α}, (∀ a ∈ l, f a = g a) → l.mapM f = l.mapM g
  | [], _ => rfl
  | a :: l, h => by
    rw [List.mapM_cons, List.mapM_cons, h a List.mem_cons_self, mapM_congr' (fun b hb => h b (List.mem_cons_of_mem _ hb))]

theorem mapM_map' {α β γ : Type} (f : α → β) (g : β → Option γ) : ∀ (l : List α), (l.map f).mapM g = l.mapM (fun a => g (f a))
  | [] => rfl
  | a :: l => by rw [List.map_cons, List.mapM_cons, List.mapM_cons, mapM_map' f g l]

theorem mapM_const {α β : Type} (b : β) : ∀ (l : List α), l.mapM (fun _ => some b) = some (l.map (fun _ => b))
  | [] => rfl
  | _ :: l => by rw [List.mapM_cons, mapM_const b l]; rfl

/-- What the generator receives has the fields of `persis_in` with the values of the results, in all rows and in their order, and `sim_ended` is set in all rows. -/
theorem C87_fields (keep : List String) (yes : V) (a b : Arr V) (ha : ∀ r ∈ a.rows, r.length = a.fields.length) (h : prep keep yes a = some b) :
    (∀ f, f ∈ b.fields ↔ (f ∈ a.fields ∧ f ∈ keep) ∨ f = "sim_ended") ∧ b.rows.length = a.rows.length ∧
    (∀ f, f ∈ a.fields → f ∈ keep → column b f = column a f) ∧ column b "sim_ended" = some (a.rows.map (fun _ => yes)) := by
  unfold prep at h
  simp only at h
  split at h
  · rename_i hn
    cases h
    have hse : "sim_ended" ∉ a.fields.filter (fun f => decide (f ∈ keep)) := by
      intro hm
      exact (List.nodup_append.mp hn).2.2 _ hm "sim_ended" (by simp) rfl
    refine ⟨by intro f; simp, by simp, ?_, ?_⟩
    · intro f hf hk
      have hm : f ∈ a.fields.filter (fun f => decide (f ∈ keep)) := by simp [hf, hk]
      unfold column
      simp only
      rw [if_pos (List.mem_append_left _ hm), if_pos hf, mapM_map']
      refine mapM_congr' ?_
      intro r hr
      have hlen := pick_length keep a.fields r (ha r hr).symm
      rw [List.idxOf_append, if_pos hm, List.getElem?_append_left (by rw [hlen]; exact List.idxOf_lt_length_of_mem hm)]
      exact pick_get keep f hk a.fields r (ha r hr).symm hf
    · unfold column
      simp only
      rw [if_pos (by simp), mapM_map']
      rw [← mapM_const]
      refine mapM_congr' ?_
      intro r hr
      have hlen := pick_length keep a.fields r (ha r hr).symm
      rw [List.idxOf_append, if_neg hse, List.getElem?_append_right (by rw [hlen]; simp), hlen]
      simp
  · cases h

/-- `ingest` refuses an array exactly when it has a field "sim_ended" that the generator wants, or no `sim_id` for it. -/
theorem C87_refused (keep : List String) (yes : V) (stop : Int) (s : St P R E V) (a : Arr V) (tag : Int) (hn : a.fields.Nodup)
    (ha : ∀ r ∈ a.rows, r.length = a.fields.length) :
    (step keep yes stop s (.ingest a tag)).2 = .value ↔
      ("sim_ended" ∈ a.fields ∧ "sim_ended" ∈ keep) ∨ ¬ ("sim_id" ∈ a.fields ∧ "sim_id" ∈ keep) := by
  have hnd : (a.fields.filter (fun f => decide (f ∈ keep)) ++ ["sim_ended"]).Nodup ↔ ¬ ("sim_ended" ∈ a.fields ∧ "sim_ended" ∈ keep) := by
    rw [List.nodup_append]
    constructor
    · rintro ⟨_, _, h3⟩ ⟨h4, h5⟩
      exact h3 "sim_ended" (by simp [h4, h5]) "sim_ended" (by simp) rfl
    · intro h
      refine ⟨hn.sublist List.filter_sublist, by simp, ?_⟩
      intro x hx y hy e
      simp at hx hy
      subst e
      subst hy
      exact h hx
  simp only [step]
  cases hp : prep keep yes a with
  | none =>
    have : ¬ (a.fields.filter (fun f => decide (f ∈ keep)) ++ ["sim_ended"]).Nodup := by
      intro h
      unfold prep at hp
      simp only at hp
      rw [if_pos h] at hp
      cases hp
    rw [hnd, Classical.not_not] at this
    simp [this]
  | some b =>
    have hno : ¬ ("sim_ended" ∈ a.fields ∧ "sim_ended" ∈ keep) := by
      rw [← hnd]
      unfold prep at hp
      simp only at hp
      split at hp
      · assumption
      · cases hp
    obtain ⟨h1, _, h3, _⟩ := C87_fields keep yes a b ha hp
    simp only [hno, false_or]
    by_cases hid : "sim_id" ∈ a.fields ∧ "sim_id" ∈ keep
    · rw [h3 _ hid.1 hid.2]
      have : ∃ ids, column a "sim_id" = some ids := by
        unfold column
        rw [if_pos hid.1]
        have hlt := List.idxOf_lt_length_of_mem hid.1
        have all : ∀ l : List (List V), (∀ r ∈ l, r.length = a.fields.length) → ∃ ids, l.mapM (fun r => r[a.fields.idxOf "sim_id"]?) = some ids := by
          intro l
          induction l with
          | nil => intro _; exact ⟨[], rfl⟩
          | cons r l ih =>
            intro hl
            obtain ⟨ids, hi⟩ := ih (fun q hq => hl q (List.mem_cons_of_mem _ hq))
            have hr : a.fields.idxOf "sim_id" < r.length := by rw [hl r List.mem_cons_self]; exact hlt
            refine ⟨r[a.fields.idxOf "sim_id"] :: ids, ?_⟩
            rw [List.mapM_cons, hi, List.getElem?_eq_getElem hr]
            rfl
        exact all a.rows ha
      obtain ⟨ids, hi⟩ := this
      rw [hi]
      simp [hid]
    · have : column b "sim_id" = none := by
        unfold column
        rw [if_neg]
        rw [h1]
        rintro (h | h)
        · exact hid h
        · simp at h
      rw [this]
      simp [hid]

/-- One message with the ids of the rows and one with the rows, after those sent before. -/
theorem C87_sent (keep : List String) (yes : V) (stop : Int) (s : St P R E V) (a : Arr V) (tag : Int) (ha : ∀ r ∈ a.rows, r.length = a.fields.length)
    (h : (step keep yes stop s (.ingest a tag)).2 = .nothing) :
    ∃ ids b, column a "sim_id" = some ids ∧ prep keep yes a = some b ∧
      (step keep yes stop s (.ingest a tag)).1.inbox = s.inbox ++ [.work tag ids, .data tag b] := by
  simp only [step] at h ⊢
  have hin : (ensure s).inbox = s.inbox := by unfold ensure; split <;> rfl
  split at h
  · cases h
  · rename_i b hb
    obtain ⟨h1, _, h3, _⟩ := C87_fields keep yes a b ha hb
    split at h
    · cases h
    · rename_i ids hi
      have hmem : "sim_id" ∈ b.fields := by
        unfold column at hi
        split at hi
        · assumption
        · cases hi
      have hid := ((h1 _).mp hmem).resolve_right (by simp)
      refine ⟨ids, b, (h3 _ hid.1 hid.2) ▸ hi, hb, ?_⟩
      rw [hin]

example : prep ["sim_id", "f", "sim_ended"] 1 ⟨["x", "f", "sim_id"], [[10, 20, 0], [11, 21, 1]]⟩ =
    some ⟨["f", "sim_id", "sim_ended"], [[20, 0, 1], [21, 1, 1]]⟩ ∧
    prep ["sim_id", "f", "sim_ended"] 1 ⟨["sim_id", "sim_ended"], [[0, 1]]⟩ = none := by decide

end Verif.Interfacer
