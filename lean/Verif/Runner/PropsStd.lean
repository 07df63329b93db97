import Verif.Runner.Joint
/-!
C59 for generators that follow the standard (`StandardGenRunner`): what the conversions do to points and results; concrete cases of the
theorems in Props.lean and Joint.lean; what goes wrong.
-/
namespace Verif.Runner
open Verif.Worker Verif.Comms

section
variable {σ F : Type} [DecidableEq F] {C : Arrays.Conv F} {W : Wire F} {G : Gen F σ}

theorem replay_suffix {σ : Type} {ops : Ops σ} {g s : σ} : ∀ {l₁ l₂ : List Call}, replay ops g (l₁ ++ l₂) = some s →
    ∃ t, replay ops g l₂ = some t := by
  intro l₁
  induction l₁ generalizing s with
  | nil => exact fun h => ⟨s, h⟩
  | cons e l₁ ih =>
    intro l₂ h
    have : ∃ t, replay ops g (l₁ ++ l₂) = some t := by
      cases e with
      | finalize => obtain ⟨t, ht, _⟩ := Option.bind_eq_some_iff.mp h; exact ⟨t, ht⟩
      | suggest n x f => obtain ⟨t, ht, _⟩ := Option.bind_eq_some_iff.mp h; exact ⟨t, ht⟩
      | ingest b f =>
        cases f with
        | true => obtain ⟨t, ht, _⟩ := Option.bind_eq_some_iff.mp h; exact ⟨t, ht⟩
        | false =>
          cases b with
          | none => cases h
          | some b => obtain ⟨t, ht, _⟩ := Option.bind_eq_some_iff.mp h; exact ⟨t, ht⟩
    obtain ⟨t, ht⟩ := this
    exact ih ht

theorem mapM_length {α β : Type} {f : α → Option β} : ∀ {l : List α} {l' : List β}, l.mapM f = some l' → l'.length = l.length
  | [], _, h => by cases h; rfl
  | x :: l, l', h => by
    rw [List.mapM_cons] at h
    obtain ⟨y, _, h⟩ := Option.bind_eq_some_iff.mp h
    obtain ⟨ys, hys, h⟩ := Option.bind_eq_some_iff.mp h
    cases h
    simp [mapM_length hys]

theorem toNp_length {pts : List (Arrays.Dict F)} {given : List Arrays.Field} {m : Arrays.Mapping} {a : Arrays.Arr F}
    (h : Arrays.toNp C pts given m = some a) : a.rows.length = pts.length := by
  cases pts with
  | nil => cases h; rfl
  | cons first rest =>
    simp only [Arrays.toNp] at h
    generalize (if given = [] then Arrays.plainFields m first else given) = st at h
    split at h
    · obtain ⟨rs, hrs, rfl⟩ := Option.map_eq_some_iff.mp h
      exact mapM_length hrs
    · cases h

theorem standard_out {s s' : σ × Option (List Arrays.Field)} : ∀ {l : List Call}, s.2 = none →
    replay (standard C W G) s l = some s' → s'.2 = none := by
  intro l
  induction l generalizing s' with
  | nil => intro hs h; cases h; exact hs
  | cons e l ih =>
    intro hs h
    cases e with
    | finalize =>
      obtain ⟨t, ht, h2⟩ := Option.bind_eq_some_iff.mp h
      have := ih hs ht
      simp only [standard] at h2
      obtain ⟨g, _, rfl⟩ := Option.map_eq_some_iff.mp h2
      exact this
    | ingest b f =>
      have key : ∀ {m : Arrays.Mapping} {t : σ × Option (List Arrays.Field)} {b : Body}, t.2 = none →
          (match W.read b with
            | none => none
            | some a => match Arrays.toDicts C a m with
              | none => none
              | some ds => (G.ingest t.1 ds).map (·, t.2)) = some s' → s'.2 = none := by
        intro m t b ht h
        split at h
        · cases h
        · split at h
          · cases h
          · obtain ⟨g, _, rfl⟩ := Option.map_eq_some_iff.mp h
            exact ht
      cases f with
      | true =>
        obtain ⟨t, ht, h2⟩ := Option.bind_eq_some_iff.mp h
        have := ih hs ht
        simp only [standard] at h2
        obtain ⟨b', rfl, h3⟩ := Option.bind_eq_some_iff.mp h2
        exact key this h3
      | false =>
        cases b with
        | none => cases h
        | some b =>
          obtain ⟨t, ht, h2⟩ := Option.bind_eq_some_iff.mp h
          exact key (ih hs ht) h2
    | suggest n x f =>
      obtain ⟨t, ht, h2⟩ := Option.bind_eq_some_iff.mp h
      have ht2 := ih hs ht
      have hq : (if f = true then (standard C W G).initSuggest t n else (standard C W G).suggest t n) = (standard C W G).suggest t n := by
        cases f <;> rfl
      rw [hq] at h2
      simp only [standard] at h2
      split at h2
      · rename_i g' y hy
        split at h2
        · cases h2
          split at hy
          · cases hy
          · obtain ⟨a, _, ha⟩ := Option.map_eq_some_iff.mp hy
            cases ha
            simp only [outAfter, ht2]
        · cases h2
      · cases h2

/-- Full statement: each array sent says what the generator suggested: read back with the generator's names of variables, it gives the
points suggested.  Proved for points over the same variables and types (`Arrays.Uniform`) and an `out` entry that is not given.
Missing: a given `out` list, which the conversion changes so that mapped variables are sent as zeros from the second batch on
(`C59_zeros_witness`); other types (`Arrays.C45_types_witness`). -/
theorem C59_points_partial (hm : Arrays.Proper G.mapping) (c : Sizes) (g : σ) (rows : Option Body) (h : List Obs) {l₁ l₂ : List Call} {n x : Nat}
    {f : Bool} (hl : (after (standard C W G) c (g, none) rows h).log = l₁ ++ .suggest n x f :: l₂) :
    ∃ s s' pts a, replay (standard C W G) (g, none) l₂ = some (s, none) ∧ G.suggest s n = some (s', pts) ∧
      replay (standard C W G) (g, none) (.suggest n x f :: l₂) = some (s', none) ∧ x = W.code a ∧ a.rows.length = pts.length ∧
      ∀ first rest, pts = first :: rest → Arrays.Uniform C G.mapping first pts → ∃ back, Arrays.toDicts C a G.mapping = some back ∧
        back.length = pts.length ∧ ∀ j : Nat, ∀ d d', pts[j]? = some d → back[j]? = some d' → Arrays.Same d d' := by
  have hr := replay_after (ops := standard C W G) (c := c) (g, none) rows h
  rw [hl] at hr
  obtain ⟨t, ht⟩ := replay_suffix hr
  have hb := ht
  obtain ⟨s, hs, h2⟩ := Option.bind_eq_some_iff.mp ht
  have s2 := standard_out rfl hs
  have t2 := standard_out rfl hb
  obtain ⟨s, so⟩ := s
  obtain ⟨t, to⟩ := t
  simp only at s2 t2
  subst s2 t2
  have hq : (if f = true then (standard C W G).initSuggest (s, none) n else (standard C W G).suggest (s, none) n) =
      (standard C W G).suggest (s, none) n := by cases f <;> rfl
  rw [hq] at h2
  simp only [standard] at h2
  cases hp : G.suggest s n with
  | none => rw [hp] at h2; cases h2
  | some p =>
    obtain ⟨s', pts⟩ := p
    rw [hp] at h2
    simp only [Option.getD_none] at h2
    cases ha : Arrays.toNp C pts [] G.mapping with
    | none => rw [ha] at h2; cases h2
    | some a =>
      rw [ha] at h2
      simp only [Option.map_some] at h2
      split at h2
      · rename_i hx
        cases h2
        refine ⟨s, t, pts, a, hs, hp, hb, hx.symm, ?_, ?_⟩
        · exact toNp_length ha
        · intro first rest he hu
          subst he
          obtain ⟨a', back, h1, h3, h4⟩ := Arrays.C45_round_trip_partial (C := C) hm hu
          rw [ha] at h1
          cases h1
          exact ⟨back, h3, h4⟩
      · cases h2

/-- Full statement: the generator ingests the results received under its own names of variables: if the array says what some points say
(it is made from them with the generator's mapping), the generator ingests these points.  Proved for `H0` and the results of the
initial batch, and for generators without a mapping.  Missing: later results are not converted back with the mapping
(`C59_later_results_witness`); other types. -/
theorem C59_ingests_partial (hm : Arrays.Proper G.mapping) (c : Sizes) (g : σ × Option (List Arrays.Field)) (rows : Option Body) (h : List Obs)
    {l₁ l₂ : List Call} {r : Body} {f : Bool} (hl : (after (standard C W G) c g rows h).log = l₁ ++ .ingest (some r) f :: l₂) :
    ∃ s s' a ds, replay (standard C W G) g l₂ = some s ∧ W.read r = some a ∧ G.ingest s.1 ds = some s' ∧
      replay (standard C W G) g (.ingest (some r) f :: l₂) = some (s', s.2) ∧ ds.length = a.rows.length ∧
      ∀ first rest, Arrays.toNp C (first :: rest) [] G.mapping = some a → Arrays.Uniform C G.mapping first (first :: rest) →
        f = true ∨ G.mapping = [] → ∀ j : Nat, ∀ d d', (first :: rest)[j]? = some d → ds[j]? = some d' → Arrays.Same d d' := by
  have hr := replay_after (ops := standard C W G) (c := c) g rows h
  rw [hl] at hr
  obtain ⟨t, ht⟩ := replay_suffix hr
  have hb := ht
  have key : ∃ s, replay (standard C W G) g l₂ = some s ∧ (match W.read r with
      | none => none
      | some a => match Arrays.toDicts C a (if f = true then G.mapping else []) with
        | none => none
        | some ds => (G.ingest s.1 ds).map (·, s.2)) = some t := by
    cases f with
    | true => obtain ⟨s, hs, h2⟩ := Option.bind_eq_some_iff.mp ht; exact ⟨s, hs, h2⟩
    | false => obtain ⟨s, hs, h2⟩ := Option.bind_eq_some_iff.mp ht; exact ⟨s, hs, h2⟩
  obtain ⟨s, hs, h2⟩ := key
  split at h2
  · cases h2
  · rename_i a ha
    split at h2
    · cases h2
    · rename_i ds hds
      obtain ⟨s', hi, rfl⟩ := Option.map_eq_some_iff.mp h2
      refine ⟨s, s', a, ds, hs, ha, hi, hb, mapM_length hds, ?_⟩
      intro first rest hp hu hf
      have hmm : (if f = true then G.mapping else []) = G.mapping := by
        rcases hf with rfl | hf
        · rfl
        · rw [hf]; split <;> rfl
      rw [hmm] at hds
      obtain ⟨a', back, h1, h3, _, h4⟩ := Arrays.C45_round_trip_partial (C := C) hm hu
      rw [hp] at h1
      cases h1
      rw [hds] at h3
      cases h3
      exact h4

/-- For generators of libEnsemble, each array sent is the array that `suggest_numpy` returned for the size asked for, and the generator
goes on from the state after that call. -/
theorem C59_numpy_points (G : NpGen F σ) (c : Sizes) (g : σ) (rows : Option Body) (h : List Obs) {l₁ l₂ : List Call} {n x : Nat} {f : Bool}
    (hl : (after (numpy W G) c g rows h).log = l₁ ++ .suggest n x f :: l₂) :
    ∃ s s' a, replay (numpy W G) g l₂ = some s ∧ G.suggest s n = some (s', a) ∧ x = W.code a ∧
      replay (numpy W G) g (.suggest n x f :: l₂) = some s' := by
  have hr := replay_after (ops := numpy W G) (c := c) g rows h
  rw [hl] at hr
  obtain ⟨t, ht⟩ := replay_suffix hr
  have hb := ht
  obtain ⟨s, hs, h2⟩ := Option.bind_eq_some_iff.mp ht
  have hq : (if f = true then (numpy W G).initSuggest s n else (numpy W G).suggest s n) = (G.suggest s n).map (fun p => (p.1, W.code p.2)) := by
    cases f <;> rfl
  rw [hq] at h2
  cases hp : G.suggest s n with
  | none => rw [hp] at h2; cases h2
  | some p =>
    rw [hp] at h2
    simp only [Option.map_some] at h2
    split at h2
    · rename_i hx
      cases h2
      exact ⟨s, p.1, p.2, hs, hp, hx.symm, hb⟩
    · cases h2

/-- For generators of libEnsemble, `ingest_numpy` is called with the array received (with `None` for a stop without data as answer
to the initial batch). -/
theorem C59_numpy_ingests (G : NpGen F σ) (c : Sizes) (g : σ) (rows : Option Body) (h : List Obs) {l₁ l₂ : List Call} {b : Option Body} {f : Bool}
    (hl : (after (numpy W G) c g rows h).log = l₁ ++ .ingest b f :: l₂) :
    ∃ s s', replay (numpy W G) g l₂ = some s ∧ replay (numpy W G) g (.ingest b f :: l₂) = some s' ∧
      ((b = none ∧ f = true ∧ G.ingest s none = some s') ∨ ∃ x, b = some (.data x) ∧ G.ingest s (some (W.arr x)) = some s') := by
  have hr := replay_after (ops := numpy W G) (c := c) g rows h
  rw [hl] at hr
  obtain ⟨t, ht⟩ := replay_suffix hr
  have hb := ht
  have key : ∀ {s : σ} {r : Body}, ((W.read r).bind fun a => G.ingest s (some a)) = some t → ∃ x, r = .data x ∧ G.ingest s (some (W.arr x)) = some t := by
    intro s r h2
    obtain ⟨a, ha, h3⟩ := Option.bind_eq_some_iff.mp h2
    cases r with
    | data x => cases ha; exact ⟨x, rfl, h3⟩
    | work o => cases ha
    | sig n => cases ha
  cases f with
  | true =>
    obtain ⟨s, hs, h2⟩ := Option.bind_eq_some_iff.mp ht
    cases b with
    | none => exact ⟨s, t, hs, hb, .inl ⟨rfl, rfl, h2⟩⟩
    | some r => obtain ⟨x, rfl, h3⟩ := key h2; exact ⟨s, t, hs, hb, .inr ⟨x, rfl, h3⟩⟩
  | false =>
    cases b with
    | none => cases ht
    | some r =>
      obtain ⟨s, hs, h2⟩ := Option.bind_eq_some_iff.mp ht
      obtain ⟨x, rfl, h3⟩ := key h2
      exact ⟨s, t, hs, hb, .inr ⟨x, rfl, h3⟩⟩

end

/-! ### Concrete cases -/

/-- A generator that suggests points over two variables and counts what it has suggested and ingested. -/
def demoGen (m : Arrays.Mapping) : Gen Int (Nat × Nat) where
  suggest := fun s n => some ((s.1 + n, s.2), (List.range n).map (fun i => [("x0", .one (.flt (s.1 + i + 1 : Nat))), ("x1", .one (.flt 5))]))
  ingest := fun s ds => some (s.1, s.2 + ds.length)
  finalize := some
  mapping := m

def xMap : Arrays.Mapping := [("x", ["x0", "x1"])]

/-- A table of arrays. -/
def table (l : List (Arrays.Arr Int)) : Wire Int := { code := fun a => l.idxOf a, arr := fun n => l.getD n ⟨[], []⟩ }

/-- An array of points with a mapped field. -/
def xs (l : List (Int × Int)) : Arrays.Arr Int := ⟨[⟨"x", .float, some 2⟩], l.map (fun p => [.many [.flt p.1, .flt p.2]])⟩

/-- An array of results. -/
def xfs (l : List (Int × Int × Int)) : Arrays.Arr Int :=
  ⟨[⟨"x", .float, some 2⟩, ⟨"f", .float, none⟩], l.map (fun p => [.many [.flt p.1, .flt p.2.1], .one (.flt p.2.2)])⟩

/-- 0, 1: the batches; 2, 3: their results; 4: zeros; 5: no results. -/
def demoWire : Wire Int := table [xs [(1, 5), (2, 5)], xs [(3, 5), (4, 5)], xfs [(1, 5, 60), (2, 5, 70)], xfs [(3, 5, 80), (4, 5, 90)],
  xs [(0, 0), (0, 0)], xfs []]

def demoOps (m : Arrays.Mapping) : Ops ((Nat × Nat) × Option (List Arrays.Field)) := standard Arrays.tenths demoWire (demoGen m)

/-- The worker's user function with this generator; simulations return at once. -/
def demoF (out : Option (List Arrays.Field)) : UserF := fun n o rows h =>
  if o.tag = EVAL_GEN then genF (demoOps xMap) (fun _ => { initial := some 2 }) (fun _ => ((0, 0), out)) n o rows h else .ret .pairInfo

theorem demo_runs (out : Option (List Arrays.Field)) : Runs (demoF out) (demoOps xMap) (fun _ => { initial := some 2 }) (fun _ => ((0, 0), out)) := by
  intro n o rows h ht
  unfold demoF
  rw [if_pos ht]

def genOrder : Order := { tag := EVAL_GEN, rows := [], persistent := true, activeRecv := false }
def backOrder (l : List Nat) : Order := { tag := EVAL_GEN, rows := l, persistent := true, activeRecv := false }

/-- Two batches with results, then the persistent stop. -/
def demoActs : List Act := arrive [(EVAL_GEN, .work genOrder), (EVAL_GEN, .work (backOrder [0, 1])), (0, .data 2),
  (EVAL_GEN, .work (backOrder [2, 3])), (0, .data 3), (PERSIS_STOP, .sig KILL)] 14

/-- The record: three batches, then the end with status 12.  (The third batch is not in the table.) -/
theorem demo_record : (run (demoF none) .queue demoActs).tr =
    [.out (.answer genOrder 12 false), .buffered (PERSIS_STOP, .sig KILL), .ret (.pairStatus 12), .uback (PERSIS_STOP, .sig KILL),
     .utook (PERSIS_STOP, .sig KILL), .out (.data 6), .utookRows (0, .data 3), .utook (EVAL_GEN, .work (backOrder [2, 3])), .out (.data 1),
     .utookRows (0, .data 2), .utook (EVAL_GEN, .work (backOrder [0, 1])), .out (.data 0), .start genOrder none,
     .took (EVAL_GEN, .work genOrder)] := by decide +kernel

/-- The calls of the generator in it. -/
example : (after (demoOps xMap) { initial := some 2 } ((0, 0), none) none
      [.signal PERSIS_STOP (.sig KILL), .sent, .input EVAL_GEN (backOrder [2, 3]) (.data 3), .sent, .input EVAL_GEN (backOrder [0, 1]) (.data 2),
       .sent]).log =
    [.finalize, .suggest 2 6 false, .ingest (some (.data 3)) false, .suggest 2 1 false, .ingest (some (.data 2)) true, .suggest 2 0 true] := by
  decide +kernel

/-- `C59_sends`: about to send the second batch. -/
example : (run (demoF none) .queue (demoActs.take 16)).ph = .user genOrder none [.input EVAL_GEN (backOrder [0, 1]) (.data 2), .sent] ∧
    demoF none (run (demoF none) .queue (demoActs.take 16)).n genOrder none [.input EVAL_GEN (backOrder [0, 1]) (.data 2), .sent] = .send 1 := by
  decide +kernel

/-- `C59_waits`: waiting for the answer to it. -/
example : (run (demoF none) .queue (demoActs.take 17)).ph = .user genOrder none [.sent, .input EVAL_GEN (backOrder [0, 1]) (.data 2), .sent] ∧
    demoF none (run (demoF none) .queue (demoActs.take 17)).n genOrder none [.sent, .input EVAL_GEN (backOrder [0, 1]) (.data 2), .sent] = .recv true := by
  decide +kernel

/-- `C59_returns`, `C59_answer`, `C59_disciplined`: the call that ends in `demo_record`. -/
def demoPre : List Ev := [.uback (PERSIS_STOP, .sig KILL), .utook (PERSIS_STOP, .sig KILL), .out (.data 6), .utookRows (0, .data 3),
  .utook (EVAL_GEN, .work (backOrder [2, 3])), .out (.data 1), .utookRows (0, .data 2), .utook (EVAL_GEN, .work (backOrder [0, 1])),
  .out (.data 0), .start genOrder none, .took (EVAL_GEN, .work genOrder)]

example : (run (demoF none) .queue demoActs).tr =
      [.out (.answer genOrder 12 false), .buffered (PERSIS_STOP, .sig KILL)] ++ .ret (.pairStatus 12) :: demoPre ∧
    running demoPre = some (genOrder, none) ∧ (∀ m ∈ heard demoPre, ¬ finishMsg m) := by
  refine ⟨demo_record, rfl, ?_⟩
  intro m hm
  simp only [demoPre, heard, List.mem_cons, List.not_mem_nil, or_false] at hm
  rcases hm with rfl | rfl | rfl | rfl | rfl <;> simp [finishMsg, KILL, FINISH]

/-- The generator asks for nothing else: `C59_no_exception_partial`. -/
theorem demo_willing : Willing (numpy demoWire { suggest := fun (s : Nat) n => some (s + n, xs (List.replicate n (1, 5))), ingest := fun s _ => some s, finalize := some })
    (fun _ => True) := by
  refine ⟨fun g n _ => ⟨_, _, rfl, trivial⟩, fun g n _ => ⟨_, _, rfl, trivial⟩, fun g x _ => ⟨_, rfl, trivial⟩, fun g x _ => ⟨_, rfl, trivial⟩,
    fun g _ => ⟨_, rfl⟩, fun x h => by cases h⟩

/-- It also accepts `None`. -/
example : TakesNone (numpy demoWire { suggest := fun (s : Nat) n => some (s + n, xs (List.replicate n (1, 5))), ingest := fun s _ => some s, finalize := some })
    (fun _ => True) := fun g _ => ⟨_, rfl, trivial⟩

/-- The stream of messages above is one that the manager writes, and all orders received have rows. -/
example : Framed (sends demoActs) ∧ Careful (run (demoF none) .queue demoActs).tr := by
  refine ⟨by decide, ?_, ?_⟩
  · intro m o hm ho
    rw [demo_record] at hm
    simp only [List.mem_cons, reduceCtorEq, false_or, Ev.utook.injEq, List.not_mem_nil, or_false] at hm
    rcases hm with rfl | rfl | rfl
    · cases ho
    · cases ho; simp [backOrder]
    · cases ho; simp [backOrder]
  · intro m hm
    rw [demo_record] at hm
    simp at hm

/-- Tests for `Usual`: simulations are not persistent; stop messages taken by user functions. -/
def usualB (tr : List Ev) : Bool := tr.all fun
  | .start o _ => !o.persistent || decide (o.tag = EVAL_GEN)
  | .utook m | .utookRows m | .ptook m => !isStop m.1 || decide (m = System.pst)
  | _ => true

theorem heard_mem (l : List Ev) (m : Msg) (hm : m ∈ heard l) : .utook m ∈ l ∨ .utookRows m ∈ l ∨ .ptook m ∈ l := by
  induction l with
  | nil => cases hm
  | cons e l ih =>
    have up : (.utook m ∈ l ∨ .utookRows m ∈ l ∨ .ptook m ∈ l) → .utook m ∈ e :: l ∨ .utookRows m ∈ e :: l ∨ .ptook m ∈ e :: l :=
      Or.imp (List.mem_cons_of_mem _) (Or.imp (List.mem_cons_of_mem _) (List.mem_cons_of_mem _))
    cases e with
    | start => cases hm
    | utook m' => exact (List.mem_cons.mp hm).elim (fun h => .inl (h ▸ List.mem_cons_self)) (fun h => up (ih h))
    | utookRows m' => exact (List.mem_cons.mp hm).elim (fun h => .inr (.inl (h ▸ List.mem_cons_self))) (fun h => up (ih h))
    | ptook m' => exact (List.mem_cons.mp hm).elim (fun h => .inr (.inr (h ▸ List.mem_cons_self))) (fun h => up (ih h))
    | _ => exact up (ih hm)

theorem usual_of {tr : List Ev} (h : usualB tr = true) : Usual tr := by
  rw [usualB, List.all_eq_true] at h
  refine ⟨fun o rows hm hp => by simpa [hp] using h _ hm, fun post pre o rows he _ _ m hm hs => ?_⟩
  have h1 := (heard_mem pre m hm).imp (List.mem_append_right post) (Or.imp (List.mem_append_right post) (List.mem_append_right post))
  rw [← he] at h1
  rcases h1 with h1 | h1 | h1 <;> simpa [hs] using h _ h1

/-- `Usual`. -/
theorem demo_usual : Usual (run (demoF none) .queue demoActs).tr := usual_of (by rw [demo_record]; decide)

/-- `Serves`. -/
theorem demo_serves (env : System.Env) (h : ∀ x, (env.msg x).keepState = false ∧ (env.msg x).isFinished = false) :
    Serves env (demoF none) (demoOps xMap) (fun _ => { initial := some 2 }) (fun _ => ((0, 0), none)) := by
  refine ⟨demo_runs none, ?_, ?_, fun _ _ _ _ x _ => h x⟩
  · intro n o rows hs ht x
    unfold demoF
    rw [if_neg ht]; simp
  · intro n o rows hs u ht hu
    unfold demoF at hu
    rw [if_neg ht] at hu
    cases hu
    simp

/-- The two batches say what was suggested (`C59_points_partial`). -/
example : Arrays.Proper xMap ∧ Arrays.toDicts Arrays.tenths (demoWire.arr 1) xMap =
    some [[("x0", .one (.flt 3)), ("x1", .one (.flt 5))], [("x0", .one (.flt 4)), ("x1", .one (.flt 5))]] :=
  ⟨⟨by decide, by decide, by decide⟩, by decide +kernel⟩

/-! ### With the manager -/

/-- A generator whose first two batches are the messages 5 and 19. -/
def tripOps : Ops Nat where
  initSuggest := fun s _ => some (s + 1, 5)
  suggest := fun s _ => some (s + 1, 19)
  initIngest := fun s _ => some s
  ingest := fun s _ => some s
  finalize := some
  len := fun _ => some 2

def tripF : Nat → UserF := fun _ n o rows h => if o.tag = EVAL_GEN then genF tripOps (fun _ => {}) (fun _ => 0) n o rows h else .ret .pairInfo

/-- The second batch, as the manager receives it. -/
def tripMail : Manager.Mail :=
  { w := 1, t := 7, m := .data { calcType := EVAL_GEN, calcStatus := 0, rows := [0, 1], persistent := true, out := .arr (History.demoPoints [40]) } }
/-- The generator runs on worker 1, simulations on worker 2; results are given to the generator; after its second batch, the run is
ended. -/
def tripIts : List Manager.Iter :=
  System.duoIts.take 3 ++ [{ Manager.pass [tripMail] [] with alloc := fun _ => .ok [] [] true {} }]
def tripTr : List Manager.Ev := (System.duoDemo.run tripIts (fun _ => 0) System.duoEnd).1.tr
def tripEnv : System.Env := System.envOf tripF (fun _ => .queue) tripTr.reverse
open System in
def tripMoves : List Move :=
  mans 3 ++ [.carry 1, .tick 1, .tick 1] ++ mans 7 ++ [.carry 2, .carry 2, .tick 2, .tick 2] ++ mans 2 ++ [.tick 2] ++
  mans 5 ++ [.carry 1, .carry 1, .tick 1, .tick 1, .tick 1] ++ mans 7 ++ [.carry 1, .tick 1, .tick 1] ++ mans 3 ++
  [.carry 1, .tick 1, .carry 2, .tick 2]

theorem trip_after (rows : Option Body) (h : List Obs) (x : Nat) (f : Bool) (hx : (after tripOps {} 0 rows h).pt = .send x f) : x = 5 ∨ x = 19 := by
  have ask : ∀ (s : St Nat) (i : Bool) (n : Option Nat) (x : Nat) (f : Bool), (s.ask tripOps i n).pt = .send x f → x = 5 ∨ x = 19 := by
    intro s i n x f hx
    cases n with
    | none => cases hx
    | some n =>
      cases i
      · cases hx; exact .inr rfl
      · cases hx; exact .inl rfl
  have ag : ∀ (s : St Nat) (t : Nat) (b : Option Body) (x : Nat) (f : Bool), (s.again tripOps {} t b).pt = .send x f → x = 5 ∨ x = 19 := by
    intro s t b x f hx
    unfold St.again at hx
    split at hx
    · cases hx
    · exact ask _ _ _ _ _ hx
  induction h generalizing x f with
  | nil =>
    cases rows with
    | none => exact ask _ _ _ _ _ hx
    | some b => exact ask _ _ _ _ _ hx
  | cons ob h ih =>
    have an : ∀ (s : St Nat) (i : Bool) (t : Nat) (b : Option Body) (x : Nat) (f : Bool), (s.answer tripOps {} i t b).pt = .send x f → x = 5 ∨ x = 19 := by
      intro s i t b x f hx
      cases i
      · cases b <;> exact ag _ _ _ _ _ hx
      · exact ag _ _ _ _ _ hx
    simp only [after, St.see] at hx
    split at hx
    · cases hx
    · exact an _ _ _ _ _ _ hx
    · exact an _ _ _ _ _ _ hx
    · cases hx

theorem trip_serves (w : Nat) : Serves tripEnv (tripEnv.F w) tripOps (fun _ => {}) (fun _ => 0) := by
  refine ⟨fun n o rows h ht => if_pos ht, fun n o rows h ht x => ?_, fun n o rows h u ht hu => ?_, fun n o rows h x hx => ?_⟩
  · show (if o.tag = EVAL_GEN then _ else UAct.ret .pairInfo) ≠ _
    rw [if_neg ht]; simp
  · change (if o.tag = EVAL_GEN then _ else UAct.ret .pairInfo) = _ at hu
    rw [if_neg ht] at hu
    cases hu; simp
  · have h1 : x = 5 ∨ x = 19 := by
      change (if o.tag = EVAL_GEN then _ else UAct.ret .pairInfo) = _ at hx
      split at hx
      · unfold genF at hx
        split at hx
        · obtain ⟨f, hf⟩ := act_send hx
          exact trip_after _ _ _ _ hf
        · cases hx
      · cases hx
    rcases h1 with rfl | rfl <;> decide +kernel

/-- The hypotheses of `C59_all_received_partial` hold for a complete run. -/
theorem trip_example : ∃ ws, System.Joint tripEnv (System.duoDemo.run tripIts (fun _ => 0) System.duoEnd).1.tr ws ∧
    (System.duoDemo.run tripIts (fun _ => 0) System.duoEnd).2 = .returned 0 ∧ (System.duoDemo.loop tripIts).2.clean = true ∧
    Manager.hasExc tripTr = false ∧ System.duoDemo.sp.finalGenSend = false ∧ System.duoDemo.workers = [1, 2] ∧
    (∀ w ∈ System.duoDemo.workers, Careful (ws w).tr ∧ Usual (ws w).tr) ∧ said (ws 1).tr = [19, 5] := by
  have key : ((System.woven tripF (fun _ => .queue) tripTr tripMoves).map fun s => decide (s.i = tripTr.length) &&
      (System.duoDemo.workers.all fun w => System.carefulB (s.ws w).tr && usualB (s.ws w).tr) && decide (said (s.ws 1).tr = [19, 5])) = some true := by
    decide +kernel
  cases hs : System.woven tripF (fun _ => .queue) tripTr tripMoves with
  | none => rw [hs] at key; cases key
  | some s =>
    rw [hs] at key
    simp only [Option.map_some, Option.some.injEq, Bool.and_eq_true, decide_eq_true_eq, List.all_eq_true] at key
    refine ⟨s.ws, System.woven_joint hs key.1.1, ?_, ?_, ?_, rfl, ?_, fun w hw => ?_, key.2⟩
    · decide +kernel
    · decide +kernel
    · decide +kernel
    · decide +kernel
    · exact ⟨System.careful_of (key.1.2 w hw).1, usual_of (key.1.2 w hw).2⟩

/-- The conclusion for this run. -/
example : ∃ ws, System.Joint tripEnv tripTr ws ∧ System.onTheWay 1 tripTr (ws 1) = [] ∧ ((ws 1).ph = .idle ∨ (ws 1).ph = .ended) := by
  obtain ⟨ws, hj, ho, hc, hx, hg, hw, h, _⟩ := trip_example
  have := C59_all_received_partial System.duoDemo tripIts _ System.duoEnd hg (by rw [ho]; rfl) hc hx (by decide +kernel) hj 1 (by rw [hw]; simp)
    (trip_serves 1) (h 1 (by rw [hw]; simp)).2 (h 1 (by rw [hw]; simp)).1
  exact ⟨ws, hj, this.1, this.2.2⟩

/-! ### What goes wrong -/

/-- With an `out` entry that is an empty list (the default of `GenSpecs`), the first batch is right; the conversion has added the mapped
field to the list, and from then on the variables are sent as zeros. -/
theorem C59_zeros_witness :
    said (run (demoF (some [])) .queue demoActs).tr = [4, 4, 0] ∧ demoWire.arr 4 = xs [(0, 0), (0, 0)] ∧
    (after (demoOps xMap) { initial := some 2 } ((0, 0), some []) none [.input EVAL_GEN (backOrder [0, 1]) (.data 2), .sent]).pt = .send 4 false ∧
    ((demoGen xMap).suggest (2, 2) 2).map (·.2) =
      some [[("x0", .one (.flt 3)), ("x1", .one (.flt 5))], [("x0", .one (.flt 4)), ("x1", .one (.flt 5))]] := by decide +kernel

/-- The first results are given to the generator under its names of variables, later results are not. -/
theorem C59_later_results_witness :
    Arrays.toDicts Arrays.tenths (demoWire.arr 2) xMap = some [[("x0", .one (.flt 1)), ("x1", .one (.flt 5)), ("f", .one (.flt 60))],
      [("x0", .one (.flt 2)), ("x1", .one (.flt 5)), ("f", .one (.flt 70))]] ∧
    Arrays.toDicts Arrays.tenths (demoWire.arr 3) [] = some [[("x", .many [.flt 3, .flt 5]), ("f", .one (.flt 80))],
      [("x", .many [.flt 4, .flt 5]), ("f", .one (.flt 90))]] ∧
    (standard Arrays.tenths demoWire { demoGen xMap with ingest := fun s ds => if ds.all (fun d => (d.lookup "x0").isSome) then some s else none }).ingest
      ((0, 0), none) (.data 3) = none ∧
    (standard Arrays.tenths demoWire { demoGen xMap with ingest := fun s ds => if ds.all (fun d => (d.lookup "x0").isSome) then some s else none }).initIngest
      ((0, 0), none) (some (.data 2)) = some ((0, 0), none) := by decide +kernel

/-- A stop without data as the answer to the initial batch: the runner converts `None` to points and raises an exception; `finalize` is
not called. -/
theorem C59_early_stop_witness :
    (run (demoF none) .queue (arrive [(EVAL_GEN, .work genOrder), (PERSIS_STOP, .sig KILL)] 9)).tr =
      [.out .err, .raise, .uback (PERSIS_STOP, .sig KILL), .utook (PERSIS_STOP, .sig KILL), .out (.data 0), .start genOrder none,
       .took (EVAL_GEN, .work genOrder)] ∧
    (after (demoOps xMap) { initial := some 2 } ((0, 0), none) none [.signal PERSIS_STOP (.sig KILL), .sent]).log = [.suggest 2 0 true] := by
  decide +kernel

/-- A worker with a suggest/ingest generator that is told to finish the worker: the runner returns its own status, the finish signal is
gone, and the worker waits for further messages. -/
theorem C59_finish_witness :
    (run (demoF none) .queue (arrive [(EVAL_GEN, .work genOrder), (EVAL_GEN, .work (backOrder [0, 1])), (0, .data 2), fin] 12)).ph = .idle ∧
    left (run (demoF none) .queue (arrive [(EVAL_GEN, .work genOrder), (EVAL_GEN, .work (backOrder [0, 1])), (0, .data 2), fin] 12)).chan = [] ∧
    .out (.answer genOrder 12 false) ∈
      (run (demoF none) .queue (arrive [(EVAL_GEN, .work genOrder), (EVAL_GEN, .work (backOrder [0, 1])), (0, .data 2), fin] 12)).tr := by
  decide +kernel

/-- Results without rows and no `batch_size`: the next batch is one of no points. -/
theorem C59_empty_witness :
    (after (demoOps xMap) { initial := some 2 } ((0, 0), none) none [.input EVAL_GEN (backOrder []) (.data 5), .sent]).log =
      [.suggest 0 6 false, .ingest (some (.data 5)) true, .suggest 2 0 true] := by decide +kernel

/-- A generator of libEnsemble: initial batch, results, second batch, stop with the results. -/
def npGen : NpGen Int (Nat × Nat) where
  suggest := fun s n => some ((s.1 + n, s.2), xs ((List.range n).map (fun i => ((s.1 + i + 1 : Nat), 5))))
  ingest := fun s a => some (s.1, s.2 + (a.map (·.rows.length)).getD 0)
  finalize := some

example :
    let t := after (numpy demoWire npGen) { initial := some 2 } (0, 0) none
      [.input PERSIS_STOP (backOrder [2, 3]) (.data 3), .sent, .input EVAL_GEN (backOrder [0, 1]) (.data 2), .sent]
    t.log = [.finalize, .ingest (some (.data 3)) false, .suggest 2 1 false, .ingest (some (.data 2)) true, .suggest 2 0 true] ∧
    t.gen = (4, 4) ∧ t.pt = .ret (some (.data 3)) := by decide +kernel

end Verif.Runner
