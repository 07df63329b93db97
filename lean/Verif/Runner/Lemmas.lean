import Verif.Runner.Spec
import Verif.Worker.UserInd
/- Helper lemmas for Runner/Props.lean. -/
namespace Verif.Runner
open Verif.Worker Verif.Comms

variable {σ : Type} {ops : Ops σ} {c : Sizes}

theorem orNat_some {a b : Option Nat} {n : Nat} (h : orNat a b = some n) : n = firstSet [a, b] := by
  unfold orNat at h
  rcases a with _ | _ | a
  · rcases b with _ | _ | b
    · cases h
    · cases h; rfl
    · cases h; rfl
  · rcases b with _ | _ | b
    · cases h
    · cases h; rfl
    · cases h; rfl
  · cases h; rfl

theorem first_eq {n : Nat} (h : c.first = some n) : n = firstSet [c.initial, c.batch, some c.libE] := by
  unfold Sizes.first at h
  rcases hi : c.initial with _ | _ | i
  · rw [hi] at h; exact orNat_some h
  · rw [hi] at h; exact orNat_some h
  · rw [hi] at h; cases h; rfl

theorem first_some : ∃ n, c.first = some n := by
  unfold Sizes.first
  rcases c.initial with _ | _ | i
  · rcases c.batch with _ | _ | i <;> exact ⟨_, rfl⟩
  · rcases c.batch with _ | _ | i <;> exact ⟨_, rfl⟩
  · exact ⟨_, rfl⟩

/-! ### The calls really happened -/

theorem replay_ask {g : σ} {s : St σ} {f : Bool} {n : Option Nat} (h : replay ops g s.log = some s.gen) :
    replay ops g (s.ask ops f n).log = some (s.ask ops f n).gen := by
  unfold St.ask
  cases n with
  | none => exact h
  | some n =>
    simp only
    cases hq : (if f = true then ops.initSuggest s.gen n else ops.suggest s.gen n) with
    | none => exact h
    | some p =>
      obtain ⟨g', x⟩ := p
      simp only [replay, h, Option.bind_some, hq]
      simp

theorem replay_again {g : σ} {s : St σ} {t : Nat} {b : Option Body} (h : replay ops g s.log = some s.gen) :
    replay ops g (s.again ops c t b).log = some (s.again ops c t b).gen := by
  unfold St.again
  split
  · cases hf : ops.finalize s.gen with
    | none => exact h
    | some g' => simp only [replay, h, Option.bind_some, hf]
  · exact replay_ask h

theorem replay_answer {g : σ} {s : St σ} {f : Bool} {t : Nat} {b : Option Body} (h : replay ops g s.log = some s.gen) :
    replay ops g (s.answer ops c f t b).log = some (s.answer ops c f t b).gen := by
  unfold St.answer
  split
  · unfold St.firstAnswer
    cases hi : ops.initIngest s.gen b with
    | none => exact h
    | some g' =>
      apply replay_again
      simp only [replay, h, Option.bind_some, hi]
  · unfold St.laterAnswer
    cases b with
    | none => exact replay_again h
    | some r =>
      simp only
      cases hi : ops.ingest s.gen r with
      | none => exact h
      | some g' =>
        apply replay_again
        simp only [replay, h, Option.bind_some, hi]

theorem replay_see {g : σ} {s : St σ} {x : Obs} (h : replay ops g s.log = some s.gen) :
    replay ops g (s.see ops c x).log = some (s.see ops c x).gen := by
  unfold St.see
  split
  · exact h
  · exact replay_answer h
  · exact replay_answer h
  · exact h

theorem replay_start (g : σ) (rows : Option Body) : replay ops g (start ops c g rows).log = some (start ops c g rows).gen := by
  unfold start
  cases rows with
  | none => exact replay_ask rfl
  | some b =>
    simp only
    split
    · rfl
    · exact replay_ask rfl
    · cases hi : ops.initIngest g (some b) with
      | none => rfl
      | some g' =>
        apply replay_ask
        simp only [replay, Option.bind_some, hi]

theorem replay_after (g : σ) (rows : Option Body) (h : List Obs) :
    replay ops g (after ops c g rows h).log = some (after ops c g rows h).gen := by
  induction h with
  | nil => exact replay_start g rows
  | cons x h ih => exact replay_see ih

/-! ### The order of the calls -/

/-- Array about to be sent. -/
def Pt.pend : Pt → List Nat
  | .send x _ => [x]
  | _ => []

/-- The calls so far (without `H0`), given arrays suggested and received. -/
def Shape (c : Sizes) (len : Body → Option Nat) (pt : Pt) (l : List Call) (xs : List Nat) (rs : List Body) : Prop :=
  match pt with
  | .send x f => Talk c len l xs rs ∧ ∃ n l', l = .suggest n x f :: l'
  | .wait f => Talk c len l xs rs ∧ (∃ n x l', l = .suggest n x f :: l') ∧ (f = true → rs = [])
  | .ret none => ∃ l', Talk c len l' xs rs ∧ asked l' = true ∧
      (l = .finalize :: l' ∨ l = .finalize :: .ingest none true :: l' ∧ rs = [])
  | .ret (some r) => ∃ l', Talk c len l' xs rs ∧ asked l' = false ∧ l = .finalize :: l' ∧ rs.head? = some r
  | .raised => True

theorem talk_first {len : Body → Option Nat} {n x : Nat} {l : List Call} {xs : List Nat} {rs : List Body}
    (h : Talk c len (.suggest n x true :: l) xs rs) : rs = [] := by
  cases h; rfl

theorem shape_ask {s : St σ} {l z : List Call} {r : Body} {f : Bool} {l' : List Call} {ss : List Nat} {rs : List Body}
    (hl : s.log = l ++ z) (he : l = .ingest (some r) f :: l') (ht : Talk c ops.len l ss rs) :
    ∃ l₁, (s.ask ops false (c.next (ops.len r))).log = l₁ ++ z ∧
      Shape c ops.len (s.ask ops false (c.next (ops.len r))).pt l₁ ((s.ask ops false (c.next (ops.len r))).pt.pend ++ ss) rs := by
  unfold St.ask
  cases hn : c.next (ops.len r) with
  | none => exact ⟨l, hl, trivial⟩
  | some n =>
    simp only
    cases hq : (if false = true then ops.initSuggest s.gen n else ops.suggest s.gen n) with
    | none => exact ⟨l, hl, trivial⟩
    | some p =>
      obtain ⟨g', x⟩ := p
      refine ⟨.suggest n x false :: l, by simp [hl], ?_, n, l, rfl⟩
      rw [orNat_some hn]
      subst he
      exact .batch x ht

/-- After results have been ingested. -/
theorem shape_again {s : St σ} {l z : List Call} {r : Body} {f : Bool} {l' : List Call} {ss : List Nat} {rs : List Body} {t : Nat}
    (hl : s.log = l ++ z) (he : l = .ingest (some r) f :: l') (ht : Talk c ops.len l ss (r :: rs)) :
    ∃ l₁, (s.again ops c t (some r)).log = l₁ ++ z ∧
      Shape c ops.len (s.again ops c t (some r)).pt l₁ ((s.again ops c t (some r)).pt.pend ++ ss) (r :: rs) := by
  unfold St.again
  split
  · cases hf : ops.finalize s.gen with
    | none => exact ⟨l, hl, trivial⟩
    | some g' => exact ⟨.finalize :: l, by simp [hl], l, ht, by rw [he]; rfl, rfl, rfl⟩
  · exact shape_ask hl he ht

theorem shape_answer {s : St σ} {l z : List Call} {f : Bool} {ss : List Nat} {rs : List Body} {t : Nat} {r : Body}
    (hl : s.log = l ++ z) (hs : Shape c ops.len (.wait f) l ss rs) :
    ∃ l₁, (s.answer ops c f t (some r)).log = l₁ ++ z ∧
      Shape c ops.len (s.answer ops c f t (some r)).pt l₁ ((s.answer ops c f t (some r)).pt.pend ++ ss) (r :: rs) := by
  obtain ⟨ht, ⟨n, x, l', rfl⟩, _⟩ := hs
  unfold St.answer
  split
  · rename_i hf; subst hf
    unfold St.firstAnswer
    cases hi : ops.initIngest s.gen (some r) with
    | none => exact ⟨_, hl, trivial⟩
    | some g' => exact shape_again (l := .ingest (some r) true :: .suggest n x true :: l') (by simp [hl]) rfl (.results r ht)
  · rename_i hf
    have hf : f = false := by simpa using hf
    subst hf
    unfold St.laterAnswer
    simp only
    cases hi : ops.ingest s.gen r with
    | none => exact ⟨_, hl, trivial⟩
    | some g' => exact shape_again (l := .ingest (some r) false :: .suggest n x false :: l') (by simp [hl]) rfl (.results r ht)

theorem shape_signal {s : St σ} {l z : List Call} {f : Bool} {ss : List Nat} {rs : List Body} {t : Nat}
    (hl : s.log = l ++ z) (hs : Shape c ops.len (.wait f) l ss rs) (hst : isStop t = true) :
    ∃ l₁, (s.answer ops c f t none).log = l₁ ++ z ∧
      Shape c ops.len (s.answer ops c f t none).pt l₁ ((s.answer ops c f t none).pt.pend ++ ss) rs := by
  obtain ⟨ht, ⟨n, x, l', rfl⟩, hr⟩ := hs
  unfold St.answer
  split
  · rename_i hf; subst hf
    unfold St.firstAnswer
    cases hi : ops.initIngest s.gen none with
    | none => exact ⟨_, hl, trivial⟩
    | some g' =>
      simp only [St.again, hst, if_true]
      cases hf : ops.finalize g' with
      | none => exact ⟨.ingest none true :: .suggest n x true :: l', by simp [St.fail, hl], trivial⟩
      | some g'' => exact ⟨.finalize :: .ingest none true :: .suggest n x true :: l', by simp [hl], _, ht, rfl, .inr ⟨rfl, hr rfl⟩⟩
  · unfold St.laterAnswer
    simp only [St.again, hst, if_true]
    cases hf : ops.finalize s.gen with
    | none => exact ⟨_, hl, trivial⟩
    | some g'' => exact ⟨.finalize :: .suggest n x f :: l', by simp [hl], _, ht, rfl, .inl rfl⟩

theorem shape_start (g : σ) (rows : Option Body) :
    ∃ l, ((start ops c g rows).pt ≠ .raised → (start ops c g rows).log = l ++ h0Calls ops.len rows) ∧
      Shape c ops.len (start ops c g rows).pt l ((start ops c g rows).pt.pend) [] := by
  have key : ∀ s : St σ, ∃ l, ((s.ask ops true c.first).pt ≠ .raised → (s.ask ops true c.first).log = l ++ s.log) ∧
      Shape c ops.len (s.ask ops true c.first).pt l (s.ask ops true c.first).pt.pend [] := by
    intro s
    obtain ⟨n, hn⟩ := first_some (c := c)
    unfold St.ask
    rw [hn]
    simp only [if_true]
    cases hq : ops.initSuggest s.gen n with
    | none => exact ⟨[], fun h => absurd rfl h, trivial⟩
    | some p =>
      obtain ⟨g', x⟩ := p
      refine ⟨[.suggest n x true], fun _ => rfl, ?_, n, [], rfl⟩
      rw [first_eq hn]
      exact .first x
  unfold start
  cases rows with
  | none => exact key _
  | some b =>
    simp only
    split
    · exact ⟨[], fun h => absurd rfl h, trivial⟩
    · rename_i hb
      obtain ⟨l, h1, h2⟩ := key { gen := g, pt := .raised }
      exact ⟨l, fun h => by rw [h1 h]; simp [h0Calls, hb], h2⟩
    · rename_i hb0 hb
      have hz : h0Calls ops.len (some b) = [.ingest (some b) true] := by
        show (if ops.len b = some 0 then [] else [Call.ingest (some b) true]) = _
        rw [if_neg (by rw [hb]; intro h; cases h; exact hb0 rfl)]
      cases hi : ops.initIngest g (some b) with
      | none => exact ⟨[], fun h => absurd rfl h, trivial⟩
      | some g' =>
        obtain ⟨l, h1, h2⟩ := key { gen := g', pt := .raised, log := [.ingest (some b) true] }
        exact ⟨l, fun h => by rw [h1 h, hz], h2⟩

/-! ### In the worker -/

/-- What holds whenever the runner acts. -/
def RInv (ops : Ops σ) (c : Order → Sizes) (g : Nat → σ) (n : Nat) (o : Order) (rows : Option Body) (h : List Obs) (tr : List Ev) : Prop :=
  o.tag = EVAL_GEN → o.persistent = true →
  ∃ l, ((after ops (c o) (g n) rows h).pt ≠ .raised → (after ops (c o) (g n) rows h).log = l ++ h0Calls ops.len rows) ∧
    Shape (c o) ops.len (after ops (c o) (g n) rows h).pt l ((after ops (c o) (g n) rows h).pt.pend ++ said tr) (received tr)

variable {F : UserF} {cs : Order → Sizes} {g : Nat → σ}

theorem Runs.pt (hF : Runs F ops cs g) {n : Nat} {o : Order} {rows : Option Body} {h : List Obs} (ht : o.tag = EVAL_GEN)
    (hp : o.persistent = true) : F n o rows h = (after ops (cs o) (g n) rows h).pt.act := by
  rw [hF n o rows h ht]
  unfold genF
  rw [if_pos hp]

theorem act_send {pt : Pt} {x : Nat} (h : pt.act = .send x) : ∃ f, pt = .send x f := by
  cases pt <;> simp [Pt.act] at h
  subst h; exact ⟨_, rfl⟩

theorem act_recv {pt : Pt} {b : Bool} (h : pt.act = .recv b) : b = true ∧ ∃ f, pt = .wait f := by
  cases pt <;> simp [Pt.act] at h
  exact ⟨h, _, rfl⟩

theorem act_poll {pt : Pt} : pt.act ≠ .poll := by
  cases pt <;> simp [Pt.act]

theorem act_ret {pt : Pt} {u : UOut} (h : pt.act = .ret u) : u = .pairStatus 12 ∧ ∃ b, pt = .ret b := by
  cases pt <;> simp [Pt.act] at h
  exact ⟨h.symm, _, rfl⟩

theorem act_raise {pt : Pt} (h : pt.act = .raise) : pt = .raised := by
  cases pt <;> simp [Pt.act] at h
  rfl

theorem runner_inv (hF : Runs F ops cs g) : UserInv F (RInv ops cs g) where
  start := by
    intro n o rows tr _ _
    obtain ⟨l, h1, h2⟩ := shape_start (ops := ops) (c := cs o) (g n) rows
    exact ⟨l, h1, by simpa [said, received, after] using h2⟩
  send := by
    intro n o rows h tr x hI hf ht hp
    obtain ⟨l, hl, hs⟩ := hI ht hp
    rw [hF.pt ht hp] at hf
    obtain ⟨f, hpt⟩ := act_send hf
    have hl := hl (by rw [hpt]; simp)
    refine ⟨l, fun _ => ?_, ?_⟩
    · simp only [after, St.see, hpt]; exact hl
    · simp only [after, St.see, hpt, Pt.pend, said, received, List.nil_append]
      rw [hpt] at hs
      obtain ⟨h1, n', l', h2⟩ := hs
      refine ⟨h1, ⟨n', x, l', h2⟩, fun hf => ?_⟩
      subst hf h2
      exact talk_first h1
  pollNone := by
    intro n o rows h tr hI hf ht hp
    rw [hF.pt ht hp] at hf; exact absurd hf act_poll
  pollDrop := by
    intro n o rows h tr m hI hf ht hp
    rw [hF.pt ht hp] at hf; exact absurd hf act_poll
  pollBack := by
    intro n o rows h tr m hI hf hm ht hp
    rw [hF.pt ht hp] at hf; exact absurd hf act_poll
  nothing := by
    intro n o rows h tr hI hf ht hp
    rw [hF.pt ht hp] at hf; have := (act_recv hf).1; cases this
  signal := by
    intro n o rows h tr b m hI hf hm _ ht hp
    obtain ⟨l, hl, hs⟩ := hI ht hp
    rw [hF.pt ht hp] at hf
    obtain ⟨_, f, hpt⟩ := act_recv hf
    have hl := hl (by rw [hpt]; simp)
    rw [hpt] at hs
    obtain ⟨l₁, h1, h2⟩ := shape_signal (t := m.1) hl hs hm
    refine ⟨l₁, fun _ => ?_, ?_⟩
    · simp only [after, St.see, hpt]; exact h1
    · simpa only [after, St.see, hpt, said, received, Pt.pend, List.nil_append] using h2
  error := by
    intro n o rows h tr b m hI hf hm _ ht hp
    rw [hF.pt ht hp] at hf
    obtain ⟨_, f, hpt⟩ := act_recv hf
    exact ⟨[], fun h => absurd (by simp only [after, St.see, hpt, St.fail]) h, by simp only [after, St.see, hpt, St.fail]; trivial⟩
  rowsBack := by
    intro n o rows h tr b m t o' hI hf hm ht hp
    obtain ⟨l, hl, hs⟩ := hI ht hp
    rw [hF.pt ht hp] at hf
    obtain ⟨_, f, hpt⟩ := act_recv hf
    have hl := hl (by rw [hpt]; simp)
    rw [hpt] at hs
    obtain ⟨l₁, h1, h2⟩ := shape_signal (t := m.1) hl hs hm
    refine ⟨l₁, fun _ => ?_, ?_⟩
    · simp only [after, St.see, hpt]; exact h1
    · simpa only [after, St.see, hpt, said, received, Pt.pend, List.nil_append, hm, if_true] using h2
  rowsGot := by
    intro n o rows h tr b m t o' hI hf hm ht hp
    obtain ⟨l, hl, hs⟩ := hI ht hp
    rw [hF.pt ht hp] at hf
    obtain ⟨_, f, hpt⟩ := act_recv hf
    have hl := hl (by rw [hpt]; simp)
    rw [hpt] at hs
    obtain ⟨l₁, h1, h2⟩ := shape_answer (t := t) (r := m.2) hl hs
    refine ⟨l₁, fun _ => ?_, ?_⟩
    · simp only [after, St.see, hpt]; exact h1
    · have : received (.utookRows m :: .utook (t, .work o') :: tr) = m.2 :: received tr := by
        simp [received, hm]
      rw [this]
      simpa only [after, St.see, hpt, said, Pt.pend, List.nil_append] using h2

/-! ### Stop messages -/

def PtHeard (pt : Pt) (l : List Msg) : Prop :=
  match pt with
  | .send .. | .wait _ => ∀ m ∈ l, isStop m.1 = false
  | .ret _ => StoppedNow l
  | .raised => True

theorem heard_ask {s : St σ} {f : Bool} {n : Option Nat} {l : List Msg} (h : ∀ m ∈ l, isStop m.1 = false) :
    PtHeard (s.ask ops f n).pt l := by
  unfold St.ask
  cases n with
  | none => trivial
  | some n =>
    simp only
    cases (if f = true then ops.initSuggest s.gen n else ops.suggest s.gen n) with
    | none => trivial
    | some p => exact h

theorem heard_again {s : St σ} {t : Nat} {b : Option Body} {l : List Msg} (h1 : isStop t = true → StoppedNow l)
    (h2 : isStop t = false → ∀ m ∈ l, isStop m.1 = false) : PtHeard (s.again ops c t b).pt l := by
  unfold St.again
  split
  · rename_i ht
    cases ops.finalize s.gen with
    | none => trivial
    | some g => exact h1 ht
  · rename_i ht
    exact heard_ask (h2 (by simpa using ht))

theorem heard_answer {s : St σ} {f : Bool} {t : Nat} {b : Option Body} {l : List Msg} (h1 : isStop t = true → StoppedNow l)
    (h2 : isStop t = false → ∀ m ∈ l, isStop m.1 = false) : PtHeard (s.answer ops c f t b).pt l := by
  unfold St.answer
  split
  · unfold St.firstAnswer
    cases ops.initIngest s.gen b with
    | none => trivial
    | some g => exact heard_again h1 h2
  · unfold St.laterAnswer
    cases b with
    | none => exact heard_again h1 h2
    | some r =>
      simp only
      cases ops.ingest s.gen r with
      | none => trivial
      | some g => exact heard_again h1 h2

theorem heard_start (g : σ) (rows : Option Body) : PtHeard (start ops c g rows).pt [] := by
  have hn : ∀ m ∈ ([] : List Msg), isStop m.1 = false := by intro m hm; cases hm
  unfold start
  cases rows with
  | none => exact heard_ask hn
  | some b =>
    simp only
    split
    · trivial
    · exact heard_ask hn
    · cases ops.initIngest g (some b) with
      | none => trivial
      | some g' => exact heard_ask hn

def RHeard (ops : Ops σ) (c : Order → Sizes) (g : Nat → σ) (n : Nat) (o : Order) (rows : Option Body) (h : List Obs) (tr : List Ev) : Prop :=
  o.tag = EVAL_GEN → o.persistent = true → PtHeard (after ops (c o) (g n) rows h).pt (heard tr)

theorem runner_heard (hF : Runs F ops cs g) : UserInv F (RHeard ops cs g) where
  start := fun n o rows tr _ _ => heard_start (g n) rows
  send := by
    intro n o rows h tr x hI hf ht hp
    have hI := hI ht hp
    rw [hF.pt ht hp] at hf
    obtain ⟨f, hpt⟩ := act_send hf
    rw [hpt] at hI
    simp only [after, St.see, hpt]
    exact hI
  pollNone := by
    intro n o rows h tr hI hf ht hp
    rw [hF.pt ht hp] at hf; exact absurd hf act_poll
  pollDrop := by
    intro n o rows h tr m hI hf ht hp
    rw [hF.pt ht hp] at hf; exact absurd hf act_poll
  pollBack := by
    intro n o rows h tr m hI hf hm ht hp
    rw [hF.pt ht hp] at hf; exact absurd hf act_poll
  nothing := by
    intro n o rows h tr hI hf ht hp
    rw [hF.pt ht hp] at hf; have := (act_recv hf).1; cases this
  signal := by
    intro n o rows h tr b m hI hf hm _ ht hp
    have hI := hI ht hp
    rw [hF.pt ht hp] at hf
    obtain ⟨_, f, hpt⟩ := act_recv hf
    rw [hpt] at hI
    simp only [after, St.see, hpt]
    exact heard_answer (fun _ => ⟨[m], heard tr, rfl, by simp, ⟨m, by simp, hm⟩, hI⟩) (fun h => by rw [hm] at h; cases h)
  error := by
    intro n o rows h tr b m hI hf hm _ ht hp
    rw [hF.pt ht hp] at hf
    obtain ⟨_, f, hpt⟩ := act_recv hf
    simp only [after, St.see, hpt, St.fail]
    trivial
  rowsBack := by
    intro n o rows h tr b m t o' hI hf hm ht hp
    have hI := hI ht hp
    rw [hF.pt ht hp] at hf
    obtain ⟨_, f, hpt⟩ := act_recv hf
    rw [hpt] at hI
    simp only [after, St.see, hpt]
    exact heard_answer (fun _ => ⟨[m, (t, .work o')], heard tr, rfl, by simp, ⟨m, by simp, hm⟩, hI⟩) (fun h => by rw [hm] at h; cases h)
  rowsGot := by
    intro n o rows h tr b m t o' hI hf hm ht hp
    have hI := hI ht hp
    rw [hF.pt ht hp] at hf
    obtain ⟨_, f, hpt⟩ := act_recv hf
    rw [hpt] at hI
    simp only [after, St.see, hpt]
    refine heard_answer (fun hs => ⟨[m, (t, .work o')], heard tr, rfl, by simp, ⟨(t, .work o'), by simp, hs⟩, hI⟩) (fun hs => ?_)
    intro m' hm'
    simp only [heard, List.mem_cons] at hm'
    rcases hm' with rfl | rfl | hm'
    · exact hm
    · exact hs
    · exact hI m' hm'

/-! ### No exceptions -/

/-- Messages of the expected kinds. -/
structure Orderly (ops : Ops σ) (ok : σ → Prop) (tr : List Ev) : Prop where
  took : ∀ m, .utook m ∈ tr → (∃ o, m.2 = .work o) ∨ isStop m.1 = true
  rows : ∀ m, .utookRows m ∈ tr → ∃ x, m.2 = .data x
  start : ∀ o b, .start o (some b) ∈ tr → ∃ x, b = .data x
  early : ∀ post m pre, tr = post ++ .uback m :: pre → received pre ≠ [] ∨ TakesNone ops ok

variable {ok : σ → Prop}

theorem Orderly.tail {e : Ev} {tr : List Ev} (h : Orderly ops ok (e :: tr)) : Orderly ops ok tr where
  took := fun m hm => h.took m (List.mem_cons_of_mem _ hm)
  rows := fun m hm => h.rows m (List.mem_cons_of_mem _ hm)
  start := fun o b hm => h.start o b (List.mem_cons_of_mem _ hm)
  early := fun post m pre he => h.early (e :: post) m pre (by rw [he]; rfl)

/-- No exception so far, and none to be expected. -/
def St.Fine (ok : σ → Prop) (s : St σ) : Prop := s.pt ≠ .raised ∧ (ok s.gen ∨ ∃ b, s.pt = .ret b)

theorem ask_fine (W : Willing ops ok) {s : St σ} (hs : ok s.gen) {f : Bool} {n : Nat} : (s.ask ops f (some n)).Fine ok := by
  unfold St.ask
  simp only
  cases f with
  | false =>
    obtain ⟨g', x, h1, h2⟩ := W.suggest s.gen n hs
    simp only [Bool.false_eq_true, if_false, h1]
    exact ⟨by simp, .inl h2⟩
  | true =>
    obtain ⟨g', x, h1, h2⟩ := W.initSuggest s.gen n hs
    simp only [if_true, h1]
    exact ⟨by simp, .inl h2⟩

theorem again_fine (W : Willing ops ok) {s : St σ} (hs : ok s.gen) {t x : Nat} : (s.again ops c t (some (.data x))).Fine ok := by
  unfold St.again
  split
  · obtain ⟨g', h1⟩ := W.finalize s.gen hs
    rw [h1]
    exact ⟨by simp, .inr ⟨_, rfl⟩⟩
  · cases hl : ops.len (.data x) with
    | none => exact absurd hl (W.len x)
    | some k =>
      obtain ⟨n, hn⟩ : ∃ n, c.next (some k) = some n := by
        unfold Sizes.next
        rcases c.batch with _ | _ | i <;> exact ⟨_, rfl⟩
      simp only [Option.bind_some, hl, hn]
      exact ask_fine W hs

theorem answer_fine (W : Willing ops ok) {s : St σ} (hs : ok s.gen) {f : Bool} {t x : Nat} : (s.answer ops c f t (some (.data x))).Fine ok := by
  unfold St.answer
  split
  · unfold St.firstAnswer
    obtain ⟨g', h1, h2⟩ := W.initIngest s.gen x hs
    rw [h1]
    exact again_fine W h2
  · unfold St.laterAnswer
    obtain ⟨g', h1, h2⟩ := W.ingest s.gen x hs
    simp only [h1]
    exact again_fine W h2

theorem signal_fine (W : Willing ops ok) {s : St σ} (hs : ok s.gen) {f : Bool} {t : Nat} (ht : isStop t = true)
    (hf : f = true → TakesNone ops ok) : (s.answer ops c f t none).Fine ok := by
  have key : ∀ s : St σ, ok s.gen → (s.again ops c t none).Fine ok := by
    intro s hs
    unfold St.again
    rw [if_pos ht]
    obtain ⟨g', h1⟩ := W.finalize s.gen hs
    rw [h1]
    exact ⟨by simp, .inr ⟨_, rfl⟩⟩
  unfold St.answer
  split
  · rename_i h
    unfold St.firstAnswer
    obtain ⟨g', h1, h2⟩ := hf h s.gen hs
    rw [h1]
    exact key _ h2
  · exact key _ hs

theorem start_fine (W : Willing ops ok) {g : σ} (hg : ok g) {rows : Option Body} (hr : ∀ b, rows = some b → ∃ x, b = .data x) :
    (start ops c g rows).Fine ok := by
  obtain ⟨n, hn⟩ := first_some (c := c)
  unfold start
  rw [hn]
  cases rows with
  | none => exact ask_fine W hg
  | some b =>
    obtain ⟨x, rfl⟩ := hr b rfl
    simp only
    split
    · rename_i h; exact absurd h (W.len x)
    · exact ask_fine W hg
    · obtain ⟨g', h1, h2⟩ := W.initIngest g x hg
      rw [h1]
      exact ask_fine W h2

def RFine (ops : Ops σ) (ok : σ → Prop) (c : Order → Sizes) (g : Nat → σ) (n : Nat) (o : Order) (rows : Option Body) (h : List Obs) (tr : List Ev) : Prop :=
  RInv ops c g n o rows h tr ∧
    (o.tag = EVAL_GEN → o.persistent = true → Orderly ops ok tr → (after ops (c o) (g n) rows h).Fine ok)

theorem fine_ok {s : St σ} (h : s.Fine ok) (hp : ∀ b, s.pt ≠ .ret b) : ok s.gen :=
  h.2.elim id (fun ⟨b, hb⟩ => absurd hb (hp b))

theorem runner_fine (hF : Runs F ops cs g) (W : Willing ops ok) (hg : ∀ n, ok (g n)) : UserInv F (RFine ops ok cs g) where
  start := by
    intro n o rows tr
    refine ⟨(runner_inv hF).start n o rows tr, fun ht hp ho => start_fine W (hg n) ?_⟩
    rintro b rfl
    exact ho.start o b List.mem_cons_self
  send := by
    intro n o rows h tr x hI hf
    refine ⟨(runner_inv hF).send _ _ _ _ _ _ hI.1 hf, fun ht hp ho => ?_⟩
    rw [hF.pt ht hp] at hf
    obtain ⟨f, hpt⟩ := act_send hf
    have hI := fine_ok (hI.2 ht hp ho.tail) (by rw [hpt]; simp)
    simp only [after, St.see, hpt]
    exact ⟨by simp, .inl hI⟩
  pollNone := by
    intro n o rows h tr hI hf
    refine ⟨(runner_inv hF).pollNone _ _ _ _ _ hI.1 hf, fun ht hp ho => ?_⟩
    rw [hF.pt ht hp] at hf; exact absurd hf act_poll
  pollDrop := by
    intro n o rows h tr m hI hf
    refine ⟨(runner_inv hF).pollDrop _ _ _ _ _ _ hI.1 hf, fun ht hp ho => ?_⟩
    rw [hF.pt ht hp] at hf; exact absurd hf act_poll
  pollBack := by
    intro n o rows h tr m hI hf hm
    refine ⟨(runner_inv hF).pollBack _ _ _ _ _ _ hI.1 hf hm, fun ht hp ho => ?_⟩
    rw [hF.pt ht hp] at hf; exact absurd hf act_poll
  nothing := by
    intro n o rows h tr hI hf
    refine ⟨(runner_inv hF).nothing _ _ _ _ _ hI.1 hf, fun ht hp ho => ?_⟩
    rw [hF.pt ht hp] at hf; have := (act_recv hf).1; cases this
  signal := by
    intro n o rows h tr b m hI hf hm hw
    refine ⟨(runner_inv hF).signal _ _ _ _ _ _ _ hI.1 hf hm hw, fun ht hp ho => ?_⟩
    obtain ⟨l, _, hs⟩ := hI.1 ht hp
    rw [hF.pt ht hp] at hf
    obtain ⟨_, f, hpt⟩ := act_recv hf
    rw [hpt] at hs
    simp only [after, St.see, hpt]
    refine signal_fine W (fine_ok (hI.2 ht hp ho.tail.tail) (by rw [hpt]; simp)) hm (fun hf => ?_)
    rcases ho.early [] m (.utook m :: tr) rfl with h' | h'
    · exact absurd (hs.2.2 hf) h'
    · exact h'
  error := by
    intro n o rows h tr b m hI hf hm hw
    refine ⟨(runner_inv hF).error _ _ _ _ _ _ _ hI.1 hf hm hw, fun ht hp ho => ?_⟩
    rcases ho.took m List.mem_cons_self with ⟨o', h'⟩ | h'
    · exact absurd h' (hw o')
    · rw [hm] at h'; cases h'
  rowsBack := by
    intro n o rows h tr b m t o' hI hf hm
    refine ⟨(runner_inv hF).rowsBack _ _ _ _ _ _ _ _ _ hI.1 hf hm, fun ht hp ho => ?_⟩
    obtain ⟨l, _, hs⟩ := hI.1 ht hp
    rw [hF.pt ht hp] at hf
    obtain ⟨_, f, hpt⟩ := act_recv hf
    rw [hpt] at hs
    simp only [after, St.see, hpt]
    refine signal_fine W (fine_ok (hI.2 ht hp ho.tail.tail.tail) (by rw [hpt]; simp)) hm (fun hf => ?_)
    rcases ho.early [] m (.utookRows m :: .utook (t, .work o') :: tr) rfl with h' | h'
    · refine absurd (hs.2.2 hf) (fun h'' => h' ?_)
      simpa [received, hm] using h''
    · exact h'
  rowsGot := by
    intro n o rows h tr b m t o' hI hf hm
    refine ⟨(runner_inv hF).rowsGot _ _ _ _ _ _ _ _ _ hI.1 hf hm, fun ht hp ho => ?_⟩
    rw [hF.pt ht hp] at hf
    obtain ⟨_, f, hpt⟩ := act_recv hf
    simp only [after, St.see, hpt]
    obtain ⟨x, hx⟩ := ho.rows m List.mem_cons_self
    rw [hx]
    exact answer_fine W (fine_ok (hI.2 ht hp ho.tail.tail) (by rw [hpt]; simp))

end Verif.Runner
