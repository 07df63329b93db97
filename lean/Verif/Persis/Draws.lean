import Verif.Persis.Props
import Verif.Settings.PropsEns

/-!
# C78: no random number is used twice
-/

namespace Verif.Persis

/-- The stream in a dictionary. -/
def Dict.stream (d : Dict) : Option Stream := match d.lookup "rand_stream" with | some (.stream a) => some a | _ => none

/-- The random numbers that a call draws: those of its stream from where it was to where it is left. A number is named by its source and its place. -/
def Drawn (c : Call) (src : Src) (i : Nat) : Prop := ∃ a b, c.given.stream = some a ∧ c.after.stream = some b ∧ src = a.src ∧ a.pos ≤ i ∧ i < b.pos

/-- A user function that draws from its stream and does nothing else with it. -/
def Draws (f : Fn) : Prop := ∀ d a, d.stream = some a → ∃ n, (f d).1.stream = some { a with pos := a.pos + n }

theorem draw_draws (n : Nat) : Draws (draw n) := by
  intro d a h
  refine ⟨n, ?_⟩
  unfold Dict.stream at h
  split at h
  · rename_i b hb
    cases h
    unfold draw Dict.stream
    simp only [hb]
    rw [lookup_update]
    simp [List.lookup]
  · cases h

/-- The calls and the workers of a run. -/
structure Calls (D : Nat → Prop) (s : St) : Prop where
  held : ∀ w h, s.held w = some h → D w
  log : ∀ c ∈ s.log, D c.worker ∧ ∀ a, c.given.stream = some a → ∃ n, c.after.stream = some { a with pos := a.pos + n }

/-- Orders go to workers with `D`, and the functions have `P`. -/
def Within (D : Nat → Prop) (P : Fn → Prop) : Event → Prop
  | .give w => D w
  | .giveLast w => D w
  | .giveList w => D w
  | .ret _ f => P f

theorem Calls.step {share : Bool} {D : Nat → Prop} {s s' : St} {e : Event} (hi : Calls D s) (he : Within D Draws e) (hs : step share s e = some s') : Calls D s' := by
  have hgive : ∀ v x, D v → ∀ w h, set s.held v x w = some h → D w := by
    intro v x hv w h hw
    by_cases hwv : w = v
    · exact hwv ▸ hv
    · rw [set_other hwv] at hw; exact hi.held w h hw
  cases e with
  | give v =>
    simp only [Persis.step] at hs
    split at hs
    · cases hs
    · cases hs; exact ⟨hgive v _ he, hi.log⟩
  | giveLast v =>
    simp only [Persis.step] at hs
    split at hs
    · cases hs
    · cases hs; exact ⟨hgive v _ he, hi.log⟩
  | giveList v =>
    simp only [Persis.step] at hs
    split at hs
    · cases hs
    · cases hs; exact ⟨hgive v _ he, hi.log⟩
  | ret v f =>
    simp only [Persis.step] at hs
    split at hs
    · cases hs
    · rename_i h hh
      cases hs
      refine ⟨hgive v _ (hi.held v h hh), fun c hc => ?_⟩
      rcases List.mem_cons.mp hc with rfl | hc
      · exact ⟨hi.held v h hh, fun a ha => he _ a ha⟩
      · exact hi.log c hc

theorem Calls.start (D : Nat → Prop) (init : Nat → Option Dict) (last : Nat) : Calls D { info := init, last } := ⟨nofun, nofun⟩

theorem left_cons (init : Nat → Option Dict) (w : Nat) (c : Call) (log : List Call) : left init w (c :: log) = if c.worker = w then c.after else left init w log := by
  unfold left
  rw [List.find?_cons]
  by_cases h : c.worker = w
  · simp [h]
  · simp [h]

/-- The calls of a worker draw one after the other from the stream that it had at the beginning. -/
theorem drawn_below {init : Nat → Option Dict} {D : Nat → Prop} (h0 : ∀ w, D w → ∃ a, ((init w).getD []).stream = some a) :
    ∀ {log : List Call}, Each (fun c old => c.given = left init c.worker old) log →
      (∀ c ∈ log, D c.worker ∧ ∀ a, c.given.stream = some a → ∃ n, c.after.stream = some { a with pos := a.pos + n }) →
      ∀ w, D w → ∃ a0 a, ((init w).getD []).stream = some a0 ∧ (left init w log).stream = some a ∧ a.src = a0.src
        ∧ ∀ c ∈ log, c.worker = w → ∀ src i, Drawn c src i → src = a0.src ∧ i < a.pos := by
  intro log
  induction log with
  | nil =>
    intro _ _ w hw
    obtain ⟨a, ha⟩ := h0 w hw
    exact ⟨a, a, ha, ha, rfl, nofun⟩
  | cons c log ih =>
    intro he hc w hw
    obtain ⟨a0, a, h1, h2, h3, h4⟩ := ih he.2 (fun c' h' => hc c' (List.mem_cons_of_mem _ h')) w hw
    by_cases hcw : c.worker = w
    · have hg : c.given.stream = some a := by rw [he.1, hcw]; exact h2
      obtain ⟨n, hn⟩ := (hc c List.mem_cons_self).2 a hg
      refine ⟨a0, { a with pos := a.pos + n }, h1, by rw [left_cons, if_pos hcw]; exact hn, h3, fun c' hc' hw' src i hd => ?_⟩
      rcases List.mem_cons.mp hc' with rfl | hc'
      · obtain ⟨x, y, e1, e2, e3, e4, e5⟩ := hd
        rw [hg] at e1; cases e1
        rw [hn] at e2; cases e2
        exact ⟨e3.trans h3, e5⟩
      · have := h4 c' hc' hw' src i hd
        exact ⟨this.1, by dsimp only; omega⟩
    · refine ⟨a0, a, h1, by rw [left_cons, if_neg hcw]; exact h2, h3, fun c' hc' hw' src i hd => ?_⟩
      rcases List.mem_cons.mp hc' with rfl | hc'
      · exact absurd hw' hcw
      · exact h4 c' hc' hw' src i hd

theorem pairwise_of {init : Nat → Option Dict} {D : Nat → Prop} (h0 : ∀ w, D w → ∃ a, ((init w).getD []).stream = some a)
    (h1 : ∀ w v a b, D w → D v → ((init w).getD []).stream = some a → ((init v).getD []).stream = some b → a.src = b.src → w = v) :
    ∀ {log : List Call}, Each (fun c old => c.given = left init c.worker old) log →
      (∀ c ∈ log, D c.worker ∧ ∀ a, c.given.stream = some a → ∃ n, c.after.stream = some { a with pos := a.pos + n }) →
      log.Pairwise fun c c' => ∀ src i, Drawn c src i → ¬ Drawn c' src i := by
  intro log
  induction log with
  | nil => intro _ _; exact .nil
  | cons c log ih =>
    intro he hc
    have hc' : ∀ c' ∈ log, _ := fun c' h' => hc c' (List.mem_cons_of_mem _ h')
    refine List.pairwise_cons.mpr ⟨fun c' hm src i hd hd' => ?_, ih he.2 hc'⟩
    obtain ⟨a0, a, g1, g2, g3, g4⟩ := drawn_below h0 he.2 hc' c.worker (hc c List.mem_cons_self).1
    obtain ⟨b0, b, k1, k2, k3, k4⟩ := drawn_below h0 he.2 hc' c'.worker (hc' c' hm).1
    have hb := k4 c' hm rfl src i hd'
    obtain ⟨x, y, e1, e2, e3, e4, e5⟩ := hd
    rw [he.1, g2] at e1
    cases e1
    have hww := h1 c.worker c'.worker a0 b0 (hc c List.mem_cons_self).1 (hc' c' hm).1 g1 k1 (by rw [← g3, ← e3, hb.1])
    rw [← hww, g2] at k2
    cases k2
    have := hb.2
    omega

/-- C78: on threads as well as on processes: if the workers begin with streams of different sources, and the user functions return what they are given and draw
from their streams, then no random number is used by two calls. -/
theorem C78_no_repeat {share : Bool} {init : Nat → Option Dict} {last : Nat} {D : Nat → Prop} {es : List Event} {s : St}
    (h0 : ∀ w, D w → ∃ a, ((init w).getD []).stream = some a)
    (h1 : ∀ w v a b, D w → D v → ((init w).getD []).stream = some a → ((init v).getD []).stream = some b → a.src = b.src → w = v)
    (he : ∀ e ∈ es, Own Honest e ∧ Within D Draws e) (h : run share { info := init, last } es = some s) :
    s.log.Pairwise fun c c' => ∀ src i, Drawn c src i → ¬ Drawn c' src i :=
  pairwise_of h0 h1
    (run_inv (P := Own.Inv init) (fun _ _ _ hp he hs => hp.step he hs) (fun e h => (he e h).1) (Own.Inv.start init last) h).log
    (run_inv (P := Calls D) (fun _ _ _ hp he hs => hp.step he hs) (fun e h => (he e h).2) (Calls.start D init last) h).log

/-- C78: so it is with the streams of `add_unique_random_streams`, unless an integer is given as seed, for the workers below its number of streams, whatever
`persis_info` had before. -/
theorem C78_unique {share : Bool} {info : Nat → Option Dict} {n last : Nat} {seed : Seed} {es : List Event} {s : St} (hs : ∀ k, seed ≠ .int k)
    (he : ∀ e ∈ es, Own Honest e ∧ Within (· < n) Draws e) (h : run share { info := addStreams info n seed, last } es = some s) :
    s.log.Pairwise fun c c' => ∀ src i, Drawn c src i → ¬ Drawn c' src i := by
  have key : ∀ w, w < n → ((addStreams info n seed w).getD []).stream = some ⟨srcOf seed w, 0⟩ := by
    intro w hw
    obtain ⟨d, h1, h2, _⟩ := (C78_streams info n seed w).2 hw
    rw [h1, Option.getD_some]
    unfold Dict.stream
    rw [h2]
  refine C78_no_repeat (D := (· < n)) (fun w hw => ⟨_, key w hw⟩) (fun w v a b hw hv h1 h2 h3 => ?_) he h
  rw [key w hw] at h1; cases h1
  rw [key v hv] at h2; cases h2
  rcases (C78_sources seed w v).mp h3 with h | ⟨k, h⟩
  · exact h
  · exact absurd h (hs k)

/-- Hypotheses of `C78_unique` and `C78_no_repeat`: three calls on two workers. -/
example : (∀ e ∈ [Event.give 1, .give 2, .ret 1 (draw 4), .give 1, .ret 2 (draw 5), .ret 1 (draw 6)], Own Honest e ∧ Within (· < 3) Draws e)
    ∧ ((run true { info := addStreams (fun _ => none) 3 .other } [.give 1, .give 2, .ret 1 (draw 4), .give 1, .ret 2 (draw 5), .ret 1 (draw 6)]).map
      fun s => s.log.map fun c => (c.given.stream, c.after.stream))
      = some [(some ⟨.seed 1, 4⟩, some ⟨.seed 1, 10⟩), (some ⟨.seed 2, 0⟩, some ⟨.seed 2, 5⟩), (some ⟨.seed 1, 0⟩, some ⟨.seed 1, 4⟩)] := by
  refine ⟨?_, by decide⟩
  intro e he
  simp only [List.mem_cons, List.not_mem_nil, or_false] at he
  rcases he with rfl | rfl | rfl | rfl | rfl | rfl
  · exact ⟨trivial, (by decide : _ < 3)⟩
  · exact ⟨trivial, (by decide : _ < 3)⟩
  · exact ⟨draw_honest 4, draw_draws 4⟩
  · exact ⟨trivial, (by decide : _ < 3)⟩
  · exact ⟨draw_honest 5, draw_draws 5⟩
  · exact ⟨draw_honest 6, draw_draws 6⟩

/-- C78 violated: a user function that draws and returns another dictionary gets the same numbers again on processes, and not on threads. -/
theorem C78_repeat_witness :
    let f : Fn := fun d => ((draw 4 d).1, some [("done", .num 1)])
    let go := fun share => (run share { info := addStreams (fun _ => none) 2 .other } [.give 1, .ret 1 f, .give 1, .ret 1 f]).map
      fun s => s.log.map fun c => (c.given.stream, c.after.stream)
    go false = some [(some ⟨.seed 1, 0⟩, some ⟨.seed 1, 4⟩), (some ⟨.seed 1, 0⟩, some ⟨.seed 1, 4⟩)]
      ∧ go true = some [(some ⟨.seed 1, 4⟩, some ⟨.seed 1, 8⟩), (some ⟨.seed 1, 0⟩, some ⟨.seed 1, 4⟩)] := by decide

/-- C78 violated: streams added again, before a second run with the returned `persis_info`, begin again from the start. -/
theorem C78_again_witness :
    let go := fun info => (run false { info } [.give 1, .ret 1 (draw 4)]).map fun s => (s.info, s.log.map fun c => c.given.stream)
    ∃ info, (go (addStreams (fun _ => none) 2 .other)).map (·.2) = some [some ⟨.seed 1, 0⟩]
      ∧ (go (addStreams (fun _ => none) 2 .other)).map (·.1) = some info
      ∧ (go info).map (·.2) = some [some ⟨.seed 1, 4⟩]
      ∧ (go (addStreams info 2 .other)).map (·.2) = some [some ⟨.seed 1, 0⟩] := ⟨_, by decide, rfl, by decide, by decide⟩

/-! ### The streams of an ensemble -/

/-- C78 (partial as `C76_workers_partial`): `ensemble.add_random_streams()` gives a stream of its own to every worker of the run, and to the generator on the manager, which is
number 0. -/
theorem C78_covered_partial {e : Settings.Env} {w w1 : Settings.World} {arg : Settings.Arg} {cli : Option Settings.Args} {x : Settings.Ens} {c : Settings.Comms}
    (hc : c = .loc ∨ c = .threads) (h : Settings.step e w (.create arg cli) = (w1, none)) (hx : w1.ens[w.ens.length]? = some x) (hk : x.known = some c)
    (ops : List Settings.Op) (ho : ∀ op ∈ ops, Settings.Own w.ens.length op) (info : Nat → Option Dict) (seed : Seed) :
    ∃ x', (Settings.steps e w1 ops).ens[w.ens.length]? = some x' ∧ ∀ l m, Settings.run e (Settings.steps e w1 ops) x' = .ok l → l.role = .manager m →
      ∀ i, 1 ≤ m → i ≤ m → ((ensStreams info ((Settings.steps e w1 ops).nworkers x') 0 seed i).getD []).stream = some ⟨srcOf seed i, 0⟩ := by
  obtain ⟨x', h1, h2⟩ := Settings.C76_workers_partial hc h hx hk ops ho
  refine ⟨x', h1, fun l m hl hr i hp hi => ?_⟩
  have := (h2 l hl).2
  rw [hr] at this
  have hm : m = ((Settings.steps e w1 ops).nworkers x').toNat := by cases this; rfl
  unfold ensStreams
  rw [if_neg (by simp)]
  obtain ⟨d, g1, g2, _⟩ := (C78_streams info (((Settings.steps e w1 ops).nworkers x') + 1).toNat seed i).2 (by omega)
  rw [g1, Option.getD_some]
  unfold Dict.stream
  rw [g2]

/-- C78 violated: with hosts on TCP and no number of workers, three workers are started and only number 0 has a stream. -/
theorem C78_hosts_witness :
    let w := Settings.steps ⟨false, 0, 1⟩ {} [.create (.dict { comms := some .tcp, hosts := some ["a", "b", "c"] }) none]
    w.ens = [⟨some 1, 0, false, some .tcp⟩] ∧ Settings.run ⟨false, 0, 1⟩ w ⟨some 1, 0, false, some .tcp⟩ = .ok ⟨.tcp, .manager 3, false⟩
      ∧ ensStreams (fun _ => none) (w.nworkers ⟨some 1, 0, false, some .tcp⟩) 0 .other 1 = none := ⟨by decide, rfl, by decide⟩

/-! ### The generators of `fast_alloc_and_pausing` -/

/-- No generator is at work. -/
def Quiet (s : St) : Prop := ∀ w h, s.held w = some h → h.src = none

/-- The orders of `fast_alloc_and_pausing`, with a generator only if there is none at work (num_active_gens = 1). -/
def OneGen : St → List Event → Prop
  | _, [] => True
  | s, e :: es => (match e with | .give _ => False | .giveLast _ => Quiet s | _ => True) ∧ ∀ s', step false s e = some s' → OneGen s' es

/-- A user function that draws from a stream and makes none, and returns what it is given, or no dictionary. -/
def Plain (f : Fn) : Prop := Draws f ∧ ∀ d, ((f d).2 = none ∨ (f d).2 = some (f d).1) ∧ (d.lookup "rand_stream" = none → (f d).1.lookup "rand_stream" = none)

/-- The generators draw one after the other from one stream; `a` is where it is. -/
structure Chain (s : St) : Prop where
  ex : ∃ a, (∀ c ∈ s.log, ∀ src i, Drawn c src i → src = a.src ∧ i < a.pos)
    ∧ ((Quiet s ∧ ((s.info s.last).getD []).stream = some a)
      ∨ (∃ h d, s.held s.last = some h ∧ h.src.isSome = true ∧ h.was = some d ∧ d.stream = some a ∧ ∀ w h', s.held w = some h' → w ≠ s.last → h'.src = none))
  pair : s.log.Pairwise fun c c' => ∀ src i, Drawn c src i → ¬ Drawn c' src i

theorem Chain.step {s s' : St} {e : Event} (hi : Chain s)
    (he : match e with | .give _ => False | .giveLast _ => Quiet s | .giveList _ => True | .ret _ f => Plain f) (hs : step false s e = some s') : Chain s' := by
  obtain ⟨a, ha, hq⟩ := hi.ex
  cases e with
  | give v => exact he.elim
  | giveLast v =>
    simp only [Persis.step] at hs
    split at hs
    · cases hs
    · rename_i hh
      cases hs
      rcases hq with ⟨hq, hst⟩ | ⟨h, d, h1, h2, _⟩
      · refine ⟨⟨a, ha, .inr ?_⟩, hi.pair⟩
        cases hd : s.info s.last with
        | none => exact absurd (.inr (by rw [hd]; rfl)) hh
        | some d =>
          rw [hd] at hst
          refine ⟨_, d, set_same .., rfl, rfl, hst, fun w h' hw hne => ?_⟩
          dsimp only at hw hne
          rw [set_other hne] at hw
          exact hq w h' hw
      · rw [he _ _ h1] at h2; cases h2
  | giveList v =>
    simp only [Persis.step] at hs
    split at hs
    · cases hs
    · rename_i hh
      cases hs
      refine ⟨⟨a, ha, ?_⟩, hi.pair⟩
      rcases hq with ⟨hq, hst⟩ | ⟨h, d, h1, h2, h3, h4, h5⟩
      · refine .inl ⟨fun w h hw => ?_, hst⟩
        dsimp only at hw
        by_cases hwv : w = v
        · subst hwv; rw [set_same] at hw; cases hw; rfl
        · rw [set_other hwv] at hw; exact hq w h hw
      · have hne : s.last ≠ v := by rintro rfl; rw [h1] at hh; exact hh rfl
        refine .inr ⟨h, d, ?_, h2, h3, h4, fun w h' hw hwl => ?_⟩
        · dsimp only; rw [set_other hne]; exact h1
        · dsimp only at hw
          by_cases hwv : w = v
          · subst hwv; rw [set_same] at hw; cases hw; rfl
          · rw [set_other hwv] at hw; exact h5 w h' hw hwl
  | ret v f =>
    simp only [Persis.step] at hs
    split at hs
    · cases hs
    · rename_i h hh
      cases hs
      have hf : Plain f := he
      by_cases hsrc : h.src = none
      · -- a call without a dictionary
        have hcont : content false s.info h = [] := by unfold content; rw [hsrc]
        have hback : (sent h (f [])).lookup "rand_stream" = none := by
          unfold sent
          rw [hsrc]
          rcases (hf.2 []).1 with h1 | h1 <;> rw [h1]
          · rfl
          · exact (hf.2 []).2 rfl
        have hnot : ∀ src i, ¬ Drawn ⟨v, h.src, [], (f []).1, sent h (f [])⟩ src i := by
          rintro src i ⟨x, y, e1, _⟩
          cases e1
        rw [hcont, inPlace_copy]
        refine ⟨⟨a, fun c hc src i hd => ?_, ?_⟩, List.pairwise_cons.mpr ⟨fun c' _ src i hd => absurd hd (hnot src i), hi.pair⟩⟩
        · rcases List.mem_cons.mp hc with rfl | hc
          · exact absurd hd (hnot src i)
          · exact ha c hc src i hd
        · rcases hq with ⟨hq, hst⟩ | ⟨h', d, h1, h2, h3, h4, h5⟩
          · refine .inl ⟨fun w h' hw => ?_, ?_⟩
            · dsimp only at hw
              by_cases hwv : w = v
              · subst hwv; rw [set_same] at hw; cases hw
              · rw [set_other hwv] at hw; exact hq w h' hw
            · dsimp only
              by_cases hlv : s.last = v
              · rw [hlv, set_same]
                unfold Dict.stream
                rw [lookup_receive, hback]
                rw [hlv] at hst
                exact hst
              · rw [set_other hlv]; exact hst
          · have hne : s.last ≠ v := by
              rintro rfl
              rw [hh] at h1; cases h1
              rw [hsrc] at h2; cases h2
            refine .inr ⟨h', d, ?_, h2, h3, h4, fun w h'' hw hwl => ?_⟩
            · dsimp only; rw [set_other hne]; exact h1
            · dsimp only at hw hwl
              by_cases hwv : w = v
              · subst hwv; rw [set_same] at hw; cases hw
              · rw [set_other hwv] at hw; exact h5 w h'' hw hwl
      · -- the generator
        rcases hq with ⟨hq, _⟩ | ⟨h', d, h1, h2, h3, h4, h5⟩
        · exact absurd (hq v h hh) hsrc
        · have hvl : v = s.last := Classical.byContradiction fun hne => hsrc (h5 v h hh hne)
          subst hvl
          rw [hh] at h1; cases h1
          obtain ⟨u, hu⟩ : ∃ u, h.src = some u := by cases hx : h.src with | none => exact absurd hx hsrc | some u => exact ⟨u, rfl⟩
          have hcont : content false s.info h = d := by rw [content_copy _ _ u hu, h3]; rfl
          have hback : sent h (f d) = (f d).1 := by
            unfold sent
            rw [hu]
            rcases (hf.2 d).1 with h1 | h1 <;> rw [h1] <;> rfl
          obtain ⟨n, hn⟩ := hf.1 d a h4
          have hnew : ∀ src i, Drawn ⟨s.last, h.src, d, (f d).1, sent h (f d)⟩ src i → src = a.src ∧ a.pos ≤ i ∧ i < a.pos + n := by
            rintro src i ⟨x, y, e1, e2, e3, e4, e5⟩
            dsimp only at e1 e2
            rw [h4] at e1; cases e1
            rw [hn] at e2; cases e2
            exact ⟨e3, e4, e5⟩
          rw [hcont, inPlace_copy]
          refine ⟨⟨{ a with pos := a.pos + n }, fun c hc src i hd => ?_, .inl ⟨fun w h' hw => ?_, ?_⟩⟩,
            List.pairwise_cons.mpr ⟨fun c' hm src i hd hd' => ?_, hi.pair⟩⟩
          · rcases List.mem_cons.mp hc with rfl | hc
            · exact ⟨(hnew src i hd).1, (hnew src i hd).2.2⟩
            · have := ha c hc src i hd
              exact ⟨this.1, Nat.lt_of_lt_of_le this.2 (Nat.le_add_right _ _)⟩
          · dsimp only at hw
            by_cases hwv : w = s.last
            · subst hwv; rw [set_same] at hw; cases hw
            · rw [set_other hwv] at hw; exact h5 w h' hw hwv
          · dsimp only
            rw [set_same]
            unfold Dict.stream
            rw [lookup_receive, hback]
            unfold Dict.stream at hn
            cases hl : (f d).1.lookup "rand_stream" with
            | none => rw [hl] at hn; cases hn
            | some v => rw [hl] at hn; exact hn
          · have e1 := hnew src i hd
            have e2 := ha c' hm src i hd'
            omega

theorem Chain.start {init : Nat → Option Dict} {last : Nat} {a : Stream} (h : ((init last).getD []).stream = some a) : Chain { info := init, last } :=
  ⟨⟨a, fun _ hc => (nomatch hc), .inl ⟨fun _ _ hw => (nomatch hw), h⟩⟩, .nil⟩

/-- C78 (partial: one generator at a time, and messages that are copied; see `C78_two_gens_witness`): the generators of `fast_alloc_and_pausing`, wherever they run,
draw from one stream and use no number twice. -/
theorem C78_chain_partial {init : Nat → Option Dict} {last : Nat} {es : List Event} {s : St} (h0 : ((init last).getD []).stream.isSome = true)
    (h1 : OneGen { info := init, last } es) (hf : ∀ w f, Event.ret w f ∈ es → Plain f) (h : run false { info := init, last } es = some s) :
    s.log.Pairwise fun c c' => ∀ src i, Drawn c src i → ¬ Drawn c' src i := by
  suffices hall : ∀ (es : List Event) (s0 : St), Chain s0 → OneGen s0 es → (∀ w f, Event.ret w f ∈ es → Plain f) → ∀ s, run false s0 es = some s → Chain s by
    obtain ⟨a, ha⟩ := Option.isSome_iff_exists.mp h0
    exact (hall es _ (Chain.start ha) h1 hf s h).pair
  intro es
  induction es with
  | nil => intro s0 hc _ _ s hs; cases hs; exact hc
  | cons e es ih =>
    intro s0 hc ho hf s hs
    unfold run at hs
    split at hs
    · cases hs
    · rename_i t ht
      refine ih t (hc.step ?_ ht) (ho.2 t ht) (fun w f hm => hf w f (List.mem_cons_of_mem _ hm)) s hs
      have := ho.1
      cases e with
      | give v => exact this
      | giveLast v => exact this
      | giveList v => trivial
      | ret v f => exact hf v f List.mem_cons_self

theorem draw_plain (n : Nat) : Plain (draw n) := by
  refine ⟨draw_draws n, fun d => ⟨.inl rfl, fun h => ?_⟩⟩
  unfold draw
  simp only [h]

/-- Hypotheses of `C78_chain_partial`: generators on workers 1 and 2, a simulation on worker 3 in between. -/
example : OneGen { info := addStreams (fun _ => none) 4 .other, last := 1 } [.giveLast 1, .giveList 3, .ret 1 (draw 4), .giveLast 2, .ret 3 (draw 1), .ret 2 (draw 5)]
    ∧ ((run false { info := addStreams (fun _ => none) 4 .other, last := 1 } [.giveLast 1, .giveList 3, .ret 1 (draw 4), .giveLast 2, .ret 3 (draw 1), .ret 2 (draw 5)]).map
      fun s => s.log.map fun c => (c.worker, c.given.stream)) = some [(2, some ⟨.seed 1, 4⟩), (3, none), (1, some ⟨.seed 1, 0⟩)] := by
  refine ⟨?_, by decide⟩
  refine ⟨nofun, ?_⟩
  rintro _ ⟨⟩
  refine ⟨trivial, ?_⟩
  rintro _ ⟨⟩
  refine ⟨trivial, ?_⟩
  rintro _ ⟨⟩
  refine ⟨fun w h hw => ?_, ?_⟩
  · simp only [set] at hw
    split at hw
    · cases hw
    · split at hw
      · cases hw; rfl
      · cases hw
  rintro _ ⟨⟩
  refine ⟨trivial, ?_⟩
  rintro _ ⟨⟩
  exact ⟨trivial, fun _ _ => trivial⟩

/-- C78 violated: two generators that `fast_alloc_and_pausing` starts at once draw the same numbers, since the second gets what the first has not yet sent back. -/
theorem C78_two_gens_witness :
    ((run false { info := addStreams (fun _ => none) 4 .other, last := 1 } [.giveLast 1, .giveLast 2, .ret 1 (draw 4), .ret 2 (draw 4)]).map
      fun s => s.log.map fun c => (c.worker, c.given.stream, c.after.stream))
    = some [(2, some ⟨.seed 1, 0⟩, some ⟨.seed 1, 4⟩), (1, some ⟨.seed 1, 0⟩, some ⟨.seed 1, 4⟩)] := by decide

end Verif.Persis
