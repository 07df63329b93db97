import Verif.System.Live
/-!
Property C70: a whole run of manager and workers with `sim_max` comes to its end.

`C68_ends_partial` is about the manager alone and takes for granted that whoever owes an answer sends one (`Fair`) and that every order is
answered once (`Answers`).  Here both are proved of manager and workers together: workers are the programs of `Verif.Worker`,
messages go through channels, and all take their steps in any order in which everybody gets their turn (`Course`).
-/
namespace Verif.System
open Verif Verif.Worker
open Verif.Manager (Always Start Iter Obliging HistOk Productive Unnumbered CancelledFirst Bundled AllocEnv Answers Fair Replies Honest)

variable {env : Env} {c : Start} {f : Nat → Iter}

/-- The conditions on the contents of messages: the history is sound, protected fields are safe, generators send points that they do
not number themselves, and rows cancelled before they were given are among `cs`. -/
structure Proper (c : Start) (cs : List Nat) (tr : List Manager.Ev) : Prop where
  hist : HistOk c tr
  prot : c.Protected tr
  productive : Productive tr
  unnumbered : Unnumbered tr
  cancelled : ∀ i, CancelledFirst c tr i → i ∈ cs

theorem always_suffix {G : List Manager.Ev → Manager.Ev → Prop} {a tr : List Manager.Ev} (h : Always G tr) (hs : a <:+ tr) : Always G a := by
  obtain ⟨l, rfl⟩ := hs
  exact fun post e pre he => h (l ++ post) e pre (by rw [he, List.append_assoc])

theorem framed_suffix {a tr : List Manager.Ev} (h : Manager.Whole tr) (hs : a <:+ tr) (w : Nat) : Framed (sentTo w a) := by
  obtain ⟨l, rfl⟩ := hs
  have h1 := h w
  rw [Manager.sentTo_append] at h1
  exact framed_prefix (b := sentTo w l) (by unfold Framed; rw [h1]; simp)

theorem loop_grows (c : Start) (f : Nat → Iter) {k j : Nat} (h : k ≤ j) : (c.loop (Manager.passes f k)).1.tr <:+ (c.loop (Manager.passes f j)).1.tr := by
  induction j with
  | zero => rw [Nat.le_zero.mp h]; exact List.suffix_refl _
  | succ j ih =>
    by_cases hk : k = j + 1
    · rw [hk]; exact List.suffix_refl _
    · refine List.IsSuffix.trans (ih (by omega)) ?_
      rw [Manager.passes_succ]
      simp only [Start.loop]
      rw [Manager.mainLoop_append]
      split
      · obtain ⟨l, hl, _⟩ := Manager.mainLoop_tr (sp := c.sp) [f j] (Manager.mainLoop c.sp (Manager.passes f j) c.st).1
        exact ⟨l, hl.symm⟩
      · exact List.suffix_refl _

/-- What the manager does as long as the main loop runs. -/
def Keeps (K : Bool) (c : Start) (f : Nat → Iter) : Prop :=
  ∀ k, (c.loop (Manager.passes f k)).2 = .running → Always (Neat K) (c.loop (Manager.passes f k)).1.tr ∧ Manager.Whole (c.loop (Manager.passes f k)).1.tr

/-- As long as the main loop runs, orders, messages and workers are in step. -/
theorem Course.steady {K : Bool} (C : Course env c f) (hN : Keeps K c f) (hF : ∀ w, Simple (env.F w)) (hA : K = false → ∀ w, Asking env (env.F w))
    {k n : Nat} (hrun : (c.loop (Manager.passes f k)).2 = .running)
    (hn : (C.at_ n).tr <:+ (c.loop (Manager.passes f k)).1.tr) : Steady env K (C.at_ n).tr (C.at_ n).ws := by
  obtain ⟨h1, h2⟩ := hN k hrun
  exact (C.joint n).steady hF hA (always_suffix h1 hn) (framed_suffix h2 hn)

/-- Whoever owes an answer sends one, and the manager receives it unless the main loop ends before. -/
theorem Course.fair {K : Bool} (C : Course env c f) (hN : Keeps K c f) (hF : ∀ w, Simple (env.F w)) (hA : K = false → ∀ w, Asking env (env.F w))
    {b : Bundled} {aenv : AllocEnv} (hits : ∀ k, (f k).uses b aenv c.sp) : Fair c f := by
  intro k w hk ho
  by_cases hrun : ∀ k, (c.loop (Manager.passes f k)).2 = .running
  · have hw : w ∈ c.workers := by
      obtain ⟨p, hp, hr⟩ := Manager.over_main (Manager.passes_use hits k)
      cases hox : Manager.owes w (c.loop (Manager.passes f k)).1.tr with
      | none => exact absurd hox ho
      | some t =>
        obtain ⟨key, wk, hm⟩ := Manager.owes_order hox
        exact Manager.order_workers hr hp w key wk hm
    have hin : ∀ n, ∃ k, (C.at_ n).tr <:+ (c.loop (Manager.passes f k)).1.tr := C.inside
    have hst : ∀ n, Steady env K (C.at_ n).tr (C.at_ n).ws := fun n => by
      obtain ⟨k, hk⟩ := hin n
      exact C.steady hN hF hA (hrun k) hk
    have hneat := fun k => hN k (hrun k)
    obtain ⟨n, hn⟩ := C.passes k
    obtain ⟨m, hm, hlt⟩ := C.answered hF hA hst
      (fun n => by obtain ⟨k, hk⟩ := hin n; exact always_suffix (hneat k).1 hk)
      (fun n w => by obtain ⟨k, hk⟩ := hin n; exact framed_suffix (hneat k).2 hk w)
      (fun k => (hneat k).2) (fun ⟨k, hk⟩ => hk (hrun k)) hw (n := n) (by rw [hn]; exact ho)
    obtain ⟨l, hl⟩ := C.grow hm
    have hd : ∃ d, .recv w (.data d) ∈ l := by
      rw [← hl, got, got, List.countP_append] at hlt
      have hpos : 0 < l.countP (isGot w) := by omega
      obtain ⟨e, he, hge⟩ := List.countP_pos_iff.mp hpos
      cases e with
      | recv v msg =>
        simp only [isGot, Bool.and_eq_true, decide_eq_true_eq] at hge
        obtain ⟨rfl, hge⟩ := hge
        cases msg with
        | data d => exact ⟨d, he⟩
        | err => exact absurd (by rw [← hl]; exact List.mem_append_left _ he) ((hst m).noErr v)
        | _ => cases hge
      | _ => cases hge
    obtain ⟨d, hd⟩ := hd
    obtain ⟨j, hj⟩ := hin m
    obtain ⟨l2, hl2⟩ := List.IsSuffix.trans hj (loop_grows c f (Nat.le_max_left j k))
    refine ⟨max j k, Nat.le_max_right _ _, .inr ⟨l2 ++ l, d, ?_, List.mem_append_right _ hd⟩⟩
    rw [← hl2, ← hl, hn, List.append_assoc]
  · obtain ⟨j, hj⟩ : ∃ j, (c.loop (Manager.passes f j)).2 ≠ .running :=
      Classical.byContradiction fun h => hrun fun k => Classical.byContradiction fun h' => h ⟨k, h'⟩
    refine ⟨max j k, Nat.le_max_right _ _, .inl fun hr => ?_⟩
    have hend : ∀ d, (c.loop (Manager.passes f (j + d))).2 ≠ .running := by
      intro d
      induction d with
      | zero => exact hj
      | succ d ih =>
        rw [show j + (d + 1) = j + d + 1 by omega, Manager.passes_succ]
        simp only [Start.loop] at ih ⊢
        rw [Manager.mainLoop_append, if_neg ih]
        exact ih
    have := hend (max j k - j)
    rw [show j + (max j k - j) = max j k by omega] at this
    exact this hr

theorem keeps_plain {b : Bundled} (hb : b.plain = true) {aenv : AllocEnv} (hits : ∀ k, (f k).uses b aenv c.sp) (hg : c.sp.finalGenSend = false) :
    Keeps true c f := fun k hr => neat_run hb hg (Manager.passes_use hits k) hr

/-- Workers answer every order at most once, as long as the main loop runs: what `C68` takes for granted.  Partial: for the
allocation functions without persistent functions and user functions that only look for signals and return. -/
theorem C70_answers_partial (C : Course env c f) (b : Bundled) (hb : b.plain = true) (aenv : AllocEnv) (hits : ∀ k, (f k).uses b aenv c.sp)
    (hg : c.sp.finalGenSend = false) (hF : ∀ w, Simple (env.F w)) (k : Nat) (hrun : (c.loop (Manager.passes f k)).2 = .running) :
    Answers (c.loop (Manager.passes f k)).1.tr ∧ ∀ w, .recv w .err ∉ (c.loop (Manager.passes f k)).1.tr := by
  obtain ⟨n, hn⟩ := C.passes k
  have h := C.steady (keeps_plain hb hits hg) hF nofun hrun (n := n) (by rw [hn]; exact List.suffix_refl _)
  rw [hn] at h
  exact ⟨h.answers rfl, h.noErr⟩

/-- Whoever owes an answer sends one, and the manager receives it unless the main loop ends before: what `C68` takes for granted. -/
theorem C70_fair_partial (C : Course env c f) (b : Bundled) (hb : b.plain = true) (aenv : AllocEnv) (hits : ∀ k, (f k).uses b aenv c.sp)
    (hg : c.sp.finalGenSend = false) (hF : ∀ w, Simple (env.F w)) : Fair c f :=
  C.fair (keeps_plain hb hits hg) hF nofun hits

/-- A whole run of manager and workers with `sim_max` comes to its end: workers run user functions that return, everybody gets their
turn, what generators send is proper and the clock does not run backwards: then the main loop ends.  Partial: for the allocation functions
without persistent functions, `final_gen_send` off, and user functions that only look for signals and return. -/
theorem C70_ends_partial (C : Course env c f) (b : Bundled) (hb : b.plain = true) (aenv : AllocEnv) (hits : ∀ k, (f k).uses b aenv c.sp)
    (hg : c.sp.finalGenSend = false) (hF : ∀ w, Simple (env.F w)) (m : Nat) (hm : c.sp.simMax = some m)
    (hptr : c.pinfo.nextToGive.getD 0 ≤ c.H0.rows.length) (cs : List Nat)
    (hok : ∀ k, (c.loop (Manager.passes f k)).2 = .running → Proper c cs (c.loop (Manager.passes f k)).1.tr)
    (hclock : ∀ k, (f k).e2 ≤ (f (k + 1)).e1) : ∃ k, (c.loop (Manager.passes f k)).2 ≠ .running := by
  refine Classical.byContradiction fun hn => ?_
  have hrun : ∀ k, (c.loop (Manager.passes f k)).2 = .running := fun k => Classical.byContradiction fun h => hn ⟨k, h⟩
  refine hn (Manager.C68_ends_partial c b hb aenv f hits m hm hptr cs (fun k => ?_) hclock (C70_fair_partial C b hb aenv hits hg hF))
  have h := hok k (hrun k)
  exact ⟨h.hist, h.prot, (C70_answers_partial C b hb aenv hits hg hF k (hrun k)).1, h.productive, h.unnumbered, h.cancelled⟩

/-! ### Persistent generators -/

/-- The settings of runs with `only_persistent_gens` for which this is proved: all of them are defaults. -/
structure PlainGens (c : Start) (o : Alloc.UserOpts) : Prop where
  fin : c.sp.finalGenSend = false
  kill : c.sp.kill = false
  alt : o.altType = false
  act : o.activeRecvGen = false

theorem keeps_gens {o : Alloc.UserOpts} (hu : PlainGens c o) {aenv : AllocEnv} (hits : ∀ k, (f k).uses (.persGens o) aenv c.sp) : Keeps false c f :=
  fun k hr => neat_gens hu.fin hu.kill hu.alt hu.act (Manager.passes_use hits k) hr

/-- With persistent generators that answer when they are asked, every message answers an order that was not answered before, results of
simulations are for rows that the worker was given, and no worker fails: what `C68_persGens` takes for granted.  Partial: for the usual
settings. -/
theorem C70_gens_replies_partial (C : Course env c f) (o : Alloc.UserOpts) (hu : PlainGens c o) (aenv : AllocEnv) (hits : ∀ k, (f k).uses (.persGens o) aenv c.sp)
    (hF : ∀ w, Simple (env.F w)) (hA : ∀ w, Asking env (env.F w)) (k : Nat) (hrun : (c.loop (Manager.passes f k)).2 = .running) :
    Replies (c.loop (Manager.passes f k)).1.tr ∧ Honest (c.loop (Manager.passes f k)).1.tr ∧ ∀ w, .recv w .err ∉ (c.loop (Manager.passes f k)).1.tr := by
  obtain ⟨n, hn⟩ := C.passes k
  have h := C.steady (keeps_gens hu hits) hF (fun _ => hA) hrun (n := n) (by rw [hn]; exact List.suffix_refl _)
  have hh := (C.joint n).honest ?_ ?_ (fun w _ _ => (h.inv w).faith)
  · rw [hn] at h hh
    exact ⟨h.replies, hh, h.noErr⟩
  · rw [hn]
    obtain ⟨p, _, hr⟩ := Manager.over_main (Manager.passes_use hits k)
    intro post w idx vals pre he
    obtain ⟨key, wk, pre', h1, h2, _⟩ := (hr.givF (h0 := c.hist) Manager.start_tr rfl) post _ pre he
    exact ⟨key, wk, pre', h1, h2⟩
  · exact framed_suffix (keeps_gens hu hits k hrun).2 (by rw [hn]; exact List.suffix_refl _)

/-- Persistent generators and simulators that owe an answer send one, and the manager receives it. -/
theorem C70_gens_fair_partial (C : Course env c f) (o : Alloc.UserOpts) (hu : PlainGens c o) (aenv : AllocEnv) (hits : ∀ k, (f k).uses (.persGens o) aenv c.sp)
    (hF : ∀ w, Simple (env.F w)) (hA : ∀ w, Asking env (env.F w)) : Fair c f :=
  C.fair (keeps_gens hu hits) hF (fun _ => hA) hits

/-- A whole run with persistent generators, `only_persistent_gens` and `sim_max` comes to its end: generators send points when they are
called and when they get results, or end; simulations return; everybody gets their turn; then the main loop ends.  Nothing has to be
assumed about the points, not even that there are any. -/
theorem C70_gens_ends_partial (C : Course env c f) (o : Alloc.UserOpts) (hu : PlainGens c o) (aenv : AllocEnv) (hits : ∀ k, (f k).uses (.persGens o) aenv c.sp)
    (hF : ∀ w, Simple (env.F w)) (hA : ∀ w, Asking env (env.F w)) (m : Nat) (hm : c.sp.simMax = some m) (hstd : c.Std)
    (hok : ∀ k, (c.loop (Manager.passes f k)).2 = .running → c.Protected (c.loop (Manager.passes f k)).1.tr)
    (hclock : ∀ k, (f k).e2 ≤ (f (k + 1)).e1) : ∃ k, (c.loop (Manager.passes f k)).2 ≠ .running := by
  refine Classical.byContradiction fun hn => ?_
  have hrun : ∀ k, (c.loop (Manager.passes f k)).2 = .running := fun k => Classical.byContradiction fun h => hn ⟨k, h⟩
  refine hn (Manager.C68_persGens_ends_partial c o hu.act aenv f hits m hm (fun k => ?_) hclock (C70_gens_fair_partial C o hu aenv hits hF hA))
  obtain ⟨h1, h2, _⟩ := C70_gens_replies_partial C o hu aenv hits hF hA k (hrun k)
  exact ⟨hstd, hok k (hrun k), h1, h2⟩

end Verif.System
