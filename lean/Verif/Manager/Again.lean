import Verif.Manager.Indep
import Verif.Manager.Once
/-
Runs that differ only in what earlier runs left in `persis_info`.
-/
namespace Verif.Manager
open Verif.History Verif.Res Verif.Sched Verif.Alloc

/-- The entries of `persis_info` that `AllocSupport` reads (alloc_support.py:182-191) and the number of started generators are those of `p`,
everything else is as in `q`. -/
def over (q p : PInfo) : PInfo :=
  { q with
    numGensStarted := p.numGensStarted, genResources := p.genResources, genUseGpus := p.genUseGpus
    genNumProcs := p.genNumProcs, genNumGpus := p.genNumGpus }

/-- Functions whose decisions use nothing else of `persis_info`. -/
def Bundled.forgetful : Bundled → Bool
  | .simFirst _ | .persGens _ | .fd _ | .invBayes _ _ => true
  | _ => false

variable (q : PInfo)

def lo (st : LoopSt) : LoopSt := { st with p := over q st.p }
def ao (a : Answer) : Answer := { a with pinfo := over q a.pinfo }

theorem simWork_over (c : Ctx) (p : PInfo) (s : Sched) (w : Nat) (rows : List Nat) (b : Bool) :
    simWork c (over q p) s w rows b = simWork c p s w rows b := rfl
theorem genWork_over (c : Ctx) (p : PInfo) (s : Sched) (w : Nat) (fs : List Field) (rows : List Nat) (b : Bool) (ar : Option Bool)
    (g : Option (List Nat)) : genWork c (over q p) s w fs rows b ar g = genWork c p s w fs rows b ar g := rfl

theorem gswfSims_over (c : Ctx) (b : Bool) (ws : List Nat) : ∀ st : LoopSt, gswfSims c b ws (lo q st) = (gswfSims c b ws st).map (lo q) := by
  induction ws with
  | nil => exact fun st => rfl
  | cons w ws ih =>
    intro st
    have h1 : (lo q st).pts = st.pts := rfl
    have h2 : ∀ ids, simWork c (lo q st).p (lo q st).s w ids false = simWork c st.p st.s w ids false := fun _ => rfl
    simp only [gswfSims, h1, h2]
    split
    · rfl
    · split
      · rfl
      · rfl
      · split
        · rfl
        · exact ih { st with s := _, work := _, pts := _ }

theorem gswfGens_over (c : Ctx) (o : UserOpts) (ws : List Nat) : ∀ st : LoopSt, gswfGens c o ws (lo q st) = (gswfGens c o ws st).map (lo q) := by
  induction ws with
  | nil => exact fun st => rfl
  | cons w ws ih =>
    intro st
    have h1 : (lo q st).gens = st.gens := rfl
    have h2 : ∀ fs ids a b g, genWork c (lo q st).p (lo q st).s w fs ids a b g = genWork c st.p st.s w fs ids a b g := fun _ _ _ _ _ => rfl
    simp only [gswfGens, h1, h2]
    split
    · rfl
    · split
      · rfl
      · split
        · rfl
        · rfl
        · exact ih { st with s := _, work := _, gens := _ }

theorem opgReturns_over (c : Ctx) (o : UserOpts) (a : Bool) (ws : List Nat) :
    ∀ st : LoopSt, opgReturns c o a ws (lo q st) = (opgReturns c o a ws st).map (lo q) := by
  induction ws with
  | nil => exact fun st => rfl
  | cons w ws ih =>
    intro st
    have h2 : ∀ fs ids a b g, genWork c (lo q st).p (lo q st).s w fs ids a b g = genWork c st.p st.s w fs ids a b g := fun _ _ _ _ _ => rfl
    simp only [opgReturns, h2]
    split
    · split
      · rfl
      · exact ih { st with s := _, work := _ }
    · exact ih st

theorem opgSims_over (c : Ctx) (o : UserOpts) (ws : List Nat) :
    ∀ st : LoopSt, opgSims c o ws (lo q st) = (opgSims c o ws st).map (lo q) := by
  induction ws with
  | nil => exact fun st => rfl
  | cons w ws ih =>
    intro st
    have h1 : (lo q st).pts = st.pts := rfl
    have h2 : ∀ ids b, simWork c (lo q st).p (lo q st).s w ids b = simWork c st.p st.s w ids b := fun _ _ => rfl
    simp only [opgSims, h1, h2]
    split
    · rfl
    · split
      · rfl
      · split
        · rfl
        · rfl
        · exact ih { st with s := _, work := _, pts := _ }

theorem opgGens_over (c : Ctx) (o : UserOpts) (ws : List Nat) :
    ∀ st : LoopSt, opgGens c o ws (lo q st) = (opgGens c o ws st).map (lo q) := by
  induction ws with
  | nil => exact fun st => rfl
  | cons w ws ih =>
    intro st
    have h1 : (lo q st).gens = st.gens := rfl
    have h2 : ∀ fs ids a b g, genWork c (lo q st).p (lo q st).s w fs ids a b g = genWork c st.p st.s w fs ids a b g := fun _ _ _ _ _ => rfl
    simp only [opgGens, h1, h2]
    split
    · split
      · rfl
      · rfl
      · exact ih { st with s := _, work := _, gens := _, p := { st.p with numGensStarted := _ } }
    · exact ih st

theorem pickSims_over (c : Ctx) (pick : List Nat → List Nat) (ws : List Nat) :
    ∀ st : LoopSt, pickSims c pick ws (lo q st) = (pickSims c pick ws st).map (lo q) := by
  induction ws with
  | nil => exact fun st => rfl
  | cons w ws ih =>
    intro st
    have h1 : (lo q st).pts = st.pts := rfl
    have h2 : ∀ ids b, simWork c (lo q st).p (lo q st).s w ids b = simWork c st.p st.s w ids b := fun _ _ => rfl
    simp only [pickSims, h1, h2]
    split
    · rfl
    · split
      · rfl
      · rfl
      · exact ih { st with s := _, work := _, pts := _ }

theorem startFirst_over (c : Ctx) (b : Bool) (g : Option (List Nat)) (st : LoopSt) :
    startFirst c b g (lo q st) = (startFirst c b g st).map (lo q) := by
  have h2 : ∀ w fs ids a b g, genWork c (lo q st).p (lo q st).s w fs ids a b g = genWork c st.p st.s w fs ids a b g := fun _ _ _ _ _ _ => rfl
  simp only [startFirst, h2]
  split
  · rfl
  · rfl
  · split <;> rfl

theorem fdReturns_over (c : Ctx) (o : FdOpts) (ws : List Nat) : ∀ st : LoopSt, fdReturns c o ws (lo q st) = (fdReturns c o ws st).map (lo q) := by
  induction ws with
  | nil => exact fun st => rfl
  | cons w ws ih =>
    intro st
    have h2 : ∀ fs ids a b g, genWork c (lo q st).p (lo q st).s w fs ids a b g = genWork c st.p st.s w fs ids a b g := fun _ _ _ _ _ => rfl
    simp only [fdReturns, h2]
    split
    · exact ih st
    · split
      · rfl
      · exact ih { st with s := _, work := _ }

theorem ibReturns_over (c : Ctx) (o : IbOpts) (like : Field) (ws : List Nat) :
    ∀ st : LoopSt, ibReturns c o like ws (lo q st) = (ibReturns c o like ws st).map (lo q) := by
  induction ws with
  | nil => exact fun st => rfl
  | cons w ws ih =>
    intro st
    have h2 : ∀ fs ids a b g, genWork c (lo q st).p (lo q st).s w fs ids a b g = genWork c st.p st.s w fs ids a b g := fun _ _ _ _ _ => rfl
    simp only [ibReturns, h2]
    split
    · split
      · rfl
      · split
        · split
          · rfl
          · exact ih { st with s := _, work := _ }
        · rfl
    · exact ih st

theorem answer_over (r : Except AErr LoopSt) (b : Bool) : (r.map (lo q)).map (·.answer b) = (r.map (·.answer b)).map (ao q) := by
  cases r <;> rfl

theorem gswf_over (c : Ctx) (o : UserOpts) (p : PInfo) (s : Sched) :
    giveSimWorkFirst c o (over q p) s = (giveSimWorkFirst c o p s).map (ao q) := by
  simp only [giveSimWorkFirst]
  split
  · rfl
  · rw [← answer_over]
    congr 1
    split
    · split
      · rfl
      · exact gswfGens_over q c o _ ⟨s, [], waiting c.H, countGens c.W, p⟩
    · split
      · rfl
      · exact gswfSims_over q c _ _ ⟨s, [], waiting c.H, countGens c.W, p⟩

theorem opg_over (c : Ctx) (o : UserOpts) (p : PInfo) (s : Sched) :
    onlyPersistentGens c o (over q p) s = (onlyPersistentGens c o p s).map (ao q) := by
  simp only [onlyPersistentGens]
  split
  · rfl
  · have hn : (over q p).numGensStarted = p.numGensStarted := rfl
    rw [hn]
    split
    · rfl
    · split
      · rfl
      · rename_i ws _
        rw [show (⟨s, [], waiting c.H, countPersisGens c.W, over q p⟩ : LoopSt) = lo q ⟨s, [], waiting c.H, countPersisGens c.W, p⟩ from rfl,
          opgReturns_over]
        generalize opgReturns c o _ ws _ = r
        cases r with
        | error e => rfl
        | ok st =>
          simp only [Except.map]
          split
          · rfl
          · rename_i ws _
            rw [opgSims_over]
            generalize opgSims c o ws st = r
            cases r with
            | error e => rfl
            | ok st =>
              simp only [Except.map]
              have hp : (lo q st).pts = st.pts := rfl
              rw [hp]
              split
              · split
                · rfl
                · rename_i ws _
                  rw [opgGens_over]
                  generalize opgGens c o ws st = r
                  cases r <;> rfl
              · rfl

theorem fd_over (c : Ctx) (o : FdOpts) (p : PInfo) (s : Sched) : fdAlloc c o (over q p) s = (fdAlloc c o p s).map (ao q) := by
  simp only [fdAlloc]
  split
  · rfl
  · split
    · rfl
    · split
      · rfl
      · rename_i ws _
        rw [show (⟨s, [], waiting c.H, countPersisGens c.W, over q p⟩ : LoopSt) = lo q ⟨s, [], waiting c.H, countPersisGens c.W, p⟩ from rfl,
          fdReturns_over]
        generalize fdReturns c o ws _ = r
        cases r with
        | error e => rfl
        | ok st =>
          simp only [Except.map]
          split
          · rfl
          · rename_i ws _
            rw [pickSims_over]
            generalize pickSims c oldest ws st = r
            cases r with
            | error e => rfl
            | ok st =>
              simp only [Except.map]
              split
              · rw [startFirst_over]
                generalize startFirst c true none st = r
                cases r <;> rfl
              · rfl

theorem ib_over (c : Ctx) (o : IbOpts) (like : Field) (p : PInfo) (s : Sched) :
    ibAlloc c o like (over q p) s = (ibAlloc c o like p s).map (ao q) := by
  simp only [ibAlloc]
  split
  · rfl
  · split
    · rfl
    · rename_i ws _
      rw [show (⟨s, [], waiting c.H, countPersisGens c.W, over q p⟩ : LoopSt) = lo q ⟨s, [], waiting c.H, countPersisGens c.W, p⟩ from rfl,
        ibReturns_over]
      generalize ibReturns c o like ws _ = r
      cases r with
      | error e => rfl
      | ok st =>
        simp only [Except.map]
        have hp : (lo q st).pts = st.pts := rfl
        rw [hp]
        split
        · split
          · rw [startFirst_over]
            generalize startFirst c true none st = r
            cases r <;> rfl
          · rfl
        · split
          · rfl
          · rename_i ws _
            rw [pickSims_over]
            generalize pickSims c _ ws st = r
            cases r <;> rfl

theorem call_over {b : Bundled} (hb : b.forgetful = true) (c : Ctx) (p : PInfo) (s : Sched) :
    b.call c (over q p) s = (b.call c p s).map (ao q) := by
  cases b with
  | simFirst o => exact gswf_over q c o p s
  | persGens o => exact opg_over q c o p s
  | fd o => exact fd_over q c o p s
  | invBayes o like => exact ib_over q c o like p s
  | _ => simp [Bundled.forgetful] at hb

/-! ### What these functions leave -/

/-- At most the number of started generators differs. -/
def SameBut (p p' : PInfo) : Prop := p' = { p with numGensStarted := p'.numGensStarted }

theorem SameBut.refl (p : PInfo) : SameBut p p := rfl
theorem SameBut.trans {a b c : PInfo} (h : SameBut a b) (h' : SameBut b c) : SameBut a c := by
  unfold SameBut at *; rw [h', h]

theorem gswfSims_p (c : Ctx) (b : Bool) (ws : List Nat) : ∀ {st st' : LoopSt}, gswfSims c b ws st = .ok st' → st'.p = st.p := by
  induction ws with
  | nil => intro st st' h; cases h; rfl
  | cons w ws ih =>
    intro st st' h
    simp only [gswfSims] at h
    split at h
    · cases h
    · split at h
      · cases h; rfl
      · cases h
      · split at h
        · cases h; rfl
        · exact (have h' := ih h; h')

theorem gswfGens_p (c : Ctx) (o : UserOpts) (ws : List Nat) : ∀ {st st' : LoopSt}, gswfGens c o ws st = .ok st' → st'.p = st.p := by
  induction ws with
  | nil => intro st st' h; cases h; rfl
  | cons w ws ih =>
    intro st st' h
    simp only [gswfGens] at h
    split at h
    · cases h; rfl
    · split at h
      · cases h; rfl
      · split at h
        · cases h; rfl
        · cases h
        · exact (have h' := ih h; h')

theorem opgReturns_p (c : Ctx) (o : UserOpts) (a : Bool) (ws : List Nat) :
    ∀ {st st' : LoopSt}, opgReturns c o a ws st = .ok st' → st'.p = st.p := by
  induction ws with
  | nil => intro st st' h; cases h; rfl
  | cons w ws ih =>
    intro st st' h
    simp only [opgReturns] at h
    split at h
    · split at h
      · cases h
      · exact (have h' := ih h; h')
    · exact (have h' := ih h; h')

theorem opgSims_p (c : Ctx) (o : UserOpts) (ws : List Nat) :
    ∀ {st st' : LoopSt}, opgSims c o ws st = .ok st' → st'.p = st.p := by
  induction ws with
  | nil => intro st st' h; cases h; rfl
  | cons w ws ih =>
    intro st st' h
    simp only [opgSims] at h
    split at h
    · cases h; rfl
    · split at h
      · cases h
      · split at h
        · cases h; rfl
        · cases h
        · exact (have h' := ih h; h')

theorem opgGens_p (c : Ctx) (o : UserOpts) (ws : List Nat) :
    ∀ {st st' : LoopSt}, opgGens c o ws st = .ok st' → SameBut st.p st'.p := by
  induction ws with
  | nil => intro st st' h; cases h; rfl
  | cons w ws ih =>
    intro st st' h
    simp only [opgGens] at h
    split at h
    · split at h
      · cases h; rfl
      · cases h
      · exact SameBut.trans (b := { st.p with numGensStarted := st.p.numGensStarted + 1 }) rfl (have h' := ih h; h')
    · exact (have h' := ih h; h')

theorem call_keeps {b : Bundled} (hb : b.forgetful = true) {c : Ctx} {p : PInfo} {s : Sched} {a : Answer} (h : b.call c p s = .ok a) :
    SameBut p a.pinfo := by
  have hm : ∀ {r : Except AErr LoopSt} {f : Bool}, r.map (·.answer f) = .ok a → ∃ st, r = .ok st ∧ a.pinfo = st.p := by
    intro r f h
    cases r with
    | error e => cases h
    | ok st => cases h; exact ⟨st, rfl, rfl⟩
  cases b with
  | simFirst o =>
    simp only [Bundled.call, giveSimWorkFirst] at h
    split at h
    · cases h; rfl
    · obtain ⟨st, h1, h2⟩ := hm h
      rw [h2]
      split at h1
      · split at h1
        · cases h1
        · rw [gswfGens_p c o _ h1]; rfl
      · split at h1
        · cases h1
        · rw [gswfSims_p c _ _ h1]; rfl
  | persGens o =>
    simp only [Bundled.call, onlyPersistentGens] at h
    split at h
    · cases h; rfl
    · split at h
      · cases h; rfl
      · split at h
        · cases h
        · split at h
          · cases h
          · rename_i st1 h1
            have e1 := opgReturns_p c o _ _ h1
            split at h
            · cases h
            · split at h
              · cases h
              · rename_i st2 h2
                have e2 := opgSims_p c o _ h2
                split at h
                · split at h
                  · cases h
                  · obtain ⟨st3, h3, h4⟩ := hm h
                    rw [h4]
                    have e3 := opgGens_p c o _ h3
                    rw [e2, e1] at e3
                    exact e3
                · cases h
                  show SameBut p st2.p
                  rw [e2, e1]
                  rfl
  | fd o =>
    rcases fd_spec h with ⟨rfl, _⟩ | ⟨rfl, _⟩ | ⟨_, _, _, _, _, _, _, _, _, _, h1, _⟩
    · rfl
    · rfl
    · rw [h1.pinfo]; rfl
  | invBayes o like =>
    rcases ib_spec h with ⟨rfl, _⟩ | ⟨_, _, h1⟩
    · rfl
    · obtain ⟨_, _, _, _, _, _, _, h2, _⟩ := h1
      rw [h2.pinfo]; rfl
  | _ => simp [Bundled.forgetful] at hb

/-! ### Runs -/

variable {sp : Specs}

/-- The state with what another run left. -/
def so (s : St) : St := s.withP (over q s.pinfo)

theorem withP_same (s : St) : s.withP s.pinfo = s := rfl

/-- A function that commutes with every replacement does not change `persis_info`. -/
theorem so_of {α : Type} {f : St → St × α} (h : ∀ q' s, f (s.withP q') = rp q' (f s)) (s : St) :
    f (so q s) = (so q (f s).1, (f s).2) ∧ (f s).1.pinfo = s.pinfo := by
  have h1 : (f s).1.pinfo = s.pinfo := by
    have := h s.pinfo s
    rw [withP_same] at this
    rw [this]
    rfl
  refine ⟨?_, h1⟩
  unfold so
  rw [h, h1]
  rfl

theorem iter_so {b : Bundled} (hb : b.forgetful = true) {env : AllocEnv} {it : Iter} (hu : it.uses b env sp) (s : St) :
    iter sp (so q s) it = (so q (iter sp s it).1, (iter sp s it).2) := by
  obtain ⟨now, ord, _, ha⟩ := hu
  have hk : ∀ q' s, andThen (killCancelled sp (s.withP q')) (fun s => receive sp s it.mail) =
      rp q' (andThen (killCancelled sp s) (fun s => receive sp s it.mail)) := by
    intro q' s
    rw [withP_killCancelled]
    exact withP_andThen q' fun s => withP_receive q' s it.mail
  have hk' := (so_of q (f := fun s => andThen (killCancelled sp s) (fun s => receive sp s it.mail)) hk s).1
  simp only [iter]
  rw [hk']
  generalize andThen (killCancelled sp s) (fun s => receive sp s it.mail) = x
  obtain ⟨s1, e⟩ := x
  cases e with
  | some e => rfl
  | none =>
    simp only []
    rw [ha]
    have h1 : b.reply env sp now ord (so q s1) = match b.reply env sp now ord s1 with
        | .raised cs => .raised cs
        | .ok cs w f p => .ok cs w f (over q p) := by
      simp only [Bundled.reply]
      have h2 : b.call (ctxOf env sp ord (b.marked now (so q s1))) (so q s1).pinfo (schedOf env (so q s1)) =
          (b.call (ctxOf env sp ord (b.marked now s1)) s1.pinfo (schedOf env s1)).map (ao q) := call_over q hb _ _ _
      rw [h2]
      generalize b.call _ _ _ = r
      cases r <;> rfl
    rw [h1]
    generalize b.reply env sp now ord s1 = r
    cases r with
    | raised cs => rfl
    | ok cs work flag p =>
      simp only []
      split
      · rfl
      · simp only [afterAlloc]
        have h3 := (so_of q (fun q' s => withP_handOutAll (sp := sp) q' (work.map fun p => (p.1, p.2, it.t p.1)) s)
          { (doOp s1 (.requestCancel cs)).1 with pinfo := p }).1
        rw [show ({ (doOp (so q s1) (.requestCancel cs)).1 with pinfo := over q p } : St) =
          so q { (doOp s1 (.requestCancel cs)).1 with pinfo := p } from rfl, h3]
        generalize handOutAll sp _ _ = y
        obtain ⟨s2, e⟩ := y
        cases e with
        | some e => rfl
        | none =>
          simp only []
          have h4 : (so q s2).hist = s2.hist := rfl
          have h5 : anyActive (so q s2) = anyActive s2 := rfl
          rw [h4, h5]
          split <;> rfl

theorem mainLoop_so {b : Bundled} (hb : b.forgetful = true) {env : AllocEnv} (its : List Iter) (hu : ∀ it ∈ its, it.uses b env sp) :
    ∀ s : St, mainLoop sp its (so q s) = (so q (mainLoop sp its s).1, (mainLoop sp its s).2) := by
  induction its with
  | nil => exact fun s => rfl
  | cons it its ih =>
    intro s
    simp only [mainLoop]
    have h4 : (so q s).hist = s.hist := rfl
    rw [h4]
    split
    · rfl
    · rw [show emit (so q s) (.test (termTest sp s.hist it.e1)) = so q (emit s (.test (termTest sp s.hist it.e1))) from rfl,
        iter_so q hb (hu it List.mem_cons_self)]
      generalize iter sp (emit s _) it = x
      obtain ⟨s1, f⟩ := x
      cases f with
      | next => exact ih (fun it h => hu it (List.mem_cons_of_mem _ h)) s1
      | flagged => rfl
      | raised e => rfl

theorem iter_keeps {b : Bundled} (hb : b.forgetful = true) {env : AllocEnv} {it : Iter} (hu : it.uses b env sp) (s : St) :
    SameBut s.pinfo (iter sp s it).1.pinfo := by
  obtain ⟨now, ord, _, ha⟩ := hu
  have hk : ∀ q' s, andThen (killCancelled sp (s.withP q')) (fun s => receive sp s it.mail) =
      rp q' (andThen (killCancelled sp s) (fun s => receive sp s it.mail)) := by
    intro q' s
    rw [withP_killCancelled]
    exact withP_andThen q' fun s => withP_receive q' s it.mail
  have h1 := (so_of s.pinfo (f := fun s => andThen (killCancelled sp s) (fun s => receive sp s it.mail)) hk s).2
  simp only [iter]
  revert h1
  generalize andThen (killCancelled sp s) (fun s => receive sp s it.mail) = x
  obtain ⟨s1, e⟩ := x
  intro h1
  simp only [] at h1
  cases e with
  | some e => simp only []; rw [h1]; rfl
  | none =>
    simp only []
    rw [ha]
    simp only [Bundled.reply]
    generalize hr : b.call _ _ _ = r
    cases r with
    | error e => simp only []; rw [show (doOp s1 _).1.pinfo = s1.pinfo from rfl, h1]; rfl
    | ok a =>
      have h2 := call_keeps hb hr
      rw [h1] at h2
      simp only []
      split
      · exact h2
      · simp only [afterAlloc]
        have h3 := (so_of s.pinfo (fun q' s => withP_handOutAll (sp := sp) q' (a.work.map fun p => (p.1, p.2, it.t p.1)) s)
          { (doOp s1 (.requestCancel (b.cancels (trimH s1.hist) now))).1 with pinfo := a.pinfo }).2
        revert h3
        generalize handOutAll sp _ _ = y
        obtain ⟨s2, e⟩ := y
        intro h3
        simp only [] at h3
        rw [← h3] at h2
        cases e with
        | some e => exact h2
        | none =>
          simp only []
          split <;> exact h2

theorem mainLoop_keeps {b : Bundled} (hb : b.forgetful = true) {env : AllocEnv} (its : List Iter) (hu : ∀ it ∈ its, it.uses b env sp) :
    ∀ s : St, SameBut s.pinfo (mainLoop sp its s).1.pinfo := by
  induction its with
  | nil => exact fun s => rfl
  | cons it its ih =>
    intro s
    simp only [mainLoop]
    split
    · rfl
    · have h1 := iter_keeps hb (hu it List.mem_cons_self) (emit s (.test (termTest sp s.hist it.e1)))
      revert h1
      generalize iter sp (emit s _) it = x
      obtain ⟨s1, f⟩ := x
      intro h1
      cases f with
      | next => exact SameBut.trans h1 (ih (fun it h => hu it (List.mem_cons_of_mem _ h)) s1)
      | flagged => exact h1
      | raised e => exact h1

theorem finalPhase_pinfo (s : St) (t : Nat → Int) (rounds : List Round) :
    (finalPhase sp s t rounds).1.pinfo = match (finalPhase sp s t rounds).2 with
      | .done _ => { s.pinfo with numGensStarted := 0 }
      | _ => s.pinfo := by
  have h := withP_finalPhase (sp := sp) s.pinfo s t rounds
  rw [withP_same] at h
  exact (congrArg (fun x => x.1.pinfo) h)

theorem finalPhase_so (s : St) (t : Nat → Int) (rounds : List Round) :
    finalPhase sp (so q s) t rounds = (so q (finalPhase sp s t rounds).1, (finalPhase sp s t rounds).2) := by
  have h := finalPhase_pinfo (sp := sp) s t rounds
  unfold so
  rw [withP_finalPhase, h]
  generalize (finalPhase sp s t rounds).2 = f
  cases f <;> rfl

theorem run_so {b : Bundled} (hb : b.forgetful = true) {env : AllocEnv} (its : List Iter) (hu : ∀ it ∈ its, it.uses b env sp)
    (t : Nat → Int) (rounds : List Round) (s : St) :
    Manager.run sp (so q s) its t rounds = (so q (Manager.run sp s its t rounds).1, (Manager.run sp s its t rounds).2) := by
  simp only [Manager.run]
  rw [mainLoop_so q hb its hu]
  generalize mainLoop sp its s = x
  obtain ⟨s1, e⟩ := x
  have key : ∀ s2 : St, (match finalPhase sp (emit (so q s2) .final) t rounds with
      | (s, .waiting) => (s, Outcome.waiting)
      | (s, .raised x) => (s, .raisedFinal x)
      | (s, .done f) => match e with
        | .raised x => (s, .raised x)
        | _ => (s, .returned f)) =
      (so q (match finalPhase sp (emit s2 .final) t rounds with
      | (s, .waiting) => (s, Outcome.waiting)
      | (s, .raised x) => (s, .raisedFinal x)
      | (s, .done f) => match e with
        | .raised x => (s, .raised x)
        | _ => (s, .returned f)).1,
      (match finalPhase sp (emit s2 .final) t rounds with
      | (s, .waiting) => (s, Outcome.waiting)
      | (s, .raised x) => (s, .raisedFinal x)
      | (s, .done f) => match e with
        | .raised x => (s, .raised x)
        | _ => (s, .returned f)).2) := by
    intro s2
    rw [show emit (so q s2) .final = so q (emit s2 .final) from rfl, finalPhase_so]
    generalize finalPhase sp (emit s2 .final) t rounds = y
    obtain ⟨s3, f⟩ := y
    cases f with
    | waiting => rfl
    | raised x => rfl
    | done f => cases e <;> rfl
  cases e with
  | running => rfl
  | stopped r => exact key s1
  | flagged => exact key s1
  | raised x => exact key s1

/-- What a run leaves. -/
theorem run_keeps {b : Bundled} (hb : b.forgetful = true) {env : AllocEnv} (its : List Iter) (hu : ∀ it ∈ its, it.uses b env sp)
    (t : Nat → Int) (rounds : List Round) (s : St) : SameBut s.pinfo (Manager.run sp s its t rounds).1.pinfo := by
  have h1 := mainLoop_keeps hb its hu s
  simp only [Manager.run]
  revert h1
  generalize mainLoop sp its s = x
  obtain ⟨s1, e⟩ := x
  intro h1
  have h2 := finalPhase_pinfo (sp := sp) (emit s1 .final) t rounds
  revert h2
  generalize hy : finalPhase sp (emit s1 .final) t rounds = y
  obtain ⟨s2, f⟩ := y
  intro h2
  have h3 : SameBut s.pinfo s2.pinfo := by
    refine SameBut.trans h1 ?_
    simp only [] at h2
    rw [h2]
    cases f <;> rfl
  cases e with
  | running => exact h1
  | stopped r => simp only [hy]; cases f <;> exact h3
  | flagged => simp only [hy]; cases f <;> exact h3
  | raised x => simp only [hy]; cases f <;> exact h3

/-- The number of started generators after a finished run, with any allocation function. -/
theorem run_reset (its : List Iter) (t : Nat → Int) (rounds : List Round) (s : St)
    (h : (∃ f, (Manager.run sp s its t rounds).2 = .returned f) ∨ ∃ e, (Manager.run sp s its t rounds).2 = .raised e) :
    (Manager.run sp s its t rounds).1.pinfo.numGensStarted = 0 := by
  revert h
  simp only [Manager.run]
  generalize mainLoop sp its s = x
  obtain ⟨s1, e⟩ := x
  have h2 := finalPhase_pinfo (sp := sp) (emit s1 .final) t rounds
  revert h2
  generalize hy : finalPhase sp (emit s1 .final) t rounds = y
  obtain ⟨s2, f⟩ := y
  intro h2 h
  simp only [] at h2
  cases e <;> simp only [hy] at h ⊢ <;> cases f <;> first | (simp at h; done) | (simp only []; rw [h2])

end Verif.Manager
