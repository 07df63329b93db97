import Verif.LocalOpt.Model

/-! The invariant of the two processes. -/

namespace Verif.LocalOpt

variable {X F : Type}

/-! ### The specification -/

/-- `vs` is a conversation with the optimizer: each value is for the point it asked for after the
values before it. -/
inductive Talk (σ : Sys X F) : List (X × F) → Prop where
  | nil : Talk σ []
  | snoc {vs x v} (h : Talk σ vs) (ho : σ.opt vs = .ask x) (hs : σ.same x v.1 = true) :
      Talk σ (vs ++ [v])

/-- `m` is what the optimizer has to say after the values `vs`: what it does next, or an error if
the last value is not for the point it asked for. -/
inductive Says (σ : Sys X F) : List (X × F) → Msg X F → Prop where
  | ok {vs} (h : Talk σ vs) : Says σ vs (σ.opt vs).msg
  | wrong {vs x v} (h : Talk σ vs) (ho : σ.opt vs = .ask x) (hs : σ.same x v.1 = false) :
      Says σ (vs ++ [v]) .err

/-! ### Where the one message is -/

def Empty (s : St X F) : Prop := s.pbuf = [] ∧ s.pipe = [] ∧ s.cbuf = []
def AtP (s : St X F) (m : Msg X F) : Prop :=
  s.cbuf = [] ∧ ((s.pbuf = [m] ∧ s.pipe = []) ∨ (s.pbuf = [] ∧ s.pipe = [m]))
def AtC (s : St X F) (m : Msg X F) : Prop :=
  s.pbuf = [] ∧ ((s.cbuf = [m] ∧ s.pipe = []) ∨ (s.cbuf = [] ∧ s.pipe = [m]))

/-- The parent waits for an answer. -/
def Waits (s : St X F) : Prop := s.ppc = .wait ∨ (s.ppc = .initWait ∧ s.sent = [])

/-- The child has put and announced `m`. -/
def Done (s : St X F) (m : Msg X F) : Prop :=
  s.cpc = after m ∨ (s.cpc = .dead ∧ ∀ x, m ≠ .pt x)

/-- The phases of the exchange. -/
inductive Ok (σ : Sys X F) (s : St X F) : Prop where
  /-- the parent's value is on its way -/
  | value {x v} (hp : s.ppc = .wait) (hc : s.cpc = .wait x ∨ s.cpc = .get x)
      (hq : AtP s (.val v.1 v.2)) (hpc : s.pcr = false) (hcc : s.ccr = true)
      (hs : s.sent = s.got ++ [v]) (ho : σ.opt s.got = .ask x) (ht : Talk σ s.got)
      (hn : s.ans.length = s.sent.length)
  | gotten {x v} (hp : s.ppc = .wait) (hc : s.cpc = .clear x v)
      (hq : Empty s) (hpc : s.pcr = false)
      (hs : s.sent = s.got ++ [v]) (ho : σ.opt s.got = .ask x) (ht : Talk σ s.got)
      (hn : s.ans.length = s.sent.length)
  | checking {x v} (hp : s.ppc = .wait) (hc : s.cpc = .check x v)
      (hq : Empty s) (hpc : s.pcr = false) (hcc : s.ccr = false)
      (hs : s.sent = s.got ++ [v]) (ho : σ.opt s.got = .ask x) (ht : Talk σ s.got)
      (hn : s.ans.length = s.sent.length)
  | running (hp : Waits s) (hc : s.cpc = .run)
      (hq : Empty s) (hpc : s.pcr = false) (hcc : s.ccr = false)
      (hs : s.sent = s.got) (ht : Talk σ s.got)
      (hn : s.ans.length = s.sent.length)
  | answering {m} (hp : Waits s) (hc : s.cpc = .out m)
      (hq : Empty s) (hpc : s.pcr = false) (hcc : s.ccr = false)
      (hs : m ≠ .err → s.sent = s.got) (hg : ∃ l, s.sent = s.got ++ l ∧ l.length ≤ 1) (ht : Talk σ s.got)
      (hm : Says σ s.sent m) (hn : s.ans.length = s.sent.length)
  | telling {m} (hp : Waits s) (hc : s.cpc = .tell m)
      (hq : AtC s m) (hpc : s.pcr = false) (hcc : s.ccr = false)
      (hs : m ≠ .err → s.sent = s.got) (hg : ∃ l, s.sent = s.got ++ l ∧ l.length ≤ 1) (ht : Talk σ s.got)
      (hm : Says σ s.sent m) (hn : s.ans.length = s.sent.length)
  | told {m} (hp : Waits s ∨ s.ppc = .get ∨ (s.ppc = .initGet ∧ s.sent = [])) (hc : Done s m)
      (hq : AtC s m) (hpc : s.pcr = true) (hcc : s.ccr = false)
      (hs : m ≠ .err → s.sent = s.got) (hg : ∃ l, s.sent = s.got ++ l ∧ l.length ≤ 1) (ht : Talk σ s.got)
      (hm : Says σ s.sent m) (hn : s.ans.length = s.sent.length)
  /-- between calls -/
  | idle {x} (hp : s.ppc = .idle) (hc : s.cpc = .wait x)
      (hq : Empty s) (hcc : s.ccr = false)
      (hs : s.sent = s.got) (ho : σ.opt s.got = .ask x) (ht : Talk σ s.got)
      (hn : s.ans.length = s.sent.length + 1)
  | called {x v} (hp : s.ppc = .clear v ∨ (s.ppc = .put v ∧ s.pcr = false)) (hc : s.cpc = .wait x)
      (hq : Empty s) (hcc : s.ccr = false)
      (hs : s.sent = s.got ++ [v]) (ho : σ.opt s.got = .ask x) (ht : Talk σ s.got)
      (hn : s.ans.length = s.sent.length)
  | sending {x v} (hp : s.ppc = .set) (hc : s.cpc = .wait x)
      (hq : AtP s (.val v.1 v.2)) (hpc : s.pcr = false) (hcc : s.ccr = false)
      (hs : s.sent = s.got ++ [v]) (ho : σ.opt s.got = .ask x) (ht : Talk σ s.got)
      (hn : s.ans.length = s.sent.length)
  /-- after the last message -/
  | joining {x b} (hp : s.ppc = .join) (hc : s.cpc = .exiting ∨ s.cpc = .dead)
      (hq : Empty s) (hs : s.sent = s.got) (ho : σ.opt s.got = .stop x b) (ht : Talk σ s.got)
      (hn : s.ans.length = s.sent.length + 1)
  | closed (hp : s.ppc = .closed) (hc : s.cpc = .dead)
      (hq : Empty s) (hg : ∃ l, s.sent = s.got ++ l ∧ l.length ≤ 1) (ht : Talk σ s.got)
      (hn : s.ans.length = s.sent.length + 1)
  | failed (hp : s.ppc = .failed)
      (hc : s.cpc = .exiting ∨ s.cpc = .dead ∨ ∃ x, s.cpc = .wait x ∧ s.sent = [] ∧ σ.opt [] = .ask x ∧
        σ.same0 x σ.x0 = false)
      (hq : Empty s) (hcc : s.ccr = false)
      (hg : ∃ l, s.sent = s.got ++ l ∧ l.length ≤ 1) (ht : Talk σ s.got)
      (hn : s.ans.length = s.sent.length + 1)
      (hl : s.ans[s.sent.length]? = some .err ∨
        (s.sent = [] ∧ ∀ x, σ.opt [] = .ask x → σ.same0 x σ.x0 = false))

/-- The answers so far are what the optimizer had to say. -/
def Answers (σ : Sys X F) (s : St X F) : Prop :=
  ∀ (k : Nat) (m : Msg X F), s.ans[k]? = some m → Says σ (s.sent.take k) m

theorem Says.not_val {σ : Sys X F} {vs : List (X × F)} {m : Msg X F} (h : Says σ vs m) (x : X)
    (f : F) : m ≠ .val x f := by
  cases h with
  | ok h => cases σ.opt vs <;> simp [Req.msg]
  | wrong => nofun

theorem Talk.unsnoc {σ : Sys X F} {vs : List (X × F)} {v : X × F} (h : Talk σ (vs ++ [v])) :
    ∃ x, Talk σ vs ∧ σ.opt vs = .ask x ∧ σ.same x v.1 = true := by
  generalize hw : vs ++ [v] = w at h
  cases h with
  | nil => simp at hw
  | snoc h ho hs =>
    rename_i vs' x v'
    obtain ⟨rfl, rfl⟩ : vs = vs' ∧ v = v' := by simpa using List.append_inj' hw rfl
    exact ⟨x, h, ho, hs⟩

theorem Says.of_talk {σ : Sys X F} {vs : List (X × F)} {m : Msg X F} (h : Says σ vs m)
    (ht : Talk σ vs) : m = (σ.opt vs).msg := by
  cases h with
  | ok => rfl
  | wrong h ho hs =>
    obtain ⟨x', _, ho', hs'⟩ := ht.unsnoc
    rw [ho] at ho'; cases ho'; rw [hs] at hs'; cases hs'

theorem Answers.push {σ : Sys X F} {s : St X F} (h : Answers σ s) {m : Msg X F}
    (hn : s.ans.length = s.sent.length) (hm : Says σ s.sent m) (s' : St X F)
    (ha : s'.ans = s.ans ++ [m]) (hs : s'.sent = s.sent) : Answers σ s' := by
  intro k m' hk
  rw [ha] at hk; rw [hs]
  rcases Nat.lt_trichotomy k s.ans.length with hlt | heq | hgt
  · rw [List.getElem?_append_left hlt] at hk; exact h k m' hk
  · subst heq
    rw [List.getElem?_append_right (Nat.le_refl _)] at hk
    simp at hk; subst hk
    rw [hn, List.take_length]; exact hm
  · rw [List.getElem?_eq_none (by simp; omega)] at hk; cases hk

theorem Answers.call {σ : Sys X F} {s : St X F} (h : Answers σ s) {v : X × F}
    (hn : s.ans.length = s.sent.length + 1) (s' : St X F)
    (ha : s'.ans = s.ans) (hs : s'.sent = s.sent ++ [v]) : Answers σ s' := by
  intro k m hk
  rw [ha] at hk; rw [hs]
  have : k < s.ans.length := by
    rcases Nat.lt_or_ge k s.ans.length with h | h
    · exact h
    · rw [List.getElem?_eq_none h] at hk; cases hk
  rw [List.take_append_of_le_length (by omega)]
  exact h k m hk

end Verif.LocalOpt
