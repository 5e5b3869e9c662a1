import Verif.Sched.Spec
/-!
# Primitive operations of the scheduler: what they change and what they leave alone
-/

namespace Verif.Sched
variable {B : Type}

theorem upd_same {A : Type} (f : Nat → A) (k : Nat) (v : A) : upd f k v k = v := by simp [upd]
theorem upd_ne {A : Type} (f : Nat → A) {k x : Nat} (v : A) (h : x ≠ k) : upd f k v x = f x := by simp [upd, h]

/-! ## Log readings -/

theorem lastPoll_snoc (t : Nat) (l : List (Ev B)) (e : Ev B) :
    lastPoll t (l ++ [e]) = match e with
      | .poll t' _ st clk => if t' = t then some (st, clk) else lastPoll t l
      | _ => lastPoll t l := by
  cases e <;> simp [lastPoll, List.foldl_append]

theorem since_snoc (t : Nat) (l : List (Ev B)) (e : Ev B) :
    since t (l ++ [e]) = match e with
      | .poll t' _ _ _ => if t' = t then [] else since t l
      | .sent _ _ _ => since t l
      | .accepted c t' p => if t' = t then since t l ++ [.accepted c t' p] else since t l
      | .got c t' v => if t' = t then since t l ++ [.got c t' v] else since t l
      | .missing t' u => if t' = t then since t l ++ [.missing t' u] else since t l := by
  cases e <;> simp [since, List.foldl_append]

theorem sentOn_append (c : Nat) (l m : List (Ev B)) : sentOn c (l ++ m) = sentOn c l ++ sentOn c m := by
  simp [sentOn]
theorem acceptedOn_append (c : Nat) (l m : List (Ev B)) :
    acceptedOn c (l ++ m) = acceptedOn c l ++ acceptedOn c m := by simp [acceptedOn]
theorem gotOn_append (c : Nat) (l m : List (Ev B)) : gotOn c (l ++ m) = gotOn c l ++ gotOn c m := by
  simp [gotOn]
theorem pollsOf_append (t : Nat) (l m : List (Ev B)) : pollsOf t (l ++ m) = pollsOf t l ++ pollsOf t m := by
  simp [pollsOf]

/-! ## What later states keep -/

/-- Facts that never become false. -/
structure Mono (s s' : State B) : Prop where
  clock : s'.clock = s.clock
  cfg : s'.cfg = s.cfg
  results : ∀ u r, s.results u = some r → s'.results u = some r
  chans : ∀ c ch, s.chans c = some ch →
    ∃ ch', s'.chans c = some ch' ∧ ch'.cap = ch.cap ∧ (ch.closed = true → ch'.closed = true)
  tasks : ∀ t sl, s.tasks t = some sl → ∃ sl', s'.tasks t = some sl'

theorem Mono.refl (s : State B) : Mono s s :=
  ⟨rfl, rfl, fun _ _ h => h, fun _ ch h => ⟨ch, h, rfl, id⟩, fun _ sl h => ⟨sl, h⟩⟩

theorem Mono.trans {a b c : State B} (h : Mono a b) (g : Mono b c) : Mono a c := by
  refine ⟨g.clock.trans h.clock, g.cfg.trans h.cfg, fun u r e => g.results _ _ (h.results _ _ e), ?_, ?_⟩
  · intro k ch e
    obtain ⟨ch1, e1, c1, d1⟩ := h.chans _ _ e
    obtain ⟨ch2, e2, c2, d2⟩ := g.chans _ _ e1
    exact ⟨ch2, e2, c2.trans c1, fun z => d2 (d1 z)⟩
  · intro t sl e
    obtain ⟨_, e1⟩ := h.tasks _ _ e
    exact g.tasks _ _ e1

theorem closedIn.mono {s s' : State B} (m : Mono s s') {c : Nat} (h : closedIn s c) : closedIn s' c := by
  obtain ⟨ch, e, hc⟩ := h
  obtain ⟨ch', e', _, d⟩ := m.chans _ _ e
  exact ⟨ch', e', d hc⟩

theorem Answer.mono {s s' : State B} (m : Mono s s') {t clk : Nat} {evs : List (Ev B)} {ctx : Ctx}
    {st : Step B} (h : Answer s t clk evs ctx st) : Answer s' t clk evs ctx st := by
  cases st with
  | close c => exact ⟨h.1, h.2.1, h.2.2.mono m⟩
  | recv c =>
    rcases h with h | ⟨h1, h2, h3⟩
    · exact Or.inl h
    · exact Or.inr ⟨h1, h2, h3.mono m⟩
  | select arms =>
    obtain ⟨i, h⟩ := h
    refine ⟨i, ?_⟩
    rcases h with ⟨c, hc, h⟩ | ⟨d, hd, h1, h2, h3⟩
    · refine Or.inl ⟨c, hc, ?_⟩
      rcases h with h | ⟨h1, h2, h3⟩
      · exact Or.inl h
      · exact Or.inr ⟨h1, h2, h3.mono m⟩
    · exact Or.inr ⟨d, hd, h1, h2, m.clock.trans h3⟩
  | sleep d => exact ⟨h.1, h.2.1, m.clock.trans h.2.2⟩
  | newChan cap =>
    obtain ⟨id, ch, h1, h2, h3, h4⟩ := h
    obtain ⟨ch', e', c', _⟩ := m.chans _ _ h3
    exact ⟨id, ch', h1, h2, e', by rw [c', h4, m.cfg]⟩
  | spawn b =>
    obtain ⟨id, sl, h1, h2, h3⟩ := h
    obtain ⟨sl', e⟩ := m.tasks _ _ h3
    exact ⟨id, sl', h1, h2, e⟩
  | await u =>
    rcases h with ⟨r, h1, h2, h3⟩ | h
    · exact Or.inl ⟨r, h1, m.results _ _ h2, h3⟩
    · exact Or.inr h
  | _ => exact h

/-! ## The state of one task -/

/-- Arms a blocked step leaves in the slot. -/
def armsFor : Step B → Option (List Arm)
  | .select arms => some arms
  | _ => none

/-- No channel is named twice. -/
def ArmsOk : Step B → Prop
  | .select arms => ∀ c, arms.count (.recv c) ≤ 1
  | _ => True

/-- A task may be resumed with `ctx`. -/
def Resumable (s : State B) (t : Nat) (ctx : Ctx) : Prop :=
  match lastPoll t s.log with
  | none => since t s.log = [] ∧ ctx = {}
  | some (st, clk) => Answer s t clk (since t s.log) ctx st

/-- The consistency of one task with everything that mentions it. -/
inductive Status (s : State B) (t : Nat) : Prop
  | absent (ht : s.tasks t = none) (hr : regOf s t = {}) (hl : lastPoll t s.log = none)
      (he : since t s.log = []) (hres : s.results t = none) : Status s t
  | ready (sl : Slot B) (ht : s.tasks t = some sl) (hs : sl.state = .ready)
      (hr : regOf s t = { ready := 1 }) (ha : sl.selectArms = none) (hres : s.results t = none)
      (hx : Resumable s t sl.ctx) : Status s t
  | done (sl : Slot B) (ht : s.tasks t = some sl) (hs : sl.state = .done) (hr : regOf s t = {})
      (hres : (s.results t).isSome) : Status s t
  | blocked (sl : Slot B) (st : Step B) (clk : Nat) (ht : s.tasks t = some sl)
      (hl : lastPoll t s.log = some (st, clk)) (hs : waitState st = some sl.state)
      (hr : regOf s t = waitReg clk st) (he : since t s.log = []) (hc : sl.ctx = {})
      (hres : s.results t = none) (ha : sl.selectArms = armsFor st) (hk : ArmsOk st) : Status s t

/-- Nothing about task `t` changed. -/
structure Same (s s' : State B) (t : Nat) : Prop where
  task : s'.tasks t = s.tasks t
  reg : regOf s' t = regOf s t
  poll : lastPoll t s'.log = lastPoll t s.log
  since : since t s'.log = since t s.log
  res : s'.results t = s.results t

theorem Same.refl (s : State B) (t : Nat) : Same s s t := ⟨rfl, rfl, rfl, rfl, rfl⟩

theorem Same.trans {a b c : State B} {t : Nat} (h : Same a b t) (g : Same b c t) : Same a c t :=
  ⟨g.task.trans h.task, g.reg.trans h.reg, g.poll.trans h.poll, g.since.trans h.since, g.res.trans h.res⟩

theorem Resumable.frame {s s' : State B} {t : Nat} {ctx : Ctx} (m : Mono s s') (k : Same s s' t)
    (h : Resumable s t ctx) : Resumable s' t ctx := by
  unfold Resumable at *
  rw [k.poll, k.since]
  cases hl : lastPoll t s.log with
  | none => rw [hl] at h; exact h
  | some q => obtain ⟨st, clk⟩ := q; rw [hl] at h; exact h.mono m

theorem Status.frame {s s' : State B} {t : Nat} (m : Mono s s') (k : Same s s' t) (h : Status s t) :
    Status s' t := by
  cases h with
  | absent ht hr hl he hres =>
    exact .absent (k.task.trans ht) (k.reg.trans hr) (k.poll.trans hl) (k.since.trans he) (k.res.trans hres)
  | ready sl ht hs hr ha hres hx =>
    exact .ready sl (k.task.trans ht) hs (k.reg.trans hr) ha (k.res.trans hres) (hx.frame m k)
  | done sl ht hs hr hres =>
    exact .done sl (k.task.trans ht) hs (k.reg.trans hr) (by rw [k.res]; exact hres)
  | blocked sl st clk ht hl hs hr he hc hres ha hk =>
    exact .blocked sl st clk (k.task.trans ht) (k.poll.trans hl) hs (k.reg.trans hr) (k.since.trans he) hc
      (k.res.trans hres) ha hk

/-- A task that is not ready keeps its status even when the clock moves. -/
theorem Status.frameIdle {s s' : State B} {t : Nat} (k : Same s s' t) (hn : (regOf s t).ready = 0) (h : Status s t) :
    Status s' t := by
  cases h with
  | absent ht hr hl he hres =>
    exact .absent (k.task.trans ht) (k.reg.trans hr) (k.poll.trans hl) (k.since.trans he) (k.res.trans hres)
  | ready sl ht hs hr => rw [hr] at hn; cases hn
  | done sl ht hs hr hres =>
    exact .done sl (k.task.trans ht) hs (k.reg.trans hr) (by rw [k.res]; exact hres)
  | blocked sl st clk ht hl hs hr he hc hres ha hk =>
    exact .blocked sl st clk (k.task.trans ht) (k.poll.trans hl) hs (k.reg.trans hr) (k.since.trans he) hc
      (k.res.trans hres) ha hk

/-- A task being run: it is in nobody's books. `evs` happened to it since its poll, `ctx` is what its slot
holds for it. -/
structure Run (s : State B) (x : Nat) (st : Step B) (clk : Nat) (evs : List (Ev B)) (ctx : Ctx) : Prop where
  slot : ∃ sl, s.tasks x = some sl ∧ sl.state = .ready ∧ sl.selectArms = none ∧ sl.ctx = ctx
  reg : regOf s x = {}
  poll : lastPoll x s.log = some (st, clk)
  since : since x s.log = evs
  res : s.results x = none

theorem Run.frame {s s' : State B} {x : Nat} {st : Step B} {clk : Nat} {evs : List (Ev B)} {ctx : Ctx}
    (k : Same s s' x) (h : Run s x st clk evs ctx) : Run s' x st clk evs ctx := by
  refine ⟨?_, k.reg.trans h.reg, k.poll.trans h.poll, k.since.trans h.since, k.res.trans h.res⟩
  rw [k.task]; exact h.slot

/-! ## Primitives -/

theorem modTask_some {s : State B} {t : Nat} {sl : Slot B} (h : s.tasks t = some sl) (f : Slot B → Slot B) :
    s.modTask t f = { s with tasks := upd s.tasks t (some (f sl)) } := by simp [State.modTask, h]

theorem modChan_some {s : State B} {c : Nat} {ch : Chan} (h : s.chans c = some ch) (f : Chan → Chan) :
    s.modChan c f = { s with chans := upd s.chans c (some (f ch)) } := by simp [State.modChan, h]

theorem chan_some {s : State B} {c : Nat} {ch : Chan} (h : s.chans c = some ch) : s.chan c = ch := by
  simp [State.chan, h]

theorem markReady_some {s : State B} {t : Nat} {sl : Slot B} (h : s.tasks t = some sl) (v : Payload) :
    s.markReady t v = { s with
      ready := s.ready ++ [t]
      tasks := upd s.tasks t (some { sl with resume := v, state := .ready }) } := by
  simp [State.markReady, State.modTask, h]

theorem win_some {s : State B} {t : Nat} {sl : Slot B} (h : s.tasks t = some sl) (i : Nat) (v : Payload) :
    s.win t i v = { s with
      ready := s.ready ++ [t]
      tasks := upd s.tasks t (some { sl with resume := v, selectedArm := some i, state := .ready }) } := by
  simp [State.win, State.modTask, h]

theorem markReady_mono {s : State B} {t : Nat} {sl : Slot B} (h : s.tasks t = some sl) (v : Payload) :
    Mono s (s.markReady t v) := by
  rw [markReady_some h]
  refine ⟨rfl, rfl, fun _ _ h => h, fun _ ch h => ⟨ch, h, rfl, id⟩, ?_⟩
  intro u sl' e
  by_cases hu : u = t
  · exact ⟨_, by rw [hu]; exact upd_same _ _ _⟩
  · exact ⟨sl', by rw [← e]; exact upd_ne _ _ hu⟩

theorem markReady_same {s : State B} {r : Nat} {sl : Slot B} (h : s.tasks r = some sl) (v : Payload) {t : Nat}
    (ht : t ≠ r) : Same s (s.markReady r v) t := by
  rw [markReady_some h]
  refine ⟨upd_ne _ _ ht, ?_, rfl, rfl, rfl⟩
  simp only [regOf, State.chan, Reg.mk.injEq, and_true]
  simp [List.count_append, List.count_singleton, ht.symm]

theorem markReady_reg {s : State B} {r : Nat} {sl : Slot B} (h : s.tasks r = some sl) (v : Payload)
    (hr : regOf s r = {}) : regOf (s.markReady r v) r = { ready := 1 } := by
  rw [markReady_some h]
  have e := hr
  simp only [regOf, State.chan, Reg.mk.injEq] at e ⊢
  simp only [List.count_append, e.1, e.2.1, e.2.2.1, e.2.2.2.1, e.2.2.2.2]
  simp

/-- Waking a task whose registrations are gone. -/
theorem markReady_status {s : State B} {r : Nat} {sl : Slot B} (h : s.tasks r = some sl) (v : Payload)
    (hr : regOf s r = {}) (ha : sl.selectArms = none) (hres : s.results r = none) {st : Step B} {clk : Nat}
    (hl : lastPoll r s.log = some (st, clk))
    (hx : Answer s r clk (since r s.log) { sl.ctx with resumed := v } st) :
    Status (s.markReady r v) r := by
  have e := markReady_some h v
  refine .ready { sl with resume := v, state := .ready } (by rw [e]; exact upd_same _ _ _) rfl
    (markReady_reg h v hr) ha (by rw [e]; exact hres) ?_
  have h1 : lastPoll r (s.markReady r v).log = some (st, clk) := by rw [e]; exact hl
  have h2 : since r (s.markReady r v).log = since r s.log := by rw [e]
  simp only [Resumable, h1, h2]
  exact hx.mono (markReady_mono h v)

/-- The running task finishes its step by being readied. -/
theorem finish {s : State B} {x : Nat} {st : Step B} {clk : Nat} {evs : List (Ev B)} {ctx : Ctx} {v : Payload}
    (hs : ∀ t, t ≠ x → Status s t) (hx : Run s x st clk evs ctx)
    (ha : Answer s x clk evs { ctx with resumed := v } st) : ∀ t, Status (s.markReady x v) t := by
  obtain ⟨sl, h1, h2, h3, h4⟩ := hx.slot
  intro t
  by_cases ht : t = x
  · rw [ht]
    exact markReady_status h1 v hx.reg h3 hx.res hx.poll (by rw [hx.since, h4]; exact ha)
  · exact (hs t ht).frame (markReady_mono h1 v) (markReady_same h1 v ht)

end Verif.Sched
