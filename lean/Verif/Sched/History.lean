import Verif.Sched.Ext
/-!
# Facts about whole runs
-/

namespace Verif.Sched
variable {B : Type} {poll : B → Ctx → Step B × B} {prioOf : B → Nat}

theorem Reach.leads {s s' : State B} (h : Reach poll prioOf s) (l : Leads poll prioOf s s') : Reach poll prioOf s' := by
  induction l with
  | refl => exact h
  | chan cap _ ih => exact .chan cap ih
  | task b m _ ih => exact .task b m ih
  | step _ h1 h2 ih => exact .step ih h1 h2
  | wake _ ih => exact .wake ih

theorem Leads.trans {a b c : State B} (h : Leads poll prioOf a b) (l : Leads poll prioOf b c) : Leads poll prioOf a c := by
  induction l with
  | refl => exact h
  | chan cap _ ih => exact .chan cap ih
  | task b m _ ih => exact .task b m ih
  | step _ h1 h2 ih => exact .step ih h1 h2
  | wake _ ih => exact .wake ih

/-- A state in which task `t` has just been polled. -/
def polled (poll : B → Ctx → Step B × B) (s : State B) (ch : Chooser) (i t : Nat) (sl : Slot B) : State B :=
  { s with
    chooser := ch
    ready := s.ready.eraseIdx i
    tasks := upd s.tasks t (some { sl with
        body := (poll sl.body sl.ctx).2, resume := .nothing, selectedArm := none, resumeChan := none,
        resumeTask := none })
    log := s.log ++ [.poll t sl.ctx (poll sl.body sl.ctx).1 s.clock] }

/-- The three things a scheduler step can be. -/
inductive Kinds (poll : B → Ctx → Step B × B) (prioOf : B → Nat) (s : State B) : State B → Prop
  | idle : s.ready = [] → s.timers = [] → Kinds poll prioOf s s
  | advance {s' : State B} (m : Nat) : s.ready = [] → State.earliest s.timers = some m → s.clock ≤ m → s'.clock = m →
      (∀ e ∈ s.timers, e.fireAt = m → s'.stateOf e.tid = some .ready) →
      Ext ({ s with clock := m, timers := s.timers.filter (·.fireAt ≠ m) } : State B) s' → Kinds poll prioOf s s'
  | poll (i t : Nat) (ch : Chooser) (sl : Slot B) : s.ready[i]? = some t → s.tasks t = some sl →
      nextStep poll s = some (t, (poll sl.body sl.ctx).1) → Resumable s t sl.ctx → s.results t = none →
      sl.state = .ready →
      Pre (polled poll s ch i t sl) t (poll sl.body sl.ctx).1 →
      StepOk (polled poll s ch i t sl) t (poll sl.body sl.ctx).1 →
      Kinds poll prioOf s ((polled poll s ch i t sl).process prioOf t (poll sl.body sl.ctx).1)

theorem earliest_some {l : List Timer} (h : l ≠ []) : ∃ m, State.earliest l = some m := by
  cases l with
  | nil => exact absurd rfl h
  | cons e es =>
    simp only [State.earliest]
    split <;> exact ⟨_, rfl⟩

theorem ext_fireOrder (s : State B) (due : List Timer) : Ext s (s.fireOrder due).2 := by
  unfold State.fireOrder
  split
  · exact ext_drawOrder _ _ _
  · exact Ext.refl s

theorem kinds {s : State B} (h : Inv s) (hok : ∀ t st, nextStep poll s = some (t, st) → StepOk s t st)
    (hno : (s.pollOnce poll prioOf).2.crashed = false) : Kinds poll prioOf s (s.pollOnce poll prioOf).2 := by
  cases hr : s.ready with
  | nil =>
    by_cases ht : s.timers = []
    · simp only [State.pollOnce, hr, ht, if_true]; exact .idle hr ht
    · simp only [State.pollOnce, hr, ht, if_false] at hno ⊢
      obtain ⟨m, hm⟩ := earliest_some ht
      obtain ⟨a1, a2, a3, _, a5⟩ := advance_core h hr hm (advance_crash hm hno)
      refine .advance m hr hm a2 a3 a5 ?_
      simp only [State.advanceTimers, hm]
      exact (ext_fireOrder _ _).trans (ext_fireAll _ _)
  | cons t0 ts =>
    obtain ⟨i, ch, t, sl, h1, h2, _, _, h5, h6⟩ := pollOnce_poll poll prioOf h hr hno
    rw [h6]
    obtain ⟨hx, hres, hst, hpre⟩ := poll_pre (ch := ch) poll h h1 h2
    exact .poll i t ch sl h1 h2 h5 hx hres hst hpre ((hok _ _ h5).congr rfl rfl)

/-! ## What holds between a state and a later one -/

/-- Facts relating a state to a later one. -/
structure Fwd (s s' : State B) : Prop where
  clock : s.clock ≤ s'.clock
  results : ∀ u r, s.results u = some r → s'.results u = some r
  log : ∃ evs, s'.log = s.log ++ evs ∧ ∀ t, (s.results t).isSome → pollsOf t evs = []
  tasks : ∀ t sl, s.tasks t = some sl → ∃ sl', s'.tasks t = some sl' ∧ sl'.isMain = sl.isMain ∧ sl'.priority = sl.priority
  chans : ∀ c ch, s.chans c = some ch →
    ∃ ch', s'.chans c = some ch' ∧ ch'.cap = ch.cap ∧ (ch.closed = true → ch'.closed = true)

theorem Fwd.refl (s : State B) : Fwd s s :=
  ⟨Nat.le_refl _, fun _ _ h => h, ⟨[], by simp, fun _ _ => rfl⟩, fun _ sl h => ⟨sl, h, rfl, rfl⟩,
    fun _ ch h => ⟨ch, h, rfl, id⟩⟩

theorem Fwd.trans {a b c : State B} (h : Fwd a b) (g : Fwd b c) : Fwd a c := by
  refine ⟨Nat.le_trans h.clock g.clock, fun u r e => g.results _ _ (h.results _ _ e), ?_, ?_, ?_⟩
  · obtain ⟨e1, l1, p1⟩ := h.log
    obtain ⟨e2, l2, p2⟩ := g.log
    refine ⟨e1 ++ e2, by rw [l2, l1, List.append_assoc], ?_⟩
    intro t ht
    rw [pollsOf_append, p1 t ht]
    obtain ⟨r, hr⟩ := Option.isSome_iff_exists.mp ht
    rw [p2 t (by rw [h.results _ _ hr]; rfl), List.append_nil]
  · intro t sl hsl
    obtain ⟨sl1, a1, a2, a3⟩ := h.tasks t sl hsl
    obtain ⟨sl2, b1, b2, b3⟩ := g.tasks t sl1 a1
    exact ⟨sl2, b1, b2.trans a2, b3.trans a3⟩
  · intro k ch e
    obtain ⟨ch1, e1, c1, d1⟩ := h.chans _ _ e
    obtain ⟨ch2, e2, c2, d2⟩ := g.chans _ _ e1
    exact ⟨ch2, e2, c2.trans c1, fun z => d2 (d1 z)⟩

theorem pollsOf_quiet {t : Nat} {evs : List (Ev B)} (h : ∀ e ∈ evs, isPoll e = false) : pollsOf t evs = [] := by
  simp only [pollsOf, List.filterMap_eq_nil_iff]
  intro e he
  have := h e he
  cases e <;> simp_all [isPoll]

theorem pollTimes_quiet {evs : List (Ev B)} (h : ∀ e ∈ evs, isPoll e = false) : pollTimes evs = [] := by
  simp only [pollTimes, List.filterMap_eq_nil_iff]
  intro e he
  have := h e he
  cases e <;> simp_all [isPoll]

theorem Ext.fwd {s s' : State B} (h : Ext s s') : Fwd s s' := by
  obtain ⟨evs, l1, l2⟩ := h.log
  exact ⟨Nat.le_of_eq h.mono.clock.symm, h.mono.results, ⟨evs, l1, fun t _ => pollsOf_quiet l2⟩, h.slots, h.mono.chans⟩

/-- What processing a step logs, and what happens to the roles of tasks. -/
theorem process_fwd {s : State B} {t : Nat} {st : Step B} (h : Pre s t st) : Fwd s (s.process prioOf t st) ∧
    (s.process prioOf t st).clock = s.clock ∧
    ∃ evs, (s.process prioOf t st).log = s.log ++ evs ∧ ∀ e ∈ evs, isPoll e = false := by
  by_cases hne : ∀ v, st ≠ .exit v
  · have e := ext_process prioOf t st h.core hne
    exact ⟨e.fwd, e.mono.clock, e.log⟩
  · have : ∃ v, st = .exit v := Classical.byContradiction fun hn => hne fun v hv => hn ⟨v, hv⟩
    obtain ⟨v, rfl⟩ := this
    obtain ⟨sl, ht, _⟩ := h.run.slot
    obtain ⟨a1, a2, a3, a4, a5, a6⟩ := exit_facts (v := v) prioOf ht h.run.res
    refine ⟨⟨Nat.le_of_eq a1.clock.symm, a1.results, ⟨[], by rw [a2]; simp, fun _ _ => rfl⟩, a5, a1.chans⟩, a1.clock,
      [], by rw [a2]; simp, by simp⟩

theorem polled_fwd {s : State B} {ch : Chooser} {i t : Nat} {sl : Slot B} (ht : s.tasks t = some sl)
    (hres : s.results t = none) : Fwd s (polled poll s ch i t sl) := by
  refine ⟨Nat.le_refl _, fun _ _ h => h, ⟨_, rfl, ?_⟩, ?_, fun _ ch h => ⟨ch, h, rfl, id⟩⟩
  · intro u hu
    have : t ≠ u := by rintro rfl; rw [hres] at hu; cases hu
    simp [pollsOf, this]
  · intro u slu hu
    by_cases hut : u = t
    · subst hut
      rw [ht] at hu; cases hu
      exact ⟨_, upd_same _ _ _, rfl, rfl⟩
    · exact ⟨slu, by rw [← hu]; exact upd_ne _ _ hut, rfl, rfl⟩

theorem Kinds.fwd {s s' : State B} (k : Kinds poll prioOf s s') : Fwd s s' := by
  cases k with
  | idle => exact Fwd.refl s
  | advance m hr he hle hc hd e =>
    refine Fwd.trans ?_ e.fwd
    exact ⟨hle, fun _ _ h => h, ⟨[], by simp, fun _ _ => rfl⟩, fun _ sl h => ⟨sl, h, rfl, rfl⟩,
      fun _ ch h => ⟨ch, h, rfl, id⟩⟩
  | poll i t ch sl hi ht hn hx hres hs hpre hok => exact (polled_fwd ht hres).trans (process_fwd hpre).1

theorem addTask_fwd {s : State B} (h : Core s) (b : B) (p : Nat) (m : Bool) : Fwd s (s.addTask b p m) := by
  refine ⟨Nat.le_refl _, fun _ _ h => h, ⟨[], by simp [State.addTask], fun _ _ => rfl⟩, ?_, fun _ ch h => ⟨ch, h, rfl, id⟩⟩
  intro t sl ht
  have : t ≠ s.nextId := by rintro rfl; rw [fresh_task h] at ht; cases ht
  exact ⟨sl, by rw [← ht]; exact upd_ne _ _ this, rfl, rfl⟩

theorem addChan_fwd {s : State B} (h : Core s) (cap : Option Nat) : Fwd s (s.addChan cap) :=
  (ext_addChan (fresh_chan h) cap).fwd

theorem ext_wakeEach (ts : List Nat) : ∀ (s : State B), Ext s (s.wakeEach ts) := by
  induction ts with
  | nil => intro s; exact Ext.refl s
  | cons t ts ih =>
    intro s
    exact ((ext_fields (s := s) (s' := { s with ready := s.ready ++ [t] }) rfl rfl rfl rfl rfl rfl rfl).trans
      (ext_modTask _ _ _ (by intro _; rfl) (by intro _; rfl))).trans (ih _)

theorem ext_wakeIo (s : State B) : Ext s s.wakeIo := ext_wakeEach _ _

theorem Leads.fwd {s s' : State B} (h : Reach poll prioOf s) (l : Leads poll prioOf s s') : Fwd s s' := by
  induction l with
  | refl => exact Fwd.refl s
  | chan cap l ih => exact ih.trans (addChan_fwd (h.leads l).inv.1.core cap)
  | task b m l ih => exact ih.trans (addTask_fwd (h.leads l).inv.1.core b _ m)
  | step l h1 h2 ih => exact ih.trans (kinds (h.leads l).inv.1 h1 h2).fwd
  | wake l ih => exact ih.trans (ext_wakeIo _).fwd

/-! ## Every poll in the log -/

/-- The situation in which a poll was made. -/
def PollAt (poll : B → Ctx → Step B × B) (prioOf : B → Nat) (s0 : State B) (t : Nat) (ctx : Ctx) (st : Step B) : Prop :=
  Reach poll prioOf s0 ∧ nextStep poll s0 = some (t, st) ∧ Resumable s0 t ctx ∧ s0.results t = none

theorem split_append {A : Type} {l1 l2 a b : List A} {x : A} (h : a ++ b = l1 ++ x :: l2) :
    (∃ r, a = l1 ++ x :: r) ∨ ∃ r, l1 = a ++ r ∧ b = r ++ x :: l2 := by
  rcases List.append_eq_append_iff.mp h with ⟨r, h1, h2⟩ | ⟨r, h1, h2⟩
  · exact Or.inr ⟨r, h1, h2⟩
  · cases r with
    | nil =>
      simp only [List.nil_append] at h2
      simp only [List.append_nil] at h1
      exact Or.inr ⟨[], by simp [h1], by simp [h2]⟩
    | cons y r =>
      simp only [List.cons_append, List.cons.injEq] at h2
      obtain ⟨rfl, rfl⟩ := h2
      exact Or.inl ⟨r, h1⟩

theorem Reach.history {s : State B} (h : Reach poll prioOf s) : ∀ {l1 l2 : List (Ev B)} {t : Nat} {ctx : Ctx} {st : Step B}
    {clk : Nat}, s.log = l1 ++ .poll t ctx st clk :: l2 →
    ∃ s0, PollAt poll prioOf s0 t ctx st ∧ s0.log = l1 ∧ s0.clock = clk ∧ Leads poll prioOf s0 s := by
  induction h with
  | init cfg ch =>
    intro l1 l2 t ctx st clk hl
    cases l1 <;> cases hl
  | chan cap _ ih =>
    intro l1 l2 t ctx st clk hl
    obtain ⟨s0, a, b, c, d⟩ := ih hl
    exact ⟨s0, a, b, c, .chan cap d⟩
  | task b m _ ih =>
    intro l1 l2 t ctx st clk hl
    obtain ⟨s0, a, b', c, d⟩ := ih hl
    exact ⟨s0, a, b', c, .task b m d⟩
  | @wake s h0 ih =>
    intro l1 l2 t ctx st clk hl
    obtain ⟨evs, e1, e2⟩ := (ext_wakeIo s).log
    rw [e1] at hl
    rcases split_append hl with ⟨r, hr⟩ | ⟨r, h1, h2⟩
    · obtain ⟨s0, a, b, c, d⟩ := ih hr
      exact ⟨s0, a, b, c, .wake d⟩
    · have := e2 (.poll t ctx st clk) (by rw [h2]; simp)
      cases this
  | @step s h0 h1 h2 ih =>
    intro l1 l2 t ctx st clk hl
    have k := kinds h0.inv.1 h1 h2
    generalize hs' : (s.pollOnce poll prioOf).2 = s' at *
    have old : ∀ r, s.log = l1 ++ .poll t ctx st clk :: r →
        ∃ s0, PollAt poll prioOf s0 t ctx st ∧ s0.log = l1 ∧ s0.clock = clk ∧ Leads poll prioOf s0 s' := by
      intro r hr
      obtain ⟨s0, a, b, c, d⟩ := ih hr
      refine ⟨s0, a, b, c, ?_⟩
      have := Leads.step d h1 (by rw [hs']; exact h2)
      rw [hs'] at this
      exact this
    have hstep : Leads poll prioOf s s' := by
      have := Leads.step (Leads.refl (poll := poll) (prioOf := prioOf) (s := s)) h1 (by rw [hs']; exact h2)
      rw [hs'] at this
      exact this
    cases k with
    | idle => exact old _ hl
    | advance m hr he hle hc hd e =>
      obtain ⟨evs, e1, e2⟩ := e.log
      rw [e1] at hl
      rcases split_append hl with ⟨r, hr⟩ | ⟨r, h1, h2⟩
      · exact old _ hr
      · have := e2 (.poll t ctx st clk) (by rw [h2]; simp)
        cases this
    | poll i t' ch sl hi ht hn hx hres hs hpre hok =>
      obtain ⟨_, _, evs, e1, e2⟩ := process_fwd (prioOf := prioOf) hpre
      rw [e1] at hl
      have hl' : s.log ++ (.poll t' sl.ctx (poll sl.body sl.ctx).1 s.clock :: evs) = l1 ++ .poll t ctx st clk :: l2 := by
        rw [← hl]; simp [polled]
      rcases split_append hl' with ⟨r, hr⟩ | ⟨r, g1, g2⟩
      · exact old _ hr
      · cases r with
        | nil =>
          simp only [List.nil_append, List.cons.injEq, Ev.poll.injEq] at g2
          obtain ⟨⟨rfl, rfl, rfl, rfl⟩, _⟩ := g2
          simp only [List.append_nil] at g1
          exact ⟨s, ⟨h0, hn, hx, hres⟩, g1.symm, rfl, hstep⟩
        | cons y r =>
          simp only [List.cons_append, List.cons.injEq] at g2
          have := e2 (.poll t ctx st clk) (by rw [g2.2]; simp)
          cases this

/-- Poll times never go back and never exceed the clock. -/
theorem Reach.times {s : State B} (h : Reach poll prioOf s) :
    (pollTimes s.log).Pairwise (· ≤ ·) ∧ ∀ k ∈ pollTimes s.log, k ≤ s.clock := by
  induction h with
  | init cfg ch => exact ⟨List.Pairwise.nil, fun k hk => by cases hk⟩
  | chan cap _ ih => exact ih
  | task b m _ ih => exact ih
  | @wake s h0 ih =>
    have e := ext_wakeIo s
    obtain ⟨evs, e1, e2⟩ := e.log
    rw [e1, pollTimes, List.filterMap_append, ← pollTimes, ← pollTimes, pollTimes_quiet e2, List.append_nil, e.mono.clock]
    exact ih
  | @step s h0 h1 h2 ih =>
    have k := kinds h0.inv.1 h1 h2
    generalize (s.pollOnce poll prioOf).2 = s' at *
    cases k with
    | idle => exact ih
    | advance m hr he hle hc hd e =>
      obtain ⟨evs, e1, e2⟩ := e.log
      rw [e1, pollTimes, List.filterMap_append, ← pollTimes, ← pollTimes, pollTimes_quiet e2, List.append_nil, hc]
      exact ⟨ih.1, fun k hk => Nat.le_trans (ih.2 k hk) hle⟩
    | poll i t' ch sl hi ht hn hx hres hs hpre hok =>
      obtain ⟨_, hc, evs, e1, e2⟩ := process_fwd (prioOf := prioOf) hpre
      have hp : pollTimes (polled poll s ch i t' sl).log = pollTimes s.log ++ [s.clock] := by
        simp [polled, pollTimes]
      rw [e1, pollTimes, List.filterMap_append, ← pollTimes, ← pollTimes, pollTimes_quiet e2, List.append_nil, hc, hp]
      refine ⟨List.pairwise_append.mpr ⟨ih.1, List.pairwise_singleton _ _, ?_⟩, ?_⟩
      · intro a ha b hb
        rw [List.mem_singleton.mp hb]
        exact ih.2 a ha
      · intro k hk
        rcases List.mem_append.mp hk with hk | hk
        · exact ih.2 k hk
        · rw [List.mem_singleton.mp hk]; exact Nat.le_refl _

/-! ## The main task's result -/

/-- `mainResult` is the value of a finished main task, if there is one. -/
structure MainOk (s : State B) : Prop where
  hasVal : ∀ v, s.mainResult = some v → ∃ t, s.isMain t = true ∧ s.results t = some (.completed v)
  noVal : s.mainResult = none → ∀ t, s.isMain t = true → ∀ v, s.results t ≠ some (.completed v)

theorem isMain_some {s : State B} {t : Nat} {sl : Slot B} (h : s.tasks t = some sl) : s.isMain t = sl.isMain := by
  simp [State.isMain, h]

theorem Ext.mainOk {s s' : State B} (e : Ext s s') (h : MainOk s) : MainOk s' := by
  constructor
  · intro v hv
    rw [e.main] at hv
    obtain ⟨t, h1, h2⟩ := h.hasVal v hv
    refine ⟨t, ?_, e.mono.results _ _ h2⟩
    cases ht : s.tasks t with
    | none => simp [State.isMain, ht] at h1
    | some sl =>
      obtain ⟨sl', a1, a2, _⟩ := e.slots t sl ht
      rw [isMain_some a1, a2, ← isMain_some ht]; exact h1
  · intro hn t hm v hv
    rw [e.main] at hn
    cases ht : s'.tasks t with
    | none => simp [State.isMain, ht] at hm
    | some sl' =>
      rw [isMain_some ht] at hm
      rcases e.back t sl' ht with ⟨sl, a1, a2⟩ | hf
      · have hm' : s.isMain t = true := by rw [isMain_some a1, ← a2]; exact hm
        rcases e.results t with e1 | ⟨e1, e2⟩
        · exact h.noVal hn t hm' v (by rw [← e1]; exact hv)
        · rw [e2] at hv; cases hv
      · rw [hf] at hm; cases hm

theorem mainOk_congr {s s' : State B} (h : MainOk s) (h1 : s'.mainResult = s.mainResult) (h2 : ∀ t, s'.isMain t = s.isMain t)
    (h3 : s'.results = s.results) : MainOk s' := by
  refine ⟨?_, ?_⟩
  · intro v; rw [h1]; intro hv; obtain ⟨t, a, b⟩ := h.hasVal v hv; exact ⟨t, by rw [h2]; exact a, by rw [h3]; exact b⟩
  · rw [h1]; intro hn t ht v; rw [h2] at ht; rw [h3]; exact h.noVal hn t ht v

theorem Reach.mainOk {s : State B} (h : Reach poll prioOf s) : MainOk s := by
  induction h with
  | init cfg ch => exact ⟨fun v hv => by (cases hv), fun _ t ht => by (cases ht)⟩
  | chan cap h0 ih => exact (ext_addChan (fresh_chan h0.inv.1.core) cap).mainOk ih
  | @task s b m h0 ih =>
    have hf := fresh_task h0.inv.1.core
    have hr : s.results s.nextId = none := by
      cases h0.inv.1.status s.nextId with
      | absent ht hr hl he hres => exact hres
      | ready sl ht => rw [hf] at ht; cases ht
      | done sl ht => rw [hf] at ht; cases ht
      | blocked sl st clk ht => rw [hf] at ht; cases ht
    have hne : ∀ t, t ≠ s.nextId → (s.addTask b (prioOf b) m).isMain t = s.isMain t := by
      intro t ht
      have : (s.addTask b (prioOf b) m).tasks t = s.tasks t := upd_ne _ _ ht
      simp only [State.isMain, this]
    constructor
    · intro v hv
      obtain ⟨t, a, b'⟩ := ih.hasVal v hv
      have : t ≠ s.nextId := by rintro rfl; rw [hr] at b'; cases b'
      exact ⟨t, by rw [hne t this]; exact a, b'⟩
    · intro hn t ht v hv
      by_cases hk : t = s.nextId
      · subst hk
        have : (s.addTask b (prioOf b) m).results s.nextId = none := hr
        rw [this] at hv; cases hv
      · rw [hne t hk] at ht
        exact ih.noVal hn t ht v hv
  | @wake s h0 ih => exact (ext_wakeIo s).mainOk ih
  | @step s h0 h1 h2 ih =>
    have k := kinds h0.inv.1 h1 h2
    generalize (s.pollOnce poll prioOf).2 = s' at *
    cases k with
    | idle => exact ih
    | advance m hr he hle hc hd e =>
      exact e.mainOk (mainOk_congr ih rfl (fun _ => rfl) rfl)
    | poll i t ch sl hi ht hn hx hres hs hpre hok =>
      have hm : MainOk (polled poll s ch i t sl) := by
        refine mainOk_congr ih rfl ?_ rfl
        intro u
        by_cases hu : u = t
        · subst hu
          rw [isMain_some ht]
          simp [State.isMain, polled, upd]
        · have : (polled poll s ch i t sl).tasks u = s.tasks u := upd_ne _ _ hu
          simp only [State.isMain, this]
      generalize (poll sl.body sl.ctx).1 = st at *
      generalize polled poll s ch i t sl = s1 at *
      by_cases hne : ∀ v, st ≠ .exit v
      · exact (ext_process prioOf t st hpre.core hne).mainOk hm
      · have : ∃ v, st = .exit v := Classical.byContradiction fun hn => hne fun v hv => hn ⟨v, hv⟩
        obtain ⟨v, rfl⟩ := this
        obtain ⟨slt, htt, _⟩ := hpre.run.slot
        obtain ⟨a1, a2, a3, a4, a5, a6⟩ := exit_facts (v := v) prioOf htt hpre.run.res
        have hmain : ∀ u, s1.isMain u = true → (s1.process prioOf t (.exit v)).isMain u = true := by
          intro u hu
          cases hx : s1.tasks u with
          | none => simp [State.isMain, hx] at hu
          | some slu =>
            obtain ⟨sl', b1, b2, _⟩ := a5 u slu hx
            rw [isMain_some b1, b2, ← isMain_some hx]; exact hu
        have hback : ∀ u, (s1.process prioOf t (.exit v)).isMain u = true → s1.isMain u = true := by
          intro u hu
          cases hx : (s1.process prioOf t (.exit v)).tasks u with
          | none => simp [State.isMain, hx] at hu
          | some slu =>
            rw [isMain_some hx] at hu
            rcases a6 u slu hx with ⟨sl', b1, b2⟩ | hf
            · rw [isMain_some b1, ← b2]; exact hu
            · rw [hf] at hu; cases hu
        cases hmt : s1.isMain t with
        | true =>
          rw [hmt] at a4
          simp only [if_true] at a4
          refine ⟨?_, ?_⟩
          · intro w hw
            rw [a4] at hw; cases hw
            exact ⟨t, hmain t hmt, by rw [a3]; exact upd_same _ _ _⟩
          · intro hn; rw [a4] at hn; cases hn
        | false =>
          rw [hmt] at a4
          simp only [Bool.false_eq_true, if_false] at a4
          refine ⟨?_, ?_⟩
          · intro w hw
            rw [a4] at hw
            obtain ⟨u, b1, b2⟩ := hm.hasVal w hw
            have : u ≠ t := by rintro rfl; rw [hmt] at b1; cases b1
            exact ⟨u, hmain u b1, by rw [a3, upd_ne _ _ this]; exact b2⟩
          · intro hn u hu w hw
            rw [a4] at hn
            have hu' := hback u hu
            have : u ≠ t := by rintro rfl; rw [hmt] at hu'; cases hu'
            rw [a3, upd_ne _ _ this] at hw
            exact hm.noVal hn u hu' w hw

end Verif.Sched
