import Verif.Sched.NoPanic
/-!
# Facts about reachable states, for the property theorems
-/

namespace Verif.Sched
variable {B : Type} {poll : B → Ctx → Step B × B} {prioOf : B → Nat}

theorem stateOf_some {s : State B} {t : Nat} {sl : Slot B} (h : s.tasks t = some sl) : s.stateOf t = some sl.state := by
  simp [State.stateOf, h]

theorem isSome_of {A : Type} {o : Option A} {a : A} (h : o = some a) : o.isSome = true := by rw [h]; rfl

/-- The registrations of every task. -/
theorem registrations {s : State B} (h : Inv s) (t : Nat) :
    (s.tasks t = none ∧ regOf s t = {}) ∨
    ((s.results t).isSome ∧ s.stateOf t = some .done ∧ regOf s t = {}) ∨
    (live s t ∧ s.stateOf t = some .ready ∧ regOf s t = { ready := 1 }) ∨
    (live s t ∧ ∃ st clk, lastPoll t s.log = some (st, clk) ∧ since t s.log = [] ∧
      (waitState st).isSome ∧ s.stateOf t = waitState st ∧ regOf s t = waitReg clk st) := by
  cases h.status t with
  | absent ht hr => exact Or.inl ⟨ht, hr⟩
  | done sl ht hs hr hres => exact Or.inr (Or.inl ⟨hres, by rw [stateOf_some ht, hs], hr⟩)
  | ready sl ht hs hr ha hres => exact Or.inr (Or.inr (Or.inl ⟨⟨isSome_of ht, hres⟩, by rw [stateOf_some ht, hs], hr⟩))
  | blocked sl st clk ht hl hs hr he hc hres =>
    exact Or.inr (Or.inr (Or.inr ⟨⟨isSome_of ht, hres⟩, st, clk, hl, he, isSome_of hs, by rw [stateOf_some ht, hs], hr⟩))

theorem waitReg_ready (clk : Nat) (st : Step B) : (waitReg clk st).ready = 0 := by cases st <;> rfl

theorem waitState_ne_ready (st : Step B) : waitState st ≠ some .ready := by cases st <;> simp [waitState]

theorem waitState_ne_done (st : Step B) : waitState st ≠ some .done := by cases st <;> simp [waitState]

theorem ready_count {s : State B} (h : Inv s) (t : Nat) :
    s.ready.count t = if s.stateOf t = some .ready then 1 else 0 := by
  have e : s.ready.count t = (regOf s t).ready := rfl
  rw [e]
  rcases registrations h t with ⟨h1, h2⟩ | ⟨_, h1, h2⟩ | ⟨_, h1, h2⟩ | ⟨_, st, clk, _, _, h1, h3, h2⟩
  · rw [h2]; simp [State.stateOf, h1]
  · rw [h2, h1]; simp
  · rw [h2, h1]; simp
  · rw [h2, h3, waitReg_ready, if_neg (waitState_ne_ready st)]

theorem ready_nodup {s : State B} (h : Inv s) : s.ready.Nodup := by
  rw [List.nodup_iff_count]
  intro t
  rw [ready_count h t]
  split <;> simp

theorem mem_ready {s : State B} (h : Inv s) (t : Nat) : t ∈ s.ready ↔ s.stateOf t = some .ready := by
  rw [← List.count_pos_iff, ready_count h t]
  split <;> simp_all

theorem ready_live {s : State B} (h : Inv s) {t : Nat} (ht : s.stateOf t = some .ready) : live s t := by
  rcases registrations h t with ⟨h1, h2⟩ | ⟨_, h1, h2⟩ | ⟨h0, h1, h2⟩ | ⟨h0, _⟩
  · simp [State.stateOf, h1] at ht
  · rw [h1] at ht; simp at ht
  · exact h0
  · exact h0

theorem chan_receivers {s : State B} (h : Inv s) {t c : Nat} (hp : (regOf s t).recv c ≠ 0) :
    (s.chan c).queue = [] ∧ (s.chan c).senders = [] ∧ (s.chan c).closed = false := by
  refine (h.chans c).recv ?_
  intro h0
  apply hp
  simp [regOf, h0]

theorem hasRoom_false {ch : Chan} (h : ch.hasRoom = false) : ∃ n, ch.cap = some n ∧ n ≤ ch.queue.length := by
  unfold Chan.hasRoom at h
  split at h
  · cases h
  · next n e => exact ⟨n, e, by simpa using h⟩

theorem timeout_timer {clk : Nat} {d : Nat} : ∀ {i : Nat} {arms : List Arm}, .timeout d ∈ arms →
    ∃ j, (clk + d, some j) ∈ armTimers clk i arms := by
  intro i arms
  induction arms generalizing i with
  | nil => intro h; cases h
  | cons a as ih =>
    intro h
    cases a with
    | recv c =>
      simp only [List.mem_cons, reduceCtorEq, false_or] at h
      exact ih h
    | timeout d' =>
      simp only [List.mem_cons, Arm.timeout.injEq] at h
      rcases h with h | h
      · subst h; exact ⟨i, by simp [armTimers]⟩
      · obtain ⟨j, hj⟩ := ih (i := i + 1) h
        exact ⟨j, by simp [armTimers, hj]⟩

theorem mem_armTimers {clk k : Nat} {o : Option Nat} : ∀ {i : Nat} {arms : List Arm}, (k, o) ∈ armTimers clk i arms →
    ∃ d, k = clk + d ∧ .timeout d ∈ arms := by
  intro i arms
  induction arms generalizing i with
  | nil => intro h; cases h
  | cons a as ih =>
    intro h
    cases a with
    | recv c =>
      obtain ⟨d, h1, h2⟩ := ih (by simpa [armTimers] using h)
      exact ⟨d, h1, List.mem_cons_of_mem _ h2⟩
    | timeout d' =>
      simp only [armTimers, List.mem_cons, Prod.mk.injEq] at h
      rcases h with h | h
      · exact ⟨d', h.1, List.mem_cons_self ..⟩
      · obtain ⟨d, h1, h2⟩ := ih h
        exact ⟨d, h1, List.mem_cons_of_mem _ h2⟩

theorem timer_of_reg {s : State B} {t k : Nat} {o : Option Nat} (h : (k, o) ∈ (regOf s t).timers) :
    ∃ e ∈ s.timers, e.tid = t ∧ e.fireAt = k := by
  simp only [regOf, List.mem_map, List.mem_filter, decide_eq_true_eq, Prod.mk.injEq] at h
  obtain ⟨e, ⟨h1, h2⟩, h3, _⟩ := h
  exact ⟨e, h1, h2, h3⟩

/-- Why a blocked task is blocked. -/
theorem blocked_reason {s : State B} (h : Inv s) {t : Nat} {st : Step B} {clk : Nat}
    (hw : (waitState st).isSome) (hr : regOf s t = waitReg clk st) :
    match st with
    | .recv c => (s.chan c).queue = [] ∧ (s.chan c).senders = [] ∧ (s.chan c).closed = false
    | .send c _ => ∃ n, (s.chan c).cap = some n ∧ n ≤ (s.chan c).queue.length
    | .select arms => (∀ c, .recv c ∈ arms →
        (s.chan c).queue = [] ∧ (s.chan c).senders = [] ∧ (s.chan c).closed = false) ∧
        ∀ d, .timeout d ∈ arms → s.clock ≤ clk + d ∧ ∃ e ∈ s.timers, e.tid = t ∧ e.fireAt = clk + d
    | .sleep d => s.clock ≤ clk + d ∧ ∃ e ∈ s.timers, e.tid = t ∧ e.fireAt = clk + d
    | .await u => live s u
    | _ => True := by
  cases st with
  | recv c => exact chan_receivers h (t := t) (by rw [hr]; simp [waitReg])
  | send c p =>
    refine hasRoom_false ((h.chans c).send ?_)
    intro h0
    have : (regOf s t).send c = [p] := by rw [hr]; simp [waitReg]
    simp [regOf, h0] at this
  | select arms =>
    refine ⟨?_, ?_⟩
    · intro c hc
      refine chan_receivers h (t := t) ?_
      rw [hr]
      simp only [waitReg]
      have := List.count_pos_iff.mpr hc
      omega
    · intro d hd
      obtain ⟨j, hj⟩ := timeout_timer (clk := clk) (i := 0) hd
      have : (clk + d, some j) ∈ (regOf s t).timers := by rw [hr]; exact hj
      obtain ⟨e, h1, h2, h3⟩ := timer_of_reg this
      have := h.core.timers e h1
      exact ⟨by omega, e, h1, h2, h3⟩
  | sleep d =>
    have : (clk + d, none) ∈ (regOf s t).timers := by rw [hr]; simp [waitReg]
    obtain ⟨e, h1, h2, h3⟩ := timer_of_reg this
    have := h.core.timers e h1
    exact ⟨by omega, e, h1, h2, h3⟩
  | await u =>
    have hp : (s.awaiters u).count t = 1 := by
      have : (regOf s t).awaits u = 1 := by rw [hr]; simp [waitReg]
      exact this
    have hne : s.awaiters u ≠ [] := by intro h0; rw [h0] at hp; simp at hp
    refine ⟨h.core.awTask u hne, ?_⟩
    cases hres : s.results u with
    | none => rfl
    | some r => exact absurd (h.core.awDone u (by rw [hres]; rfl)) hne
  | _ => trivial

/-! ## Quiescence -/

theorem outcome_iff {s : State B} (o : State.Outcome) : (s.pollOnce poll prioOf).1 = some o ↔
    s.ready = [] ∧ s.timers = [] ∧ s.outcome = o := by
  unfold State.pollOnce
  split
  · next t ts hr =>
    rw [hr]
    split <;> simp
  · next hr =>
    rw [hr]
    by_cases ht : s.timers = [] <;> simp [ht]

theorem outcome_state {s : State B} {o : State.Outcome} (h : (s.pollOnce poll prioOf).1 = some o) :
    s.pollOnce poll prioOf = (some o, s) := by
  obtain ⟨h1, h2, h3⟩ := (outcome_iff o).mp h
  simp [State.pollOnce, h1, h2, h3]

theorem allDone_iff {s : State B} (h : Inv s) : s.allDone = true ↔ ∀ t, (s.tasks t).isSome → (s.results t).isSome := by
  unfold State.allDone
  rw [List.all_eq_true]
  constructor
  · intro hd t ht
    have hlt := h.core.taskLt t ht
    have := hd t (List.mem_range.mpr hlt)
    rcases registrations h t with ⟨h1, h2⟩ | ⟨h0, h1, h2⟩ | ⟨_, h1, h2⟩ | ⟨_, st, clk, _, _, h1, h3, h2⟩
    · rw [h1] at ht; cases ht
    · exact h0
    · rw [h1] at this; simp at this
    · rw [h3] at this
      obtain ⟨w, hw⟩ := Option.isSome_iff_exists.mp h1
      rw [hw] at this
      simp only [beq_iff_eq] at this
      rw [this] at hw
      exact absurd hw (waitState_ne_done st)
  · intro hd t _
    rcases registrations h t with ⟨h1, h2⟩ | ⟨h0, h1, h2⟩ | ⟨h0, h1, h2⟩ | ⟨h0, st, clk, _, _, h1, h3, h2⟩
    · simp [State.stateOf, h1]
    · simp [h1]
    · have := hd t h0.1; rw [h0.2] at this; cases this
    · have := hd t h0.1; rw [h0.2] at this; cases this

theorem waitState_io {st : Step B} (h : waitState st = some .blockedIo) : st = .ioPending := by
  cases st <;> simp [waitState] at h ⊢

theorem anyIo_iff {s : State B} (h : Inv s) : s.anyIo = true ↔
    ∃ t clk, live s t ∧ t ∉ s.ready ∧ lastPoll t s.log = some (.ioPending, clk) := by
  unfold State.anyIo
  rw [List.any_eq_true]
  constructor
  · rintro ⟨t, _, ht⟩
    rw [beq_iff_eq] at ht
    rcases registrations h t with ⟨h1, h2⟩ | ⟨h0, h1, h2⟩ | ⟨h0, h1, h2⟩ | ⟨h0, st, clk, h4, _, h1, h3, h2⟩
    · simp [State.stateOf, h1] at ht
    · rw [h1] at ht; simp at ht
    · rw [h1] at ht; simp at ht
    · have hst := waitState_io (h3.symm.trans ht)
      subst hst
      exact ⟨t, clk, h0, by rw [mem_ready h, ht]; simp, h4⟩
  · rintro ⟨t, clk, h0, h1, h2⟩
    refine ⟨t, List.mem_range.mpr (h.core.taskLt t h0.1), ?_⟩
    rw [mem_ready h] at h1
    rcases registrations h t with ⟨g1, g2⟩ | ⟨g0, g1, g2⟩ | ⟨g0, g1, g2⟩ | ⟨g0, st, clk', g4, _, g1, g3, g2⟩
    · have := h0.1; rw [g1] at this; cases this
    · rw [h0.2] at g0; cases g0
    · exact absurd g1 h1
    · rw [h2] at g4
      simp only [Option.some.injEq, Prod.mk.injEq] at g4
      rw [g3, ← g4.1]; rfl

/-- Deadlock, spelled out. -/
theorem deadlock_iff {s : State B} (h : Inv s) : (s.pollOnce poll prioOf).1 = some .deadlock ↔
    (∃ t, live s t) ∧ ∀ t, live s t → t ∉ s.ready ∧ ∃ st clk, lastPoll t s.log = some (st, clk) ∧ Stuck s st := by
  rw [outcome_iff]
  constructor
  · rintro ⟨hr, ht, ho⟩
    unfold State.outcome at ho
    split at ho
    · cases ho
    · next hd =>
      split at ho
      · cases ho
      · next hio =>
        refine ⟨?_, ?_⟩
        · refine Classical.byContradiction fun hn => hd ((allDone_iff h).mpr ?_)
          intro t htt
          cases hres : s.results t with
          | none => exact absurd ⟨t, htt, hres⟩ hn
          | some r => rfl
        · intro t hl
          have hnr : t ∉ s.ready := by rw [hr]; simp
          refine ⟨hnr, ?_⟩
          rcases registrations h t with ⟨g1, g2⟩ | ⟨g0, g1, g2⟩ | ⟨g0, g1, g2⟩ | ⟨g0, st, clk, g4, _, g1, g3, g2⟩
          · have := hl.1; rw [g1] at this; cases this
          · rw [hl.2] at g0; cases g0
          · exact absurd ((mem_ready h t).mpr g1) hnr
          · refine ⟨st, clk, g4, ?_⟩
            have hb := blocked_reason h g1 g2
            cases st with
            | recv c => exact hb
            | send c p => exact hb
            | select arms =>
              intro a ha
              cases a with
              | recv c => exact ⟨c, rfl, hb.1 c ha⟩
              | timeout d =>
                obtain ⟨_, e, he, _⟩ := hb.2 d ha
                rw [ht] at he; cases he
            | sleep d =>
              obtain ⟨_, e, he, _⟩ := hb
              rw [ht] at he; cases he
            | await u => exact hb
            | ioPending => exact absurd ((anyIo_iff h).mpr ⟨t, clk, hl, hnr, g4⟩) (by simpa using hio)
            | _ => simp [waitState] at g1
  · rintro ⟨⟨t0, ht0⟩, hall⟩
    have hr : s.ready = [] := by
      cases hr : s.ready with
      | nil => rfl
      | cons t ts =>
        have hm : t ∈ s.ready := by rw [hr]; simp
        have hl := ready_live h ((mem_ready h t).mp hm)
        exact absurd hm (hall t hl).1
    refine ⟨hr, ?_, ?_⟩
    · cases ht : s.timers with
      | nil => rfl
      | cons e es =>
        exfalso
        have hm : (e.fireAt, e.arm) ∈ (regOf s e.tid).timers := by
          simp only [regOf, ht, List.mem_map, List.mem_filter, decide_eq_true_eq]
          exact ⟨e, ⟨by simp, rfl⟩, rfl⟩
        rcases registrations h e.tid with ⟨g1, g2⟩ | ⟨g0, g1, g2⟩ | ⟨g0, g1, g2⟩ | ⟨g0, st, clk, g4, _, g1, g3, g2⟩
        · rw [g2] at hm; cases hm
        · rw [g2] at hm; cases hm
        · rw [g2] at hm; cases hm
        · obtain ⟨_, st', clk', k1, k2⟩ := hall e.tid g0
          rw [g4] at k1
          simp only [Option.some.injEq, Prod.mk.injEq] at k1
          obtain ⟨rfl, rfl⟩ := k1
          rw [g2] at hm
          cases st with
          | select arms =>
            obtain ⟨d, _, hd⟩ := mem_armTimers (show (e.fireAt, e.arm) ∈ armTimers clk 0 arms from hm)
            obtain ⟨c, hc, _⟩ := k2 _ hd
            cases hc
          | sleep d => exact k2
          | _ => cases hm
    · unfold State.outcome
      have hd : s.allDone ≠ true := by
        intro hd
        have := (allDone_iff h).mp hd t0 ht0.1
        rw [ht0.2] at this; cases this
      have hio : s.anyIo ≠ true := by
        intro hio
        obtain ⟨t, clk, h1, h2, h3⟩ := (anyIo_iff h).mp hio
        obtain ⟨_, st, clk', k1, k2⟩ := hall t h1
        rw [h3] at k1
        simp only [Option.some.injEq, Prod.mk.injEq] at k1
        rw [← k1.1] at k2
        exact k2
      rw [if_neg hd, if_neg hio]

theorem done_iff {s : State B} (h : Inv s) (v : Payload) : (s.pollOnce poll prioOf).1 = some (.done v) ↔
    (∀ t, (s.tasks t).isSome → (s.results t).isSome) ∧ v = s.mainResult.getD .nothing := by
  rw [outcome_iff]
  constructor
  · rintro ⟨hr, ht, ho⟩
    unfold State.outcome at ho
    split at ho
    · next hd =>
      simp only [State.Outcome.done.injEq] at ho
      exact ⟨(allDone_iff h).mp hd, ho.symm⟩
    · split at ho <;> cases ho
  · rintro ⟨hd, hv⟩
    have none_reg : ∀ t, regOf s t = {} := by
      intro t
      rcases registrations h t with ⟨g1, g2⟩ | ⟨g0, g1, g2⟩ | ⟨g0, g1, g2⟩ | ⟨g0, _⟩
      · exact g2
      · exact g2
      · have := hd t g0.1; rw [g0.2] at this; cases this
      · have := hd t g0.1; rw [g0.2] at this; cases this
    refine ⟨?_, ?_, ?_⟩
    · cases hr : s.ready with
      | nil => rfl
      | cons t ts =>
        have : (regOf s t).ready = 0 := by rw [none_reg]
        simp [regOf, hr] at this
    · cases ht : s.timers with
      | nil => rfl
      | cons e es =>
        have : (regOf s e.tid).timers = [] := by rw [none_reg]
        simp [regOf, ht] at this
    · unfold State.outcome
      rw [if_pos ((allDone_iff h).mpr hd), hv]

theorem waiting_iff {s : State B} (h : Inv s) : (s.pollOnce poll prioOf).1 = some .waitingForIo ↔
    s.ready = [] ∧ s.timers = [] ∧ ∃ t clk, live s t ∧ lastPoll t s.log = some (.ioPending, clk) := by
  rw [outcome_iff]
  refine and_congr_right fun hr => and_congr_right fun ht => ?_
  constructor
  · intro ho
    unfold State.outcome at ho
    split at ho
    · cases ho
    · split at ho
      · next hio =>
        obtain ⟨t, clk, h1, _, h2⟩ := (anyIo_iff h).mp hio
        exact ⟨t, clk, h1, h2⟩
      · cases ho
  · rintro ⟨t, clk, h1, h2⟩
    unfold State.outcome
    have hd : s.allDone ≠ true := by
      intro hd
      have := (allDone_iff h).mp hd t h1.1
      rw [h1.2] at this; cases this
    rw [if_neg hd, if_pos ((anyIo_iff h).mpr ⟨t, clk, h1, by rw [hr]; simp, h2⟩)]

/-- Nothing is waiting for I/O, so waking does nothing. -/
theorem wakeIo_none {s : State B} (h : s.anyIo = false) : s.wakeIo = s := by
  unfold State.wakeIo
  have : ((List.range s.nextId).filter fun t => s.stateOf t == some .blockedIo) = [] := by
    rw [List.filter_eq_nil_iff]
    intro t ht hb
    unfold State.anyIo at h
    rw [List.any_eq_false] at h
    exact h t ht hb
  rw [this]; rfl

/-! ## Slices -/

theorem runSlice_stop {s : State B} {o : State.Outcome} (hc : s.crashed = false) (h : (s.pollOnce poll prioOf).1 = some o) (n : Nat) :
    s.runSlice poll prioOf (n + 1) = (some o, s) := by
  have := outcome_state h
  simp only [State.runSlice, hc, this, Bool.false_eq_true, if_false]

theorem runSlice_zero (s : State B) : s.runSlice poll prioOf 0 = (none, s) := rfl

theorem runSlice_crashed {s : State B} (hc : s.crashed = true) (n : Nat) : s.runSlice poll prioOf n = (none, s) := by
  cases n <;> simp [State.runSlice, hc]

/-- A slice that reports an outcome has stopped in a state that reports it again. -/
theorem runSlice_outcome (m : Nat) : ∀ {s : State B} {o : State.Outcome}, (s.runSlice poll prioOf m).1 = some o →
    (s.runSlice poll prioOf m).2.crashed = false ∧
    ((s.runSlice poll prioOf m).2.pollOnce poll prioOf).1 = some o := by
  induction m with
  | zero => intro s o h; cases h
  | succ m ih =>
    intro s o h
    cases hc : s.crashed with
    | true => rw [runSlice_crashed hc] at h; cases h
    | false =>
      cases hp : (s.pollOnce poll prioOf).1 with
      | some o' =>
        rw [runSlice_stop hc hp] at h ⊢
        simp only [Option.some.injEq] at h
        subst h
        exact ⟨hc, hp⟩
      | none =>
        have e : s.runSlice poll prioOf (m + 1) = (s.pollOnce poll prioOf).2.runSlice poll prioOf m := by
          simp only [State.runSlice, hc, hp, Bool.false_eq_true, if_false]
        rw [e] at h ⊢
        exact ih h

theorem runSlice_add (m n : Nat) : ∀ (s : State B), s.runSlice poll prioOf (m + n) =
    match (s.runSlice poll prioOf m).1 with
    | some o => (some o, (s.runSlice poll prioOf m).2)
    | none => (s.runSlice poll prioOf m).2.runSlice poll prioOf n := by
  induction m with
  | zero => intro s; rw [Nat.zero_add]; rfl
  | succ m ih =>
    intro s
    rw [Nat.succ_add]
    cases hc : s.crashed with
    | true => simp only [runSlice_crashed hc]
    | false =>
      cases hp : (s.pollOnce poll prioOf).1 with
      | some o => simp only [runSlice_stop hc hp]
      | none =>
        have e : ∀ k, s.runSlice poll prioOf (k + 1) = (s.pollOnce poll prioOf).2.runSlice poll prioOf k := by
          intro k
          simp only [State.runSlice, hc, hp, Bool.false_eq_true, if_false]
        rw [show (m + n).succ = (m + n) + 1 from rfl, e, e]
        exact ih _

/-- Slicing a run changes neither the state it reaches nor what the last slice reports. -/
theorem slices_eq : ∀ (ns : List Nat) (s : State B),
    ns.foldl (fun s n => (s.runSlice poll prioOf n).2) s = (s.runSlice poll prioOf ns.sum).2 := by
  intro ns
  induction ns with
  | nil => intro s; rfl
  | cons n ns ih =>
    intro s
    rw [List.foldl_cons, ih, List.sum_cons, runSlice_add]
    cases hp : (s.runSlice poll prioOf n).1 with
    | none => rfl
    | some o =>
      obtain ⟨hc, ho⟩ := runSlice_outcome n hp
      cases hk : ns.sum with
      | zero => rfl
      | succ k => rw [runSlice_stop hc ho]

/-! ## Replaying a list of commands -/

theorem RepAt.exec (c : Cmd B) (s : State B) : RepAt (fun s => c.exec poll prioOf s) s := by
  cases c with
  | chan cap => exact RepAt.free fun ch => rfl
  | task b m => exact RepAt.free fun ch => rfl
  | slice n => exact RepAt.runSlice n s
  | wake => exact RepAt.free fun ch => by simp only [Cmd.exec, c_wakeIo]

/-- Continuation of `execAll`. -/
def execK (poll : B → Ctx → Step B × B) (prioOf : B → Nat) (cs : List (Cmd B)) (o : Option State.Outcome) (s : State B) :
    List (Option State.Outcome) × State B := (o :: (execAll poll prioOf cs s).1, (execAll poll prioOf cs s).2)

theorem RepAt.execAll (cs : List (Cmd B)) : ∀ (s : State B), RepAt (Sched.execAll poll prioOf cs) s := by
  induction cs with
  | nil => intro s; exact RepAt.free fun ch => rfl
  | cons c cs ih =>
    intro s
    refine RepAt.congr (F' := fun s => execK poll prioOf cs (c.exec poll prioOf s).1 (c.exec poll prioOf s).2) ?_ (fun ch => rfl)
    refine RepAt.bind (G := execK poll prioOf cs) (RepAt.exec c s) ?_
    intro rng seed k hk
    obtain ⟨rng', more, a, b⟩ := ih _ rng seed k hk
    refine ⟨rng', more, a, ?_⟩
    intro T hT
    have := b T hT
    simp only [execK, this]

end Verif.Sched
