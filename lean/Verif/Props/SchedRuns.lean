import Verif.Props.SchedChannels
/-!
# C16–C19, C69, C70: replay, deadlock, virtual time, abort, fairness and absence of panics
-/

namespace Verif.Props
open Verif.Sched
variable {B : Type} {poll : B → Ctx → Step B × B} {prioOf : B → Nat}

/-! ## C16 -/

/-- A recorded run replays exactly. Whatever the owner of the scheduler does (create channels and tasks, run
slices, wake I/O tasks), doing the same with the recorded trace returns the same at every point and ends in
the same state (only the chooser differs), having used up the whole trace. -/
theorem C16_replay (cfg : Config) (seed : Nat) (cmds : List (Cmd B)) :
    ∃ trace, (execAll poll prioOf cmds (State.init cfg (.record seed seed []))).2.chooser.trace = (seed, trace) ∧
      execAll poll prioOf cmds (State.init cfg (.replay seed trace 0)) =
        ((execAll poll prioOf cmds (State.init cfg (.record seed seed []))).1,
          { (execAll poll prioOf cmds (State.init cfg (.record seed seed []))).2 with
            chooser := .replay seed trace trace.length }) := by
  obtain ⟨rng, more, h1, h2⟩ := RepAt.execAll (poll := poll) (prioOf := prioOf) cmds
    (State.init cfg (.record seed seed [])) seed seed [] rfl
  refine ⟨more, by rw [h1]; rfl, ?_⟩
  exact h2 more (List.prefix_refl _)

/-- A program whose runs depend on the seed: two readers wait in a select for two channels that become ready
together, and timers fall due together. -/
def demo16 : Pc → Ctx → Step Pc × Pc := play
  [ [.send 0 (.other 1), .send 1 (.other 2), .select [.recv 0, .recv 1], .sleep 3, .exit (.other 5)],
    [.sleep 3, .exit .nothing], [.sleep 3, .exit .nothing] ]

example : (execAll demo16 (fun b => b.1) [.chan none, .chan none, .task (0, 0) true, .task (1, 0) false, .task (2, 0) false,
      .slice 3, .slice 40] (State.init { policy := .random } (.record 42 42 []))).1 =
        [none, none, none, none, none, none, some (.done (.other 5))] ∧
    (execAll demo16 (fun b => b.1) [.chan none, .chan none, .task (0, 0) true, .task (1, 0) false, .task (2, 0) false,
      .slice 3, .slice 40] (State.init { policy := .random } (.record 42 42 []))).2.chooser.trace.2.length > 5 := by
  decide +kernel

/-- Slicing a run changes nothing: taking slices of any sizes one after the other reaches the state that one
slice of the total size reaches. -/
theorem C16_slices (s : State B) (budgets : List Nat) :
    budgets.foldl (fun s n => (s.runSlice poll prioOf n).2) s = (s.runSlice poll prioOf budgets.sum).2 :=
  slices_eq budgets s

/-- ... and reports the same: a slice followed by another is one longer slice, and an outcome reported by the
first is reported again by every later one. -/
theorem C16_slice_outcomes (s : State B) (m n : Nat) :
    ((s.runSlice poll prioOf m).1 = none → s.runSlice poll prioOf (m + n) = (s.runSlice poll prioOf m).2.runSlice poll prioOf n) ∧
    ∀ o, (s.runSlice poll prioOf m).1 = some o →
      s.runSlice poll prioOf (m + n) = (some o, (s.runSlice poll prioOf m).2) ∧
      (s.runSlice poll prioOf m).2.runSlice poll prioOf (n + 1) = (some o, (s.runSlice poll prioOf m).2) := by
  refine ⟨?_, ?_⟩
  · intro h; rw [runSlice_add, h]
  · intro o h
    obtain ⟨h1, h2⟩ := runSlice_outcome m h
    exact ⟨by rw [runSlice_add, h], runSlice_stop h1 h2 n⟩

example : ((start {} 1 [some 1] 1).runSlice demo14 (fun b => b.1) 4).1 = none ∧
    ((start {} 1 [some 1] 1).runSlice demo14 (fun b => b.1) 30).1 = some (.done (.other 7)) := by decide +kernel

/-! ## C17 -/

/-- Deadlock is reported exactly when some task is unfinished and every unfinished task is stuck (`Stuck`):
it waits to receive from an empty open channel, to send to a full one, for an unfinished task, or for one of
several empty open channels — not for a timer and not for I/O. -/
theorem C17_deadlock_iff {s : State B} (h : Reach poll prioOf s) :
    (s.pollOnce poll prioOf).1 = some .deadlock ↔
      (∃ t, live s t) ∧ ∀ t, live s t → t ∉ s.ready ∧ ∃ st clk, lastPoll t s.log = some (st, clk) ∧ Stuck s st :=
  deadlock_iff h.inv.1

/-- Two tasks, each receiving from a channel only the other would send to. -/
def demo17 : Pc → Ctx → Step Pc × Pc := play
  [ [.recv 0, .send 1 (.other 1), .exit .nothing], [.recv 1, .send 0 (.other 1), .exit .nothing] ]

example : Reach demo17 (fun b => b.1) (stepsOf demo17 2 (start {} 1 [none, none] 2)) ∧
    ((stepsOf demo17 2 (start {} 1 [none, none] 2)).pollOnce demo17 fun b => b.1).1 = some .deadlock :=
  ⟨reach_steps 2 (reach_start _ _ _ _ _) (by decide +kernel), by decide +kernel⟩

/-- A deadlock is for ever: stepping and waking I/O change nothing. -/
theorem C17_deadlock_stays {s : State B} (h : (s.pollOnce poll prioOf).1 = some .deadlock) (hc : s.crashed = false) (n : Nat) :
    s.runSlice poll prioOf (n + 1) = (some .deadlock, s) ∧ s.wakeIo = s := by
  refine ⟨runSlice_stop hc h n, wakeIo_none ?_⟩
  obtain ⟨_, _, ho⟩ := (outcome_iff _).mp h
  unfold State.outcome at ho
  split at ho
  · cases ho
  · split at ho
    · cases ho
    · next hio => simpa using hio

/-- A run completes exactly when every task has finished, and it reports the value the main task completed
with: with several main tasks the value of one of them, with none that completed the empty value. -/
theorem C17_done_iff {s : State B} (h : Reach poll prioOf s) :
    ((∃ v, (s.pollOnce poll prioOf).1 = some (.done v)) ↔ ∀ t, (s.tasks t).isSome → (s.results t).isSome) ∧
    ∀ v, (s.pollOnce poll prioOf).1 = some (.done v) →
      (∃ t, s.isMain t = true ∧ s.results t = some (.completed v)) ∨
      (v = .nothing ∧ ∀ t, s.isMain t = true → ∀ w, s.results t ≠ some (.completed w)) := by
  refine ⟨⟨?_, ?_⟩, ?_⟩
  · rintro ⟨v, hv⟩; exact ((done_iff h.inv.1 v).mp hv).1
  · intro hd; exact ⟨_, (done_iff h.inv.1 _).mpr ⟨hd, rfl⟩⟩
  · intro v hv
    have hv2 := ((done_iff h.inv.1 v).mp hv).2
    have hm := h.mainOk
    cases hr : s.mainResult with
    | none => exact Or.inr ⟨by rw [hv2, hr]; rfl, hm.noVal hr⟩
    | some w =>
      obtain ⟨t, h1, h2⟩ := hm.hasVal w hr
      left
      exact ⟨t, h1, by rw [h2, hv2, hr]; rfl⟩

/-- A main task is one started as such, and stays one. -/
theorem C17_main_role {s s' : State B} (h : Reach poll prioOf s) (b : B) (m : Bool)
    (l : Leads poll prioOf (s.addTask b (prioOf b) m) s') : s'.isMain s.nextId = m := by
  have h1 : Reach poll prioOf (s.addTask b (prioOf b) m) := .task b m h
  obtain ⟨sl, h2, h3, _⟩ := (l.fwd h1).tasks s.nextId _ (upd_same _ _ _)
  simp only [State.isMain, h2, h3]

example : Reach demo14 (fun b => b.1) (at14 12) ∧ ((at14 12).pollOnce demo14 fun b => b.1).1 = some (.done (.other 7)) :=
  ⟨at14_reach 12 (by decide +kernel), by decide +kernel⟩

/-- Waiting for I/O is reported exactly when nothing is runnable, no timer is armed and an unfinished task
waits for I/O. -/
theorem C17_waiting_iff {s : State B} (h : Reach poll prioOf s) :
    (s.pollOnce poll prioOf).1 = some .waitingForIo ↔
      s.ready = [] ∧ s.timers = [] ∧ ∃ t clk, live s t ∧ lastPoll t s.log = some (.ioPending, clk) :=
  waiting_iff h.inv.1

/-- A task that waits for I/O. -/
def demoIo : Pc → Ctx → Step Pc × Pc := play [ [.ioPending, .exit (.other 4)] ]

example : Reach demoIo (fun b => b.1) (stepsOf demoIo 1 (start {} 1 [] 1)) ∧
    ((stepsOf demoIo 1 (start {} 1 [] 1)).pollOnce demoIo fun b => b.1).1 = some .waitingForIo :=
  ⟨reach_steps 1 (reach_start _ _ _ _ _) (by decide +kernel), by decide +kernel⟩

/-! ## C18 -/

/-- The clock never goes back. -/
theorem C18_clock_monotone {s s' : State B} (h : Reach poll prioOf s) (l : Leads poll prioOf s s') :
    s.clock ≤ s'.clock := (l.fwd h).clock

example : Reach demo14 (fun b => b.1) (at14 10) ∧ (at14 9).clock = 0 ∧ (at14 10).clock = 5 :=
  ⟨at14_reach 10 (by decide +kernel), by decide +kernel⟩

/-- A step moves the clock only when nothing is runnable, and then exactly to the earliest armed deadline;
every task with a timer due then becomes runnable. -/
theorem C18_idle_jump {s : State B} (h : Reach poll prioOf s)
    (hok : ∀ t st, nextStep poll s = some (t, st) → StepOk s t st)
    (hno : (s.pollOnce poll prioOf).2.crashed = false) :
    ((s.ready ≠ [] ∨ s.timers = []) → (s.pollOnce poll prioOf).2.clock = s.clock) ∧
    (s.ready = [] → s.timers ≠ [] →
      (∃ e ∈ s.timers, e.fireAt = (s.pollOnce poll prioOf).2.clock) ∧
      (∀ e ∈ s.timers, (s.pollOnce poll prioOf).2.clock ≤ e.fireAt) ∧
      ∀ e ∈ s.timers, e.fireAt = (s.pollOnce poll prioOf).2.clock →
        e.tid ∈ (s.pollOnce poll prioOf).2.ready) := by
  have k := kinds h.inv.1 hok hno
  have hin := (h.step hok hno).inv.1
  generalize (s.pollOnce poll prioOf).2 = s2 at *
  cases k with
  | idle hr ht => exact ⟨fun _ => rfl, fun _ hne => absurd ht hne⟩
  | advance m hr he hle hc hd e =>
    refine ⟨?_, fun _ _ => ?_⟩
    · rintro (h1 | h1)
      · exact absurd hr h1
      · rw [h1] at he; cases he
    · rw [hc]
      refine ⟨earliest_mem he, earliest_le he, ?_⟩
      intro e he1 he2
      exact (mem_ready hin _).mpr (hd e he1 he2)
  | poll i t ch sl hi ht hn hx hres hs hpre hok' =>
    refine ⟨fun _ => (process_fwd hpre).2.1, fun h1 => ?_⟩
    rw [h1] at hi; simp at hi

example : (at14 9).ready = [] ∧ (at14 9).timers = [⟨5, 2, none⟩] := by decide +kernel

/-- Never early and never late: a task that slept for `d` ticks is polled again exactly `d` ticks after the
poll that asked for it, and so is a task told that the timeout arm of its select fired. -/
theorem C18_sleep_exact {s : State B} (h : Reach poll prioOf s) {l1 l2 : List (Ev B)} {t clk clk' : Nat}
    {ctx : Ctx} {st st' : Step B} (hl : s.log = l1 ++ .poll t ctx st' clk' :: l2)
    (hp : lastPoll t l1 = some (st, clk)) :
    (∀ d, st = .sleep d → clk' = clk + d ∧ ctx = {}) ∧
    (∀ arms i d, st = .select arms → ctx.selected = some i → arms[i]? = some (.timeout d) → clk' = clk + d) := by
  refine ⟨?_, ?_⟩
  · rintro d rfl
    obtain ⟨s0, ⟨h0, hn, hx, hr⟩, e1, e2, hle⟩ := h.history hl
    subst e1
    simp only [Resumable, hp] at hx
    exact ⟨e2 ▸ hx.2.2, hx.2.1⟩
  · rintro arms i d rfl hi ha
    obtain ⟨j, hx | ⟨d', g1, g2, g3, g4⟩⟩ := C14_tasks_see_the_record h hl hp
    · exfalso
      obtain ⟨c, g1, g2 | g2⟩ := hx
      · obtain ⟨v, _, rfl⟩ := g2
        simp only [Option.some.injEq] at hi
        rw [hi, ha] at g1; cases g1
      · obtain ⟨_, rfl, _⟩ := g2
        simp only [Option.some.injEq] at hi
        rw [hi, ha] at g1; cases g1
    · rw [g3] at hi
      simp only [Option.some.injEq] at hi
      rw [hi, ha] at g1
      cases g1
      exact g4

example : pollsOf 2 (at14 11).log = [({}, .recv 0, 0), ({ resumed := .other 10 }, .select [.recv 0, .timeout 50], 0),
    ({ resumed := .other 11, selected := some 0 }, .tryRecv 0, 0), ({}, .sleep 5, 0), ({}, .exit (.other 3), 5)] := by decide +kernel

/-- Things happen in order of time: the times at which tasks were polled never decrease, and none lies in the
future. In particular timers fire in order of their deadlines. -/
theorem C18_polls_in_order {s : State B} (h : Reach poll prioOf s) :
    (pollTimes s.log).Pairwise (· ≤ ·) ∧ ∀ k ∈ pollTimes s.log, k ≤ s.clock := h.times

example : pollTimes (at14 12).log = [0, 0, 0, 0, 0, 0, 0, 0, 0, 5, 5] := by decide +kernel

/-- No timer is armed in the past. -/
theorem C18_no_overdue_timer {s : State B} (h : Reach poll prioOf s) : ∀ e ∈ s.timers, s.clock ≤ e.fireAt :=
  h.inv.1.core.timers

/-- Timers due at the same time fire in an order the chooser picks, not in the order they were set: here the
task that went to sleep first is polled second. -/
theorem C18_ties_follow_chooser : ∃ seed,
    ((stepsOf demo16 9 (start {} seed [none, none] 3)).log.filterMap fun e => match e with
      | .poll t _ _ clk => if clk = 3 then some t else none
      | _ => none).take 3 ≠
    ((stepsOf demo16 9 (start {} seed [none, none] 3)).log.filterMap fun e => match e with
      | .poll t _ (.sleep _) _ => some t
      | _ => none) ∧ (stepsOf demo16 9 (start {} seed [none, none] 3)).clock = 3 := ⟨1, by decide +kernel⟩

/-! ## C19 -/

/-- A finished or aborted task is never polled again and keeps its result. Missing for the full property: a
task that aborts itself (excluded from `Reach`), see `C19_self_abort_fails`. -/
theorem C19_finished_never_polled_partial {s s' : State B} (h : Reach poll prioOf s) (l : Leads poll prioOf s s')
    {t : Nat} {r : Result} (hr : s.results t = some r) :
    s'.results t = some r ∧ pollsOf t s'.log = pollsOf t s.log := by
  have f := l.fwd h
  refine ⟨f.results _ _ hr, ?_⟩
  obtain ⟨evs, e1, e2⟩ := f.log
  rw [e1, pollsOf_append, e2 t (by rw [hr]; rfl), List.append_nil]

/-- Aborting takes effect at once: after the step, the target's result is "aborted". -/
theorem C19_abort_takes_effect_partial {s : State B} (h : Reach poll prioOf s) {t u : Nat}
    (hn : nextStep poll s = some (t, .abort u)) (hne : u ≠ t)
    (hno : (s.pollOnce poll prioOf).2.crashed = false) (hl : live s u) :
    (s.pollOnce poll prioOf).2.results u = some .aborted := abort_result h.inv.1 hn hne hno hl

/-- Waiters are told: nobody goes on waiting for a finished task, and a task polled after awaiting `u` was
given the value `u` completed with, or the empty value if `u` was aborted (or never existed). -/
theorem C19_waiters_told_partial {s : State B} (h : Reach poll prioOf s) :
    (∀ t u clk, live s t → t ∉ s.ready → lastPoll t s.log = some (.await u, clk) → s.results u = none) ∧
    ∀ (l1 l2 : List (Ev B)) (t u clk clk' : Nat) (ctx : Ctx) (st' : Step B), s.log = l1 ++ .poll t ctx st' clk' :: l2 →
      lastPoll t l1 = some (.await u, clk) →
      (∃ v, s.results u = some (.completed v) ∧ ctx = { resumed := v }) ∨
      (s.results u = some .aborted ∧ ctx = {}) ∨ (since t l1 = [.missing t u] ∧ ctx = {}) := by
  refine ⟨?_, ?_⟩
  · intro t u clk hl hr hp
    obtain ⟨st, clk', h1, h2⟩ := C15_blocked_for_a_reason h hl hr
    rw [hp] at h1
    simp only [Option.some.injEq, Prod.mk.injEq] at h1
    obtain ⟨rfl, rfl⟩ := h1
    exact h2.2
  · intro l1 l2 t u clk clk' ctx st' hl hp
    obtain ⟨s0, ⟨h0, hn, hx, hr⟩, e1, e2, hle⟩ := h.history hl
    subst e1
    simp only [Resumable, hp] at hx
    rcases hx with ⟨r, g1, g2, g3⟩ | ⟨g1, g2⟩
    · have := (hle.fwd h0).results u r g2
      cases r with
      | completed v => exact Or.inl ⟨v, this, g3⟩
      | aborted => exact Or.inr (Or.inl ⟨this, g3⟩)
    · exact Or.inr (Or.inr ⟨g1, g2⟩)

/-- The main task spawns a sleeper, aborts it and awaits it. -/
def demo19 : Pc → Ctx → Step Pc × Pc := play
  [ [.spawn (1, 0), .abort 1, .await 1, .exit (.other 9)], [.sleep 4, .exit (.other 3)] ]

example : Reach demo19 (fun b => b.1) (stepsOf demo19 2 (start {} 1 [] 1)) ∧
    nextStep demo19 (stepsOf demo19 2 (start {} 1 [] 1)) = some (0, .abort 1) ∧
    Reach demo19 (fun b => b.1) (stepsOf demo19 5 (start {} 1 [] 1)) ∧
    (stepsOf demo19 5 (start {} 1 [] 1)).results 1 = some .aborted ∧
    pollsOf 1 (stepsOf demo19 5 (start {} 1 [] 1)).log = [({}, .sleep 4, 0)] ∧
    (stepsOf demo19 5 (start {} 1 [] 1)).results 0 = some (.completed (.other 9)) :=
  ⟨reach_steps 2 (reach_start _ _ _ _ _) (by decide +kernel), by decide +kernel,
    reach_steps 5 (reach_start _ _ _ _ _) (by decide +kernel), by decide +kernel⟩

/-- A task that aborts itself runs on: it is reported aborted, and polled again afterwards. -/
def demoSelf : Pc → Ctx → Step Pc × Pc := play [ [.abort 0, .send 1 (.other 8), .exit (.other 1)] ]

theorem C19_self_abort_fails :
    (stepsOf demoSelf 1 (((State.init {} (.record 1 1 [])).addTask (0, 0) 0 true).addChan none)).results 0 = some .aborted ∧
    pollsOf 0 (stepsOf demoSelf 2 (((State.init {} (.record 1 1 [])).addTask (0, 0) 0 true).addChan none)).log =
      [({}, .abort 0, 0), ({}, .send 1 (.other 8), 0)] ∧
    ((stepsOf demoSelf 2 (((State.init {} (.record 1 1 [])).addTask (0, 0) 0 true).addChan none)).chan 1).queue = [.other 8] := by
  decide +kernel

/-! ## C69 -/

/-- First-in-first-out and round-robin scheduling is fair: a task with `k` others before it in the ready list
is polled within the next `k + 1` polls, whatever the other tasks do, unless it is aborted first. -/
theorem C69_fifo_fair {s s' : State B} (h : Reach poll prioOf s) (l : Leads poll prioOf s s') {evs : List (Ev B)} {t k : Nat}
    (hp : s.cfg.policy = .fifo ∨ s.cfg.policy = .roundRobin) (hk : s.ready[k]? = some t)
    (he : s'.log = s.log ++ evs) (hc : k < (pollTimes evs).length) :
    pollsOf t evs ≠ [] ∨ (s'.results t).isSome := by
  obtain ⟨evs', e1, h1⟩ := fifo_waits h l hp hk
  have : evs' = evs := List.append_cancel_left (e1.symm.trans he)
  subst this
  rcases h1 with h1 | h1 | ⟨j, _, h2⟩
  · exact Or.inl h1
  · exact Or.inr h1
  · omega

/-- What each policy picks: the first runnable task, the last one, one of the highest priority and among those
the first, or any one. -/
theorem C69_policy_pick {s : State B} {t : Nat} {st : Step B} (hn : nextStep poll s = some (t, st)) :
    t ∈ s.ready ∧
    ((s.cfg.policy = .fifo ∨ s.cfg.policy = .roundRobin) → s.ready.head? = some t) ∧
    (s.cfg.policy = .lifo → s.ready.getLast? = some t) ∧
    (s.cfg.policy = .priority → (∀ u ∈ s.ready, s.prio u ≤ s.prio t) ∧
      ∃ i : Nat, s.ready[i]? = some t ∧ ∀ j < i, ∀ u, s.ready[j]? = some u → s.prio u < s.prio t) :=
  ⟨next_mem hn, fun hp => next_fifo hp hn, fun hp => next_lifo hp hn, fun hp => next_priority hp hn⟩

/-- A task keeps the priority it was started with. -/
theorem C69_priority_kept {s s' : State B} (h : Reach poll prioOf s) (b : B) (m : Bool)
    (l : Leads poll prioOf (s.addTask b (prioOf b) m) s') : s'.prio s.nextId = prioOf b := by
  obtain ⟨sl, h2, _, h3⟩ := (l.fwd (.task b m h)).tasks s.nextId _ (upd_same _ _ _)
  simp only [State.prio, h2, h3]

example : (start {} 1 [none, none] 3).ready = [2, 3, 4] ∧ (start { policy := .priority } 1 [none, none] 3).prio 4 = 2 ∧
    (nextStep demo16 (start { policy := .priority } 1 [none, none] 3)).map (·.1) = some 4 ∧
    (pollTimes (stepsOf demo16 3 (start {} 1 [none, none] 3)).log).length = 3 := by decide +kernel

/-! ## C70 -/

/-- A seeded run never panics: however channels and tasks are created, steps taken and I/O woken, no internal
look-up fails and no clock overflows, provided tasks name existing channels, deadlines fit the clock, no task
aborts itself and no select names a channel twice. The states are then exactly those the other theorems
speak about. -/
theorem C70_no_panic {cfg : Config} {seed : Nat} {s : State B} (h : SeededRun poll prioOf cfg seed s) :
    s.crashed = false ∧ Reach poll prioOf s := by
  have key : Seeded s ∧ s.crashed = false ∧ Reach poll prioOf s := by
    induction h with
    | init => exact ⟨⟨_, _, _, rfl⟩, rfl, .init _ _⟩
    | chan cap _ ih => exact ⟨ih.1, ih.2.1, .chan cap ih.2.2⟩
    | task b m _ ih => exact ⟨ih.1, ih.2.1, .task b m ih.2.2⟩
    | step _ hok ih =>
      have hc := seeded_step (prioOf := prioOf) ih.1 ih.2.2.inv.1 ih.2.1 hok
      exact ⟨seeded_pollOnce ih.1, hc, .step ih.2.2 hok hc⟩
    | @wake s1 _ ih =>
      refine ⟨?_, (wakeIo_inv ih.2.2.inv.1).2.trans ih.2.1, .wake ih.2.2⟩
      obtain ⟨rng, sd, cs, hcs⟩ := ih.1
      refine ⟨rng, sd, cs, ?_⟩
      have := congrArg State.chooser (c_wakeIo s1 s1.chooser)
      rw [setc_self] at this
      rw [this]; exact hcs
  exact key.2

example : SeededRun demoIo (fun b => b.1) {} 1
    (((State.init {} (.record 1 1 [])).addTask (0, 0) 0 true).pollOnce demoIo fun b => b.1).2 :=
  .step (.task (0, 0) true .init) (fun t st e => by
    have : nextStep demoIo (((State.init {} (.record 1 1 [])).addTask ((0, 0) : Pc) 0 true)) = some (0, .ioPending) := by decide +kernel
    rw [this] at e
    cases e
    trivial)

end Verif.Props
