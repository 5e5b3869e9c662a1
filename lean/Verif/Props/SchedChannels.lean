import Verif.Sched.Fair
import Verif.Sched.Demo
/-!
# C14, C15: channels and the ready list of the scheduler

`Reach poll prioOf s` (in `Sched/Spec.lean`): `s` is reached from an empty scheduler by creating channels and
tasks, taking scheduler steps and waking I/O tasks in any order; task bodies (`poll`), policy, seed or replayed
trace are arbitrary. The log of a state says what happened: `sentOn c`, `acceptedOn c` and `gotOn c` are the
values sent on, accepted by and handed out by channel `c`, in order, with the task concerned.
-/

namespace Verif.Props
open Verif.Sched
variable {B : Type} {poll : B → Ctx → Step B × B} {prioOf : B → Nat}

/-- A program for the examples: the main task sends three values into a channel of capacity one and awaits
a child, which receives one, selects with a timeout, tries to receive and sleeps. -/
def demo14 : Pc → Ctx → Step Pc × Pc := play
  [ [.spawn (1, 0), .send 0 (.other 10), .send 0 (.other 11), .send 0 (.other 12), .await 2, .exit (.other 7)],
    [.recv 0, .select [.recv 0, .timeout 50], .tryRecv 0, .sleep 5, .exit (.other 3)] ]

/-- The states of the example program after `n` steps. -/
def at14 (n : Nat) : State Pc := stepsOf demo14 n (start {} 1 [some 1] 1)

theorem at14_reach (n : Nat) (h : fineFor demo14 n (start {} 1 [some 1] 1) = true) :
    Reach demo14 (fun b => b.1) (at14 n) := reach_steps n (reach_start _ _ _ _ _) h

/-! ## C14 -/

/-- Values leave in the order they were accepted, and none is duplicated or dropped on the way: what was
handed out, followed by what is buffered, is what was accepted. -/
theorem C14_first_in_first_out {s : State B} (h : Reach poll prioOf s) (c : Nat) :
    (acceptedOn c s.log).map (·.2) = (gotOn c s.log).map (·.2) ++ (s.chan c).queue :=
  (h.inv.1.ledger c).values

example : Reach demo14 (fun b => b.1) (at14 7) ∧ (acceptedOn 0 (at14 7).log).map (·.2) = [.other 10, .other 11, .other 12] ∧
    (gotOn 0 (at14 7).log) = [(2, .other 10), (2, .other 11)] ∧ ((at14 7).chan 0).queue = [.other 12] :=
  ⟨at14_reach 7 (by decide +kernel), by decide +kernel⟩

/-- No send is lost: apart from tasks that were aborted, what was sent is what was accepted followed by what
is parked waiting for room; and in every case accepting keeps the order of sending. -/
theorem C14_no_send_lost {s : State B} (h : Reach poll prioOf s) (c : Nat) :
    (sentOn c s.log).filter (fun x => s.results x.1 ≠ some .aborted) =
      (acceptedOn c s.log ++ (s.chan c).senders).filter (fun x => s.results x.1 ≠ some .aborted) ∧
    (acceptedOn c s.log ++ (s.chan c).senders).Sublist (sentOn c s.log) :=
  ⟨(h.inv.1.ledger c).live, (h.inv.1.ledger c).order⟩

example : Reach demo14 (fun b => b.1) (at14 5) ∧ sentOn 0 (at14 5).log = [(1, .other 10), (1, .other 11)] ∧
    acceptedOn 0 (at14 5).log = [(1, .other 10), (1, .other 11)] :=
  ⟨at14_reach 5 (by decide +kernel), by decide +kernel⟩

/-- The sends on record are exactly the sends the tasks made: a step adds the value the polled task sends,
a try-send only if it succeeds, and nothing else is added. -/
theorem C14_sends_recorded {s : State B} (h : Reach poll prioOf s)
    (hok : ∀ t st, nextStep poll s = some (t, st) → StepOk s t st)
    (hno : (s.pollOnce poll prioOf).2.crashed = false) (c : Nat) :
    sentOn c (s.pollOnce poll prioOf).2.log = sentOn c s.log ++ (match nextStep poll s with
      | some (t, .send c' p) => if c' = c then [(t, p)] else []
      | some (t, .trySend c' p) =>
        if c' = c ∧ ((s.chan c').receivers ≠ [] ∨ (s.chan c').hasRoom = true) then [(t, p)] else []
      | _ => []) := step_sent h.inv.1 hok hno c

example : Reach demo14 (fun b => b.1) (at14 2) ∧ nextStep demo14 (at14 2) = some (1, .send 0 (.other 10)) ∧
    ((at14 2).pollOnce demo14 fun b => b.1).2.crashed = false :=
  ⟨at14_reach 2 (by decide +kernel), by decide +kernel⟩

/-- The number of buffered values never exceeds the channel's capacity, and the capacity is the one the
channel was created with: later states have the same one. -/
theorem C14_bounded {s s' : State B} (h : Reach poll prioOf s) (l : Leads poll prioOf s s') {c n : Nat} {ch : Chan}
    (hc : s.chans c = some ch) (hn : ch.cap = some n) :
    ∃ ch', s'.chans c = some ch' ∧ ch'.cap = some n ∧ ch'.queue.length ≤ n := by
  obtain ⟨ch', h1, h2, _⟩ := (l.fwd h).chans c ch hc
  refine ⟨ch', h1, h2.trans hn, ?_⟩
  have := ((h.leads l).inv.1.chans c).bound n
  rw [chan_some h1] at this
  exact this (h2.trans hn)

example : Reach demo14 (fun b => b.1) (at14 7) ∧ ((at14 7).chan 0).cap = some 1 ∧ ((at14 7).chan 0).queue.length = 1 :=
  ⟨at14_reach 7 (by decide +kernel), by decide +kernel⟩

/-- What tasks observe is what the record says. Whenever a task is polled again after `recv c` it is given
exactly one value, the one channel `c` handed to it since, or it is told that the channel is closed; after
`send c p` the value has been accepted exactly once; after `try_send` the answer says whether it was accepted;
after `select` it is given the value of the arm it is told about, or that arm's channel is closed or its
timeout has passed. -/
theorem C14_tasks_see_the_record {s : State B} (h : Reach poll prioOf s) {l1 l2 : List (Ev B)} {t clk clk' : Nat}
    {ctx : Ctx} {st st' : Step B} (hl : s.log = l1 ++ .poll t ctx st' clk' :: l2)
    (hp : lastPoll t l1 = some (st, clk)) :
    match (generalizing := false) st with
    | .recv c => (∃ v, since t l1 = [.got c t v] ∧ ctx = { resumed := v }) ∨
        (since t l1 = [] ∧ ctx = {} ∧ closedIn s c)
    | .tryRecv c => (∃ v, since t l1 = [.got c t v] ∧ ctx = { resumed := v }) ∨ (since t l1 = [] ∧ ctx = {})
    | .send c p => since t l1 = [.accepted c t p] ∧ ctx = {}
    | .trySend c p => (since t l1 = [.accepted c t p] ∧ ctx = { resumed := .bool true }) ∨
        (since t l1 = [] ∧ ctx = { resumed := .bool false })
    | .select arms => ∃ i,
        (∃ c, arms[i]? = some (.recv c) ∧
          ((∃ v, since t l1 = [.got c t v] ∧ ctx = { resumed := v, selected := some i }) ∨
           (since t l1 = [] ∧ ctx = { selected := some i } ∧ closedIn s c))) ∨
        (∃ d, arms[i]? = some (.timeout d) ∧ since t l1 = [] ∧ ctx = { selected := some i } ∧ clk' = clk + d)
    | .exit _ => False
    | _ => ∀ c v p, .got c t v ∉ since t l1 ∧ .accepted c t p ∉ since t l1 := by
  obtain ⟨s0, ⟨h0, hn, hx, hr⟩, e1, e2, hle⟩ := h.history hl
  have hcl : ∀ c, closedIn s0 c → closedIn s c := by
    rintro c ⟨ch, q1, q2⟩
    obtain ⟨ch', g1, _, g3⟩ := (hle.fwd h0).chans c ch q1
    exact ⟨ch', g1, g3 q2⟩
  subst e1
  simp only [Resumable, hp] at hx
  cases st with
  | recv c =>
    rcases hx with hx | ⟨x1, x2, x3⟩
    · exact Or.inl hx
    · exact Or.inr ⟨x1, x2, hcl c x3⟩
  | tryRecv c => exact hx
  | send c p => exact hx
  | trySend c p => exact hx
  | select arms =>
    obtain ⟨i, hx⟩ := hx
    refine ⟨i, ?_⟩
    rcases hx with ⟨c, a1, a2⟩ | ⟨d, a1, a2, a3, a4⟩
    · refine Or.inl ⟨c, a1, ?_⟩
      rcases a2 with a2 | ⟨x1, x2, x3⟩
      · exact Or.inl a2
      · exact Or.inr ⟨x1, x2, hcl c x3⟩
    · exact Or.inr ⟨d, a1, a2, a3, e2 ▸ a4⟩
  | exit v => exact hx
  | yield => intro c v p; rw [hx.1]; simp
  | abort u => intro c v p; rw [hx.1]; simp
  | close k => intro c v p; rw [hx.1]; simp
  | ioPending => intro c v p; rw [hx.1]; simp
  | sleep d => intro c v p; rw [hx.1]; simp
  | newChan cap => obtain ⟨id, ch, hx⟩ := hx; intro c v p; rw [hx.1]; simp
  | spawn b => obtain ⟨id, sl, hx⟩ := hx; intro c v p; rw [hx.1]; simp
  | await u =>
    intro c v p
    rcases hx with ⟨r, hx⟩ | hx
    · rw [hx.1]; simp
    · rw [hx.1]; simp

example : Reach demo14 (fun b => b.1) (at14 7) ∧
    pollsOf 2 (at14 7).log = [({}, .recv 0, 0), ({ resumed := .other 10 }, .select [.recv 0, .timeout 50], 0),
      ({ resumed := .other 11, selected := some 0 }, .tryRecv 0, 0)] :=
  ⟨at14_reach 7 (by decide +kernel), by decide +kernel⟩

/-- A sender is parked only while the channel is full and a receiver only while it is empty and open; so no
value waits in a channel while a task waits to receive from it. -/
theorem C14_no_missed_meeting {s : State B} (h : Reach poll prioOf s) (c : Nat) :
    ((s.chan c).receivers ≠ [] → (s.chan c).queue = [] ∧ (s.chan c).senders = [] ∧ (s.chan c).closed = false) ∧
    ((s.chan c).senders ≠ [] → ∃ n, (s.chan c).cap = some n ∧ (s.chan c).queue.length = n) := by
  refine ⟨(h.inv.1.chans c).recv, ?_⟩
  intro hs
  obtain ⟨n, h1, h2⟩ := hasRoom_false ((h.inv.1.chans c).send hs)
  exact ⟨n, h1, Nat.le_antisymm ((h.inv.1.chans c).bound n h1) h2⟩

example : Reach demo14 (fun b => b.1) (at14 4) ∧ ((at14 4).chan 0).receivers = [2] := ⟨at14_reach 4 (by decide +kernel), by decide +kernel⟩

/-- A program with a select that names one channel twice. -/
def dupArm : Pc → Ctx → Step Pc × Pc := play
  [ [.spawn (1, 0), .spawn (2, 0), .send 0 (.other 1), .exit (.other 7)],
    [.select [.recv 0, .recv 0], .tryRecv 0, .exit .nothing],
    [.yield, .send 0 (.other 2), .exit .nothing] ]

/-- A select naming one channel twice loses values: one task sends 1 and another 2, both sends are accepted, the
run completes with an empty channel, but no task is ever handed the value 1. -/
theorem C14_duplicate_arm_fails :
    ((start {} 1 [none] 1).runSlice dupArm (fun b => b.1) 20).1 = some (.done (.other 7)) ∧
    (acceptedOn 0 ((start {} 1 [none] 1).runSlice dupArm (fun b => b.1) 20).2.log).map (·.2) = [.other 1, .other 2] ∧
    (((start {} 1 [none] 1).runSlice dupArm (fun b => b.1) 20).2.chan 0).queue = [] ∧
    ∀ t, t < 5 → ∀ q ∈ pollsOf t ((start {} 1 [none] 1).runSlice dupArm (fun b => b.1) 20).2.log,
      q.1.resumed ≠ .other 1 := by decide +kernel

/-! ## C15 -/

/-- Where every task is registered, at every point of every run: nowhere if it does not exist or has
finished; in the ready list, once, and nowhere else, if it is runnable; and exactly with what the step it last
returned waits for if it is blocked (`waitReg`): the channel of a `recv`, once; the value of a `send`, once;
every channel and timeout of a `select`, once each; the deadline of a `sleep`; the awaited task. -/
theorem C15_registrations {s : State B} (h : Reach poll prioOf s) (t : Nat) :
    (s.tasks t = none ∧ regOf s t = {}) ∨
    ((s.results t).isSome ∧ s.stateOf t = some .done ∧ regOf s t = {}) ∨
    (live s t ∧ s.stateOf t = some .ready ∧ regOf s t = { ready := 1 }) ∨
    (live s t ∧ ∃ st clk, lastPoll t s.log = some (st, clk) ∧ since t s.log = [] ∧
      (waitState st).isSome ∧ s.stateOf t = waitState st ∧ regOf s t = waitReg clk st) :=
  registrations h.inv.1 t

example : Reach demo14 (fun b => b.1) (at14 9) ∧ (at14 9).stateOf 2 = some .blockedTimer ∧
    (regOf (at14 9) 2).timers = [(5, none)] := ⟨at14_reach 9 (by decide +kernel), by decide +kernel⟩

/-- The ready list has no duplicates and holds exactly the runnable tasks; and runnable tasks are unfinished. -/
theorem C15_ready_exact {s : State B} (h : Reach poll prioOf s) :
    s.ready.Nodup ∧ (∀ t, t ∈ s.ready ↔ s.stateOf t = some .ready) ∧ ∀ t ∈ s.ready, live s t :=
  ⟨ready_nodup h.inv.1, mem_ready h.inv.1, fun t ht => ready_live h.inv.1 ((mem_ready h.inv.1 t).mp ht)⟩

example : Reach demo14 (fun b => b.1) (at14 1) ∧ (at14 1).ready = [2, 1] := ⟨at14_reach 1 (by decide +kernel), by decide +kernel⟩

/-- No wake-up is missed: a task that is not runnable waits for something that has not happened. A receiver's
channel is empty and open, a sender's is full, an awaited task is unfinished, every channel of a select is
empty and open, and the deadlines of a sleep or of a select's timeouts have not passed and are armed. -/
theorem C15_blocked_for_a_reason {s : State B} (h : Reach poll prioOf s) {t : Nat} (hl : live s t) (hr : t ∉ s.ready) :
    ∃ st clk, lastPoll t s.log = some (st, clk) ∧ match st with
    | .recv c => (s.chan c).queue = [] ∧ (s.chan c).senders = [] ∧ (s.chan c).closed = false
    | .send c _ => ∃ n, (s.chan c).cap = some n ∧ n ≤ (s.chan c).queue.length
    | .select arms => (∀ c, .recv c ∈ arms →
        (s.chan c).queue = [] ∧ (s.chan c).senders = [] ∧ (s.chan c).closed = false) ∧
        ∀ d, .timeout d ∈ arms → s.clock ≤ clk + d ∧ ∃ e ∈ s.timers, e.tid = t ∧ e.fireAt = clk + d
    | .sleep d => s.clock ≤ clk + d ∧ ∃ e ∈ s.timers, e.tid = t ∧ e.fireAt = clk + d
    | .await u => live s u
    | .ioPending => True
    | _ => False := by
  rcases registrations h.inv.1 t with ⟨h1, _⟩ | ⟨h1, _⟩ | ⟨_, h1, _⟩ | ⟨_, st, clk, h1, _, h2, _, h3⟩
  · have := hl.1; rw [h1] at this; cases this
  · rw [hl.2] at h1; cases h1
  · exact absurd ((mem_ready h.inv.1 t).mpr h1) hr
  · refine ⟨st, clk, h1, ?_⟩
    have := blocked_reason h.inv.1 h2 h3
    cases st <;> first | exact this | (simp [waitState] at h2)

example : Reach demo14 (fun b => b.1) (at14 9) ∧ (at14 9).ready = [] ∧ (at14 9).results 1 = none ∧
    ((at14 9).tasks 1).isSome ∧ lastPoll 1 (at14 9).log = some (.await 2, 0) :=
  ⟨at14_reach 9 (by decide +kernel), by decide +kernel⟩

/-- With a channel named twice in a select, a task can be in the ready list twice. -/
theorem C15_duplicate_arm_fails :
    ((start {} 1 [none] 1).runSlice dupArm (fun b => b.1) 6).2.ready.count 2 = 2 ∧
    ((start {} 1 [none] 1).runSlice dupArm (fun b => b.1) 6).2.crashed = false := by decide +kernel

end Verif.Props
