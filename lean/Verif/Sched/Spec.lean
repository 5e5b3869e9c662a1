import Verif.Sched.Model
/-!
# What a run of the scheduler is supposed to look like

Readings of the log, the registrations a task holds, what each step waits for, what each step may be
answered with, and which runs are considered.
-/

namespace Verif.Sched
variable {B : Type}

/-- The step task `t` returned when it was last polled, and when. -/
def lastPoll (t : Nat) (log : List (Ev B)) : Option (Step B × Nat) :=
  log.foldl (fun acc e => match e with
    | .poll t' _ st clk => if t' = t then some (st, clk) else acc
    | _ => acc) none

/-- What happened to task `t` since it was last polled. -/
def since (t : Nat) (log : List (Ev B)) : List (Ev B) :=
  log.foldl (fun acc e => match e with
    | .poll t' _ _ _ => if t' = t then [] else acc
    | .sent _ _ _ => acc
    | .accepted c t' p => if t' = t then acc ++ [.accepted c t' p] else acc
    | .got c t' v => if t' = t then acc ++ [.got c t' v] else acc
    | .missing t' u => if t' = t then acc ++ [.missing t' u] else acc) []

/-- The polls of task `t`. -/
def pollsOf (t : Nat) (log : List (Ev B)) : List (Ctx × Step B × Nat) :=
  log.filterMap fun e => match e with
    | .poll t' ctx st clk => if t' = t then some (ctx, st, clk) else none
    | _ => none

/-- The sends on channel `c`, with their senders, in the order the scheduler saw them. -/
def sentOn (c : Nat) (log : List (Ev B)) : List (Nat × Payload) :=
  log.filterMap fun e => match e with
    | .sent c' t p => if c' = c then some (t, p) else none
    | _ => none

/-- The values channel `c` accepted, with their senders, in order. -/
def acceptedOn (c : Nat) (log : List (Ev B)) : List (Nat × Payload) :=
  log.filterMap fun e => match e with
    | .accepted c' t p => if c' = c then some (t, p) else none
    | _ => none

/-- The values channel `c` handed out, with their receivers, in order. -/
def gotOn (c : Nat) (log : List (Ev B)) : List (Nat × Payload) :=
  log.filterMap fun e => match e with
    | .got c' t v => if c' = c then some (t, v) else none
    | _ => none

/-- Where a task is registered: how often in the ready list, in each channel's receivers, the values it
has parked on each channel, its timers (deadline and arm), and in each task's awaiters. -/
@[ext] structure Reg where
  ready : Nat := 0
  recv : Nat → Nat := fun _ => 0
  send : Nat → List Payload := fun _ => []
  timers : List (Nat × Option Nat) := []
  awaits : Nat → Nat := fun _ => 0

/-- The registrations of task `t`. -/
def regOf (s : State B) (t : Nat) : Reg where
  ready := s.ready.count t
  recv c := (s.chan c).receivers.count t
  send c := ((s.chan c).senders.filter (·.1 = t)).map (·.2)
  timers := (s.timers.filter (·.tid = t)).map fun e => (e.fireAt, e.arm)
  awaits u := (s.awaiters u).count t

/-- The deadlines of the timeout arms of a select issued at time `clk`. -/
def armTimers (clk : Nat) : Nat → List Arm → List (Nat × Option Nat)
  | _, [] => []
  | i, .recv _ :: as => armTimers clk (i + 1) as
  | i, .timeout d :: as => (clk + d, some i) :: armTimers clk (i + 1) as

/-- What a task blocked by the step it returned at time `clk` must be registered with. -/
def waitReg (clk : Nat) : Step B → Reg
  | .recv c => { recv := fun c' => if c' = c then 1 else 0 }
  | .send c p => { send := fun c' => if c' = c then [p] else [] }
  | .select arms => { recv := fun c => arms.count (.recv c), timers := armTimers clk 0 arms }
  | .sleep d => { timers := [(clk + d, none)] }
  | .await u => { awaits := fun u' => if u' = u then 1 else 0 }
  | _ => {}

/-- The blocked state a step leads to. -/
def waitState : Step B → Option TState
  | .recv _ => some .blockedRecv
  | .send _ _ => some .blockedSend
  | .select _ => some .blockedSelect
  | .sleep _ => some .blockedTimer
  | .await _ => some .blockedAwait
  | .ioPending => some .blockedIo
  | _ => none

/-- Is channel `c` closed? -/
def closedIn (s : State B) (c : Nat) : Prop := ∃ ch, s.chans c = some ch ∧ ch.closed = true

/-- The ways a step returned at time `clk` by task `t` can be answered: `evs` is what happened to the task
since, `ctx` what it is resumed with. -/
def Answer (s : State B) (t : Nat) (clk : Nat) (evs : List (Ev B)) (ctx : Ctx) : Step B → Prop
  | .yield => evs = [] ∧ ctx = {}
  | .abort _ => evs = [] ∧ ctx = {}
  | .close c => evs = [] ∧ ctx = {} ∧ closedIn s c
  | .ioPending => evs = [] ∧ ctx = {}
  | .exit _ => False
  | .send c p => evs = [.accepted c t p] ∧ ctx = {}
  | .trySend c p =>
    (evs = [.accepted c t p] ∧ ctx = { resumed := .bool true }) ∨
    (evs = [] ∧ ctx = { resumed := .bool false })
  | .recv c =>
    (∃ v, evs = [.got c t v] ∧ ctx = { resumed := v }) ∨ (evs = [] ∧ ctx = {} ∧ closedIn s c)
  | .tryRecv c => (∃ v, evs = [.got c t v] ∧ ctx = { resumed := v }) ∨ (evs = [] ∧ ctx = {})
  | .select arms => ∃ i,
    (∃ c, arms[i]? = some (.recv c) ∧
      ((∃ v, evs = [.got c t v] ∧ ctx = { resumed := v, selected := some i }) ∨
       (evs = [] ∧ ctx = { selected := some i } ∧ closedIn s c))) ∨
    (∃ d, arms[i]? = some (.timeout d) ∧ evs = [] ∧ ctx = { selected := some i } ∧ s.clock = clk + d)
  | .sleep d => evs = [] ∧ ctx = {} ∧ s.clock = clk + d
  | .newChan cap => ∃ id ch, evs = [] ∧ ctx = { newChan := some id } ∧ s.chans id = some ch ∧
    ch.cap = some (cap.getD s.cfg.defaultCap)
  | .spawn _ => ∃ id sl, evs = [] ∧ ctx = { spawned := some id } ∧ s.tasks id = some sl
  | .await u =>
    (∃ r, evs = [] ∧ s.results u = some r ∧ ctx = { resumed := r.payload }) ∨
    (evs = [.missing t u] ∧ ctx = {})

/-- A step the properties speak about: it names existing channels, its deadline fits 64 bits, it does not
abort the task itself, and a select names no channel twice. -/
def StepOk (s : State B) (t : Nat) : Step B → Prop
  | .send c _ => (s.chans c).isSome
  | .trySend c _ => (s.chans c).isSome
  | .recv c => (s.chans c).isSome
  | .tryRecv c => (s.chans c).isSome
  | .close c => (s.chans c).isSome
  | .sleep d => s.clock + d < 2 ^ 64
  | .abort u => u ≠ t
  | .select arms =>
    (∀ c, .recv c ∈ arms → (s.chans c).isSome) ∧ (∀ d, .timeout d ∈ arms → s.clock + d < 2 ^ 64) ∧
    ∀ c, arms.count (.recv c) ≤ 1
  | _ => True

/-- The step the task picked next would return, if a task is picked. -/
def nextStep (poll : B → Ctx → Step B × B) (s : State B) : Option (Nat × Step B) :=
  match s.ready with
  | [] => none
  | _ :: _ =>
    match s.pickReady.1 with
    | none => none
    | some t =>
      match s.pickReady.2.tasks t with
      | none => none
      | some sl => some (t, (poll sl.body sl.ctx).1)

/-- The states reached by creating channels and tasks, taking scheduler steps and waking I/O tasks, in any
order, from an empty scheduler, as long as every step taken is `StepOk` and nothing has crashed. -/
inductive Reach (poll : B → Ctx → Step B × B) (prioOf : B → Nat) : State B → Prop
  | init (cfg : Config) (ch : Chooser) : Reach poll prioOf (State.init cfg ch)
  | chan {s : State B} (cap : Option Nat) : Reach poll prioOf s → Reach poll prioOf (s.addChan cap)
  | task {s : State B} (b : B) (main : Bool) : Reach poll prioOf s →
      Reach poll prioOf (s.addTask b (prioOf b) main)
  | step {s : State B} : Reach poll prioOf s →
      (∀ t st, nextStep poll s = some (t, st) → StepOk s t st) →
      (s.pollOnce poll prioOf).2.crashed = false → Reach poll prioOf (s.pollOnce poll prioOf).2
  | wake {s : State B} : Reach poll prioOf s → Reach poll prioOf s.wakeIo

/-- The states a run can go on to from `s`. -/
inductive Leads (poll : B → Ctx → Step B × B) (prioOf : B → Nat) (s : State B) : State B → Prop
  | refl : Leads poll prioOf s s
  | chan {s' : State B} (cap : Option Nat) : Leads poll prioOf s s' → Leads poll prioOf s (s'.addChan cap)
  | task {s' : State B} (b : B) (main : Bool) : Leads poll prioOf s s' →
      Leads poll prioOf s (s'.addTask b (prioOf b) main)
  | step {s' : State B} : Leads poll prioOf s s' →
      (∀ t st, nextStep poll s' = some (t, st) → StepOk s' t st) →
      (s'.pollOnce poll prioOf).2.crashed = false → Leads poll prioOf s (s'.pollOnce poll prioOf).2
  | wake {s' : State B} : Leads poll prioOf s s' → Leads poll prioOf s s'.wakeIo

/-- As `Reach`, from a seeded start, without assuming that nothing crashes. -/
inductive SeededRun (poll : B → Ctx → Step B × B) (prioOf : B → Nat) (cfg : Config) (seed : Nat) : State B → Prop
  | init : SeededRun poll prioOf cfg seed (State.init cfg (.record seed seed []))
  | chan {s : State B} (cap : Option Nat) : SeededRun poll prioOf cfg seed s →
      SeededRun poll prioOf cfg seed (s.addChan cap)
  | task {s : State B} (b : B) (main : Bool) : SeededRun poll prioOf cfg seed s →
      SeededRun poll prioOf cfg seed (s.addTask b (prioOf b) main)
  | step {s : State B} : SeededRun poll prioOf cfg seed s →
      (∀ t st, nextStep poll s = some (t, st) → StepOk s t st) →
      SeededRun poll prioOf cfg seed (s.pollOnce poll prioOf).2
  | wake {s : State B} : SeededRun poll prioOf cfg seed s → SeededRun poll prioOf cfg seed s.wakeIo

/-- What the owner of a scheduler can do. -/
inductive Cmd (B : Type) where
  | chan (cap : Option Nat)
  | task (b : B) (main : Bool)
  | slice (n : Nat)
  | wake

/-- One command: what it returns and the new state. -/
def Cmd.exec (poll : B → Ctx → Step B × B) (prioOf : B → Nat) : Cmd B → State B → Option State.Outcome × State B
  | .chan cap, s => (none, s.addChan cap)
  | .task b m, s => (none, s.addTask b (prioOf b) m)
  | .slice n, s => s.runSlice poll prioOf n
  | .wake, s => (none, s.wakeIo)

/-- Commands in turn: everything returned, and the last state. -/
def execAll (poll : B → Ctx → Step B × B) (prioOf : B → Nat) : List (Cmd B) → State B →
    List (Option State.Outcome) × State B
  | [], s => ([], s)
  | c :: cs, s =>
    ((c.exec poll prioOf s).1 :: (execAll poll prioOf cs (c.exec poll prioOf s).2).1,
      (execAll poll prioOf cs (c.exec poll prioOf s).2).2)

/-- Task `t` exists and has not finished. -/
def live (s : State B) (t : Nat) : Prop := (s.tasks t).isSome ∧ s.results t = none

/-- A task that returned this step cannot go on by itself: what it waits for has not happened, and no
clock or outside event will make it happen. -/
def Stuck (s : State B) : Step B → Prop
  | .recv c => (s.chan c).queue = [] ∧ (s.chan c).senders = [] ∧ (s.chan c).closed = false
  | .send c _ => ∃ n, (s.chan c).cap = some n ∧ n ≤ (s.chan c).queue.length
  | .select arms => ∀ a ∈ arms, ∃ c, a = .recv c ∧
      (s.chan c).queue = [] ∧ (s.chan c).senders = [] ∧ (s.chan c).closed = false
  | .await u => live s u
  | _ => False

/-- The times of all polls, in order. -/
def pollTimes (log : List (Ev B)) : List Nat :=
  log.filterMap fun e => match e with
    | .poll _ _ _ clk => some clk
    | _ => none

/-- All polls, in order: who, with what context, with what step as answer. -/
def allPolls (log : List (Ev B)) : List (Nat × Ctx × Step B) :=
  log.filterMap fun e => match e with
    | .poll t ctx st _ => some (t, ctx, st)
    | _ => none

end Verif.Sched
