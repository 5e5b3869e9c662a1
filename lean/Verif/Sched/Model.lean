/-!
# The task scheduler

Models `crates/logicaffeine_runtime/src/{scheduler,channel,task,seed,config}.rs`.

* A `HashMap` keyed by task or channel ids is a function to `Option`; the code's iterations over such a
  map are either order-insensitive or sorted, and every id in use is below `nextId`, so an iteration is
  over `List.range nextId`.
* `crashed` is set where the code panics (an unknown id, a replay that diverges, a clock overflow).
* `log` is not in the code: it records what happened, for the statements. Nothing reads it.
* A task body is a value of an arbitrary type `B` with a `poll` function: body and context in, step and
  next body out.
-/

namespace Verif.Sched

/-- `RtPayload` (`payload.rs:20-118`). The scheduler itself only creates `Nothing` and `Bool`; all other
values pass through untouched and are numbered. -/
inductive Payload where
  | nothing
  | bool (b : Bool)
  | other (n : Nat)
  deriving DecidableEq, Repr

/-- `SelectArm` (`task.rs:19-24`). -/
inductive Arm where
  | recv (c : Nat)
  | timeout (d : Nat)
  deriving DecidableEq, Repr

/-- `TaskStep` (`task.rs:27-77`). A spawned child is its body. `SpawnDesc` is the work-stealing form of
`spawn` (see `Steal.lean`). -/
inductive Step (B : Type) where
  | yield
  | recv (c : Nat)
  | send (c : Nat) (p : Payload)
  | trySend (c : Nat) (p : Payload)
  | tryRecv (c : Nat)
  | select (arms : List Arm)
  | sleep (d : Nat)
  | newChan (cap : Option Nat)
  | spawn (child : B)
  | await (u : Nat)
  | abort (u : Nat)
  | close (c : Nat)
  | ioPending
  | exit (p : Payload)
  deriving DecidableEq, Repr

/-- `TaskCtx` (`task.rs:80-90`): what a task is resumed with. -/
structure Ctx where
  resumed : Payload := .nothing
  selected : Option Nat := none
  newChan : Option Nat := none
  spawned : Option Nat := none
  deriving DecidableEq, Repr

/-- `Chan` (`channel.rs:18-30`). -/
structure Chan where
  cap : Option Nat
  queue : List Payload := []
  senders : List (Nat × Payload) := []
  receivers : List Nat := []
  closed : Bool := false
  deriving DecidableEq, Repr

/-- `Chan::has_room` (`channel.rs:44-49`). -/
def Chan.hasRoom (ch : Chan) : Bool :=
  match ch.cap with
  | none => true
  | some cap => decide (ch.queue.length < cap)

/-- `Chan::can_recv` (`channel.rs:53-55`). -/
def Chan.canRecv (ch : Chan) : Bool := !ch.queue.isEmpty || !ch.senders.isEmpty || ch.closed

/-- `TaskState` (`scheduler.rs:32-41`). -/
inductive TState where
  | ready | blockedRecv | blockedSend | blockedSelect | blockedTimer | blockedAwait | blockedIo | done
  deriving DecidableEq, Repr

/-- `TaskSlot` (`scheduler.rs:123-135`). -/
structure Slot (B : Type) where
  body : B
  priority : Nat
  resume : Payload := .nothing
  selectedArm : Option Nat := none
  selectArms : Option (List Arm) := none
  resumeChan : Option Nat := none
  resumeTask : Option Nat := none
  state : TState := .ready
  isMain : Bool

/-- The context built from a slot (`scheduler.rs:283-288`). -/
def Slot.ctx {B : Type} (sl : Slot B) : Ctx := ⟨sl.resume, sl.selectedArm, sl.resumeChan, sl.resumeTask⟩

/-- `TimerEntry` (`scheduler.rs:137-142`). -/
structure Timer where
  fireAt : Nat
  tid : Nat
  arm : Option Nat
  deriving DecidableEq, Repr

/-- `AwaitResult` (`scheduler.rs:106-110`). -/
inductive Result where
  | completed (p : Payload)
  | aborted
  deriving DecidableEq, Repr

/-- `AwaitResult::payload` (`scheduler.rs:112-119`). -/
def Result.payload : Result → Payload
  | .completed p => p
  | .aborted => .nothing

/-- `ChoiceKind` (`seed.rs:53-64`). -/
inductive Kind where
  | taskPick | selectWinner | chanWaiterWake | timerTieBreak | workerPlacement
  deriving DecidableEq, Repr

/-- `ChoicePoint` (`seed.rs:70-77`). -/
structure Choice where
  kind : Kind
  options : Nat
  chosen : Nat
  deriving DecidableEq, Repr

/-- `SeededRng::next_u64` (`seed.rs:34-40`): new state and drawn value. -/
def nextU64 (state : Nat) : Nat × Nat :=
  let s := (state + 0x9E3779B97F4A7C15) % 2 ^ 64
  let z := ((s ^^^ (s >>> 30)) * 0xBF58476D1CE4E5B9) % 2 ^ 64
  let z := ((z ^^^ (z >>> 27)) * 0x94D049BB133111EB) % 2 ^ 64
  (s, z ^^^ (z >>> 31))

/-- `SeededRng::below` (`seed.rs:43-48`): chosen index and new state. -/
def below (state n : Nat) : Nat × Nat :=
  if n ≤ 1 then (0, state) else ((nextU64 state).2 % n, (nextU64 state).1)

/-- `Chooser` (`seed.rs:93-104`). -/
inductive Chooser where
  | record (rng seed : Nat) (choices : List Choice)
  | replay (seed : Nat) (trace : List Choice) (pos : Nat)
  deriving DecidableEq, Repr

/-- `Chooser::decide` (`seed.rs:126-153`); `none` is the divergence panic. -/
def Chooser.decide : Chooser → Kind → Nat → Option (Nat × Chooser)
  | .record rng seed choices, kind, options =>
    some ((below rng options).1,
      .record (below rng options).2 seed (choices ++ [⟨kind, options, (below rng options).1⟩]))
  | .replay seed trace pos, kind, options =>
    match trace[pos]? with
    | none => none
    | some cp =>
      if cp.kind = kind ∧ cp.options = options then some (cp.chosen, .replay seed trace (pos + 1)) else none

/-- `Chooser::into_trace` (`seed.rs:156-161`). -/
def Chooser.trace : Chooser → Nat × List Choice
  | .record _ seed choices => (seed, choices)
  | .replay seed trace _ => (seed, trace)

/-- `SchedulePolicy` (`config.rs:12-24`). -/
inductive Policy where
  | fifo | lifo | roundRobin | random | priority
  deriving DecidableEq, Repr

/-- The parts of `SchedulerConfig` the scheduler reads (`config.rs:45-57`). -/
structure Config where
  policy : Policy := .fifo
  defaultCap : Nat := 32
  deriving DecidableEq, Repr

/-- What happened (ghost): a poll with its context, step and time; a send reaching the scheduler; a value
accepted by a channel; a value handed to a receiver; an await on an unknown id. -/
inductive Ev (B : Type) where
  | poll (t : Nat) (ctx : Ctx) (step : Step B) (clock : Nat)
  | sent (c t : Nat) (p : Payload)
  | accepted (c t : Nat) (p : Payload)
  | got (c t : Nat) (v : Payload)
  | missing (t u : Nat)
  deriving DecidableEq, Repr

/-- `Scheduler` (`scheduler.rs:158-170`). An absent `awaiters` entry is an empty list. -/
structure State (B : Type) where
  cfg : Config
  chooser : Chooser
  tasks : Nat → Option (Slot B) := fun _ => none
  ready : List Nat := []
  chans : Nat → Option Chan := fun _ => none
  timers : List Timer := []
  clock : Nat := 0
  nextId : Nat := 0
  mainResult : Option Payload := none
  results : Nat → Option Result := fun _ => none
  awaiters : Nat → List Nat := fun _ => []
  crashed : Bool := false
  log : List (Ev B) := []

/-- Function update. -/
def upd {A : Type} (f : Nat → A) (k : Nat) (v : A) : Nat → A := fun x => if x = k then v else f x

namespace State
variable {B : Type}

/-- Append to the ghost log. -/
def note (s : State B) (e : Ev B) : State B := { s with log := s.log ++ [e] }

/-- The channel, or an unbounded placeholder if the id is unknown; every use that matters goes through
`modChan`, which crashes then. -/
def chan (s : State B) (c : Nat) : Chan := (s.chans c).getD { cap := none }

/-- `self.chans.get_mut(&c).unwrap()`. -/
def modChan (s : State B) (c : Nat) (f : Chan → Chan) : State B :=
  match s.chans c with
  | none => { s with crashed := true }
  | some ch => { s with chans := upd s.chans c (some (f ch)) }

/-- `self.tasks.get_mut(&t).unwrap()`. -/
def modTask (s : State B) (t : Nat) (f : Slot B → Slot B) : State B :=
  match s.tasks t with
  | none => { s with crashed := true }
  | some sl => { s with tasks := upd s.tasks t (some (f sl)) }

/-- One decision of the chooser. -/
def decide (s : State B) (k : Kind) (n : Nat) : Nat × State B :=
  match s.chooser.decide k n with
  | none => (0, { s with crashed := true })
  | some (i, ch) => (i, { s with chooser := ch })

/-- `new_chan` (`scheduler.rs:203-207`). -/
def addChan (s : State B) (cap : Option Nat) : State B :=
  { s with nextId := s.nextId + 1, chans := upd s.chans s.nextId (some { cap := cap }) }

/-- `spawn_inner` (`scheduler.rs:228-252`), with `spawn` and `spawn_main`. -/
def addTask (s : State B) (body : B) (priority : Nat) (isMain : Bool) : State B :=
  { s with
    nextId := s.nextId + 1
    tasks := upd s.tasks s.nextId (some { body := body, priority := priority, isMain := isMain })
    ready := s.ready ++ [s.nextId] }

/-- `mark_ready` (`scheduler.rs:508-513`). -/
def markReady (s : State B) (t : Nat) (v : Payload) : State B :=
  { s with ready := s.ready ++ [t] }.modTask t fun sl => { sl with resume := v, state := .ready }

/-- Setting the state of a task that parks. -/
def park (s : State B) (t : Nat) (st : TState) : State B := s.modTask t fun sl => { sl with state := st }

/-- Highest priority, earliest in the list (`scheduler.rs:441-450`). -/
def bestFrom (prio : Nat → Nat) : List Nat → Nat → Nat → Nat → Nat
  | [], _, best, _ => best
  | t :: ts, i, best, pri =>
    if prio t > pri then bestFrom prio ts (i + 1) i (prio t) else bestFrom prio ts (i + 1) best pri

/-- Priority of a task. -/
def prio (s : State B) (t : Nat) : Nat :=
  match s.tasks t with
  | none => 0
  | some sl => sl.priority

/-- The index `pick_ready` takes (`scheduler.rs:435-452`). -/
def pickIndex (s : State B) : Nat × State B :=
  match s.cfg.policy with
  | .fifo => (0, s)
  | .roundRobin => (0, s)
  | .lifo => (s.ready.length - 1, s)
  | .random => s.decide .taskPick s.ready.length
  | .priority =>
    match s.ready with
    | [] => (0, s)
    | t :: ts => (bestFrom s.prio ts 1 0 (s.prio t), s)

/-- `self.ready.remove(idx)`. -/
def removeReady (s : State B) (i : Nat) : Option Nat × State B :=
  match s.ready[i]? with
  | none => (none, { s with crashed := true })
  | some t => (some t, { s with ready := s.ready.eraseIdx i })

/-- `pick_ready` (`scheduler.rs:431-453`), for a non-empty ready list. -/
def pickReady (s : State B) : Option Nat × State B := s.pickIndex.2.removeReady s.pickIndex.1

/-- `cancel_select_registrations` (`scheduler.rs:620-628`). -/
def cancel (s : State B) (r : Nat) (keep : Option Nat) : State B :=
  { s with
    chans := fun c =>
      if some c = keep then s.chans c
      else (s.chans c).map fun ch => { ch with receivers := ch.receivers.filter (· ≠ r) }
    timers := s.timers.filter (·.tid ≠ r) }

/-- Position of the first arm receiving from `c`. -/
def armIndex (arms : List Arm) (c : Nat) : Option Nat := arms.findIdx? (· = .recv c)

/-- Making a waiting select win arm `i` (`scheduler.rs:608-615`, `637-644`, `816-823`). -/
def win (s : State B) (r : Nat) (i : Nat) (v : Payload) : State B :=
  { s with ready := s.ready ++ [r] }.modTask r fun sl =>
    { sl with resume := v, selectedArm := some i, state := .ready }

/-- Select arms of a task. -/
def armsOf (s : State B) (t : Nat) : Option (List Arm) :=
  match s.tasks t with
  | none => none
  | some sl => sl.selectArms

/-- `select_arms.take()`. -/
def clearArms (s : State B) (t : Nat) : State B := s.modTask t fun sl => { sl with selectArms := none }

/-- `deliver_to_receiver` (`scheduler.rs:600-618`). -/
def deliver (s : State B) (r c : Nat) (v : Payload) : State B :=
  match s.armsOf r with
  | some arms =>
    match armIndex arms c with
    | none => { s with crashed := true }
    | some i => (((s.clearArms r).win r i v).cancel r (some c)).note (.got c r v)
  | none => (s.markReady r v).note (.got c r v)

/-- `refill_from_blocked_sender` (`scheduler.rs:585-598`). -/
def refill (s : State B) (c : Nat) : State B :=
  if (s.chan c).hasRoom then
    match (s.chan c).senders with
    | [] => s
    | (sid, p) :: rest =>
      ((s.modChan c fun ch => { ch with senders := rest, queue := ch.queue ++ [p] }).note
        (.accepted c sid p)).markReady sid .nothing
  else s

/-- `do_send` (`scheduler.rs:515-529`). -/
def doSend (s : State B) (t c : Nat) (p : Payload) : State B :=
  match (s.chan c).receivers with
  | r :: rs =>
    ((((s.modChan c fun ch => { ch with receivers := rs }).note (.sent c t p)).note
      (.accepted c t p)).deliver r c p).markReady t .nothing
  | [] =>
    if (s.chan c).hasRoom then
      (((s.modChan c fun ch => { ch with queue := ch.queue ++ [p] }).note (.sent c t p)).note
        (.accepted c t p)).markReady t .nothing
    else
      ((s.modChan c fun ch => { ch with senders := ch.senders ++ [(t, p)] }).note (.sent c t p)).park t
        .blockedSend

/-- `do_try_send` (`scheduler.rs:552-566`). -/
def doTrySend (s : State B) (t c : Nat) (p : Payload) : State B :=
  match (s.chan c).receivers with
  | r :: rs =>
    ((((s.modChan c fun ch => { ch with receivers := rs }).note (.sent c t p)).note
      (.accepted c t p)).deliver r c p).markReady t (.bool true)
  | [] =>
    if (s.chan c).hasRoom then
      (((s.modChan c fun ch => { ch with queue := ch.queue ++ [p] }).note (.sent c t p)).note
        (.accepted c t p)).markReady t (.bool true)
    else s.markReady t (.bool false)

/-- Taking a buffered value or one from a parked sender, as `do_recv` and `do_try_recv` do
(`scheduler.rs:532-543`, `569-580`): the receiver is readied before the sender. `none` when there is
neither. -/
def takeFor (s : State B) (t c : Nat) : Option (State B) :=
  match (s.chan c).queue with
  | v :: q =>
    some ((((s.modChan c fun ch => { ch with queue := q }).note (.got c t v)).markReady t v).refill c)
  | [] =>
    match (s.chan c).senders with
    | (sid, p) :: rest =>
      some (((((s.modChan c fun ch => { ch with senders := rest }).note (.accepted c sid p)).note
        (.got c t p)).markReady t p).markReady sid .nothing)
    | [] => none

/-- `do_recv` (`scheduler.rs:531-550`). -/
def doRecv (s : State B) (t c : Nat) : State B :=
  match s.takeFor t c with
  | some s' => s'
  | none =>
    if (s.chan c).closed then s.markReady t .nothing
    else (s.modChan c fun ch => { ch with receivers := ch.receivers ++ [t] }).park t .blockedRecv

/-- `do_try_recv` (`scheduler.rs:568-583`). -/
def doTryRecv (s : State B) (t c : Nat) : State B :=
  match s.takeFor t c with
  | some s' => s'
  | none => s.markReady t .nothing

/-- `take_one` (`scheduler.rs:676-686`) on behalf of task `t` (named only in the log). -/
def takeOne (s : State B) (t c : Nat) : Payload × State B :=
  match (s.chan c).queue with
  | v :: q => (v, ((s.modChan c fun ch => { ch with queue := q }).note (.got c t v)).refill c)
  | [] =>
    match (s.chan c).senders with
    | (sid, p) :: rest =>
      (p, (((s.modChan c fun ch => { ch with senders := rest }).note (.accepted c sid p)).note
        (.got c t p)).markReady sid .nothing)
    | [] => (.nothing, s)

/-- Indices of the arms that can receive now (`scheduler.rs:631-638`). -/
def readyArms (s : State B) : Nat → List Arm → List Nat
  | _, [] => []
  | i, .recv c :: as => if (s.chan c).canRecv then i :: readyArms s (i + 1) as else readyArms s (i + 1) as
  | i, .timeout _ :: as => readyArms s (i + 1) as

/-- Registering one arm (`scheduler.rs:661-668`); `clock + d` overflowing `u64` is a crash. -/
def register (s : State B) (t i : Nat) : Arm → State B
  | .recv c => s.modChan c fun ch => { ch with receivers := ch.receivers ++ [t] }
  | .timeout d =>
    if s.clock + d < 2 ^ 64 then { s with timers := s.timers ++ [⟨s.clock + d, t, some i⟩] }
    else { s with crashed := true }

/-- Registering the arms in order. -/
def registerAll (s : State B) (t : Nat) : Nat → List Arm → State B
  | _, [] => s
  | i, a :: as => (s.register t i a).registerAll t (i + 1) as

/-- The winner among the ready arms (`scheduler.rs:641-646`). -/
def pickArm (s : State B) (ready : List Nat) : Option Nat × State B :=
  if ready.length = 1 then (ready[0]?, s)
  else ((ready[(s.decide .selectWinner ready.length).1]?), (s.decide .selectWinner ready.length).2)

/-- A select whose arm `i` won at once (`scheduler.rs:647-659`). -/
def winNow (s : State B) (t : Nat) (arms : List Arm) (i : Nat) : State B :=
  match arms[i]? with
  | some (.recv c) => (s.takeOne t c).2.win t i (s.takeOne t c).1
  | _ => { s with crashed := true }

/-- Does an arm name an unknown channel? -/
def unknownArm (s : State B) : Arm → Bool
  | .recv c => (s.chans c).isNone
  | .timeout _ => false

/-- `do_select` (`scheduler.rs:630-674`). Naming an unknown channel panics (`scheduler.rs:635`). -/
def doSelect (s : State B) (t : Nat) (arms : List Arm) : State B :=
  if arms.any s.unknownArm then
    { s with crashed := true }
  else
    match s.readyArms 0 arms with
    | [] =>
      (s.registerAll t 0 arms).modTask t fun sl =>
        { sl with selectArms := some arms, state := .blockedSelect }
    | i :: is =>
      match (s.pickArm (i :: is)).1 with
      | none => { (s.pickArm (i :: is)).2 with crashed := true }
      | some w => (s.pickArm (i :: is)).2.winNow t arms w

/-- State of a task. -/
def stateOf (s : State B) (t : Nat) : Option TState :=
  match s.tasks t with
  | none => none
  | some sl => some sl.state

/-- `fire_timer` (`scheduler.rs:726-750`). -/
def fireTimer (s : State B) (t : Nat) (arm : Option Nat) : State B :=
  if s.stateOf t = some .blockedTimer ∨ s.stateOf t = some .blockedSelect then
    match arm with
    | some i =>
      if (s.armsOf t).isSome then ((s.clearArms t).win t i .nothing).cancel t none
      else s.win t i .nothing
    | none => s.markReady t .nothing
  else s

/-- The seeded shuffle of the due timers (`scheduler.rs:707-714`). -/
def drawOrder : Nat → List Timer → State B → List Timer × State B
  | 0, _, s => ([], s)
  | n + 1, pool, s =>
    match pool[(s.decide .timerTieBreak pool.length).1]? with
    | none => ([], { (s.decide .timerTieBreak pool.length).2 with crashed := true })
    | some e =>
      let r := drawOrder n (pool.eraseIdx (s.decide .timerTieBreak pool.length).1)
        (s.decide .timerTieBreak pool.length).2
      (e :: r.1, r.2)

/-- Firing timers in turn (`scheduler.rs:719-723`). -/
def fireAll (s : State B) : List Timer → State B
  | [] => s
  | e :: es => (s.fireTimer e.tid e.arm).fireAll es

/-- Earliest deadline (`scheduler.rs:689`). -/
def earliest : List Timer → Option Nat
  | [] => none
  | e :: es =>
    match earliest es with
    | none => some e.fireAt
    | some m => some (min e.fireAt m)

/-- The order in which due timers fire (`scheduler.rs:706-717`). -/
def fireOrder (s : State B) (due : List Timer) : List Timer × State B :=
  if due.length > 1 then drawOrder due.length due s else (due, s)

/-- `advance_timers` (`scheduler.rs:688-724`). -/
def advanceTimers (s : State B) : State B :=
  match earliest s.timers with
  | none => s
  | some m =>
    let s1 := { s with clock := m, timers := s.timers.filter (·.fireAt ≠ m) }
    (s1.fireOrder (s.timers.filter (·.fireAt = m))).2.fireAll
      (s1.fireOrder (s.timers.filter (·.fireAt = m))).1

/-- Waking awaiters (`scheduler.rs:756-758`). -/
def wakeAll (s : State B) (p : Payload) : List Nat → State B
  | [] => s
  | w :: ws => (s.markReady w p).wakeAll p ws

/-- `complete_task` (`scheduler.rs:752-759`). -/
def complete (s : State B) (t : Nat) (r : Result) : State B :=
  { s with awaiters := upd s.awaiters t [], results := upd s.results t (some r) }.wakeAll r.payload
    (s.awaiters t)

/-- `do_await` (`scheduler.rs:761-772`). -/
def doAwait (s : State B) (t u : Nat) : State B :=
  match s.results u with
  | some r => s.markReady t r.payload
  | none =>
    match s.tasks u with
    | none => (s.note (.missing t u)).markReady t .nothing
    | some _ => { s with awaiters := upd s.awaiters u (s.awaiters u ++ [t]) }.park t .blockedAwait

/-- Dropping every registration of a task (`scheduler.rs:783-792`). -/
def purge (s : State B) (u : Nat) : State B :=
  { s with
    ready := s.ready.filter (· ≠ u)
    chans := fun c => (s.chans c).map fun ch =>
      { ch with receivers := ch.receivers.filter (· ≠ u), senders := ch.senders.filter (·.1 ≠ u) }
    timers := s.timers.filter (·.tid ≠ u)
    awaiters := fun k => (s.awaiters k).filter (· ≠ u) }

/-- `do_abort` (`scheduler.rs:774-795`). -/
def doAbort (s : State B) (u : Nat) : State B :=
  match s.results u with
  | some _ => s
  | none =>
    match s.stateOf u with
    | none => s
    | some .done => s
    | some _ => ((s.purge u).park u .done).complete u .aborted

/-- `wake_closed_receiver` (`scheduler.rs:808-826`). -/
def wakeClosed (s : State B) (r c : Nat) : State B :=
  match s.armsOf r with
  | some arms => (((s.clearArms r).win r ((armIndex arms c).getD 0) .nothing).cancel r (some c))
  | none => s.markReady r .nothing

/-- Waking the drained receivers in turn (`scheduler.rs:803-805`). -/
def wakeClosedAll (s : State B) (c : Nat) : List Nat → State B
  | [] => s
  | r :: rs => (s.wakeClosed r c).wakeClosedAll c rs

/-- `do_close` (`scheduler.rs:797-806`). -/
def doClose (s : State B) (c : Nat) : State B :=
  (s.modChan c fun ch => { ch with closed := true, receivers := [] }).wakeClosedAll c (s.chan c).receivers

/-- Is this the main task? -/
def isMain (s : State B) (t : Nat) : Bool :=
  match s.tasks t with
  | none => false
  | some sl => sl.isMain

/-- `process_step` (`scheduler.rs:455-506`). `prioOf` is `Task::priority`. -/
def process (prioOf : B → Nat) (s : State B) (t : Nat) : Step B → State B
  | .yield => s.markReady t .nothing
  | .await u => s.doAwait t u
  | .abort u => (s.doAbort u).markReady t .nothing
  | .close c => (s.doClose c).markReady t .nothing
  | .exit v =>
    (({ s with mainResult := if s.isMain t then some v else s.mainResult }).park t .done).complete t
      (.completed v)
  | .spawn child =>
    ((s.addTask child (prioOf child) false).modTask t fun sl =>
      { sl with resumeTask := some s.nextId }).markReady t .nothing
  | .newChan cap =>
    ((s.addChan (some (cap.getD s.cfg.defaultCap))).modTask t fun sl =>
      { sl with resumeChan := some s.nextId }).markReady t .nothing
  | .send c p => s.doSend t c p
  | .trySend c p => s.doTrySend t c p
  | .recv c => s.doRecv t c
  | .tryRecv c => s.doTryRecv t c
  | .sleep d =>
    if s.clock + d < 2 ^ 64 then
      ({ s with timers := s.timers ++ [⟨s.clock + d, t, none⟩] } : State B).park t .blockedTimer
    else { s with crashed := true }
  | .select arms => s.doSelect t arms
  | .ioPending => s.park t .blockedIo

/-- `RunOutcome` (`scheduler.rs:20-30`). -/
inductive Outcome where
  | done (p : Payload)
  | deadlock
  | waitingForIo
  deriving DecidableEq, Repr

/-- Polling a picked task: take its context, run its body, store it back (`scheduler.rs:279-293`). -/
def pollTask (poll : B → Ctx → Step B × B) (s : State B) (t : Nat) : Option (Step B) × State B :=
  match s.tasks t with
  | none => (none, { s with crashed := true })
  | some sl =>
    (some (poll sl.body sl.ctx).1,
      { s with
        tasks := upd s.tasks t (some { sl with
          body := (poll sl.body sl.ctx).2, resume := .nothing, selectedArm := none, resumeChan := none,
          resumeTask := none })
        log := s.log ++ [.poll t sl.ctx (poll sl.body sl.ctx).1 s.clock] })

/-- Dispatching task `t`: poll it and process its step (`scheduler.rs:278-294`). -/
def dispatch (poll : B → Ctx → Step B × B) (prioOf : B → Nat) (s : State B) (t : Nat) : State B :=
  match (s.pollTask poll t).1 with
  | none => (s.pollTask poll t).2
  | some step => (s.pollTask poll t).2.process prioOf t step

/-- All tasks finished (`scheduler.rs:299`). -/
def allDone (s : State B) : Bool :=
  (List.range s.nextId).all fun t =>
    match s.stateOf t with
    | none => true
    | some st => st == .done

/-- Some task waits for I/O (`scheduler.rs:300-303`). -/
def anyIo (s : State B) : Bool := (List.range s.nextId).any fun t => s.stateOf t == some .blockedIo

/-- The outcome at quiescence (`scheduler.rs:304-311`). -/
def outcome (s : State B) : Outcome :=
  if s.allDone then .done (s.mainResult.getD .nothing)
  else if s.anyIo then .waitingForIo
  else .deadlock

/-- `poll_once` (`scheduler.rs:277-312`): outcome at quiescence, and the new state. -/
def pollOnce (poll : B → Ctx → Step B × B) (prioOf : B → Nat) (s : State B) : Option Outcome × State B :=
  match s.ready with
  | _ :: _ =>
    match s.pickReady.1 with
    | none => (none, s.pickReady.2)
    | some t => (none, s.pickReady.2.dispatch poll prioOf t)
  | [] => if s.timers = [] then (some s.outcome, s) else (none, s.advanceTimers)

/-- `run_slice` (`scheduler.rs:317-324`), stopping at a panic. -/
def runSlice (poll : B → Ctx → Step B × B) (prioOf : B → Nat) : Nat → State B → Option Outcome × State B
  | 0, s => (none, s)
  | n + 1, s =>
    if s.crashed then (none, s)
    else
      match (s.pollOnce poll prioOf).1 with
      | some o => (some o, (s.pollOnce poll prioOf).2)
      | none => runSlice poll prioOf n (s.pollOnce poll prioOf).2

/-- Waking one I/O task (`scheduler.rs:339-341`). -/
def wakeOne (s : State B) (t : Nat) : State B :=
  { s with ready := s.ready ++ [t] }.modTask t fun sl => { sl with state := .ready }

/-- Waking I/O tasks in turn. -/
def wakeEach (s : State B) : List Nat → State B
  | [] => s
  | t :: ts => (s.wakeOne t).wakeEach ts

/-- `wake_io` (`scheduler.rs:330-344`). -/
def wakeIo (s : State B) : State B :=
  s.wakeEach ((List.range s.nextId).filter fun t => s.stateOf t == some .blockedIo)

end State

/-- `Scheduler::new` (`scheduler.rs:174-189`). -/
def State.init {B : Type} (cfg : Config) (ch : Chooser) : State B := { cfg := cfg, chooser := ch }

end Verif.Sched
