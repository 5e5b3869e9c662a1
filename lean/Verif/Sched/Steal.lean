import Verif.Sched.Spec
/-!
# The work-stealing executor

Models `crates/logicaffeine_runtime/src/executor.rs` and the `ws_*` hooks of `scheduler.rs:380-427`.

`D` is the type of `Send` task descriptors, `B` of task bodies; `build : D → B` and
`poll : B → Ctx → Step D × B` are arbitrary (a work-stealing task spawns by descriptor). The coordinator's
scheduler has metadata slots only: the model keeps the descriptor in the slot's `body` field, which nothing
reads. Worker threads run between the coordinator's sends and its barrier; each task's body is on one worker
and each batch names a task once, so an interleaving is an order in which the batch's polls happen
(`arr`, an arbitrary rearrangement of the messages — a superset of what threads can do).
-/

namespace Verif.Sched
variable {B D : Type}

/-- A step with its spawned child built. -/
def Step.map (f : D → B) : Step D → Step B
  | .yield => .yield
  | .recv c => .recv c
  | .send c p => .send c p
  | .trySend c p => .trySend c p
  | .tryRecv c => .tryRecv c
  | .select arms => .select arms
  | .sleep d => .sleep d
  | .newChan cap => .newChan cap
  | .spawn d => .spawn (f d)
  | .await u => .await u
  | .abort u => .abort u
  | .close c => .close c
  | .ioPending => .ioPending
  | .exit p => .exit p

/-- `ResumeKind` (`executor.rs:60-76`). -/
inductive Resume (D : Type) where
  | nothing
  | spawn (d : D)
  | payload (p : Payload)
  | select (arm : Nat) (p : Payload)
  | newChan (c : Nat)
  | handle (t : Nat)

/-- `WsDispatch` (`scheduler.rs:144-155`), without the priority nobody reads. -/
structure Dispatch where
  tid : Nat
  ctx : Ctx
  deriving DecidableEq, Repr

/-- `WorkMsg::Run` (`executor.rs:108-111`) with the worker it is sent to. -/
structure Msg (D : Type) where
  worker : Nat
  tid : Nat
  resume : Resume D

/-- `WorkerReport` (`executor.rs:102-106`); `ctx` (what the body was polled with) is not in the code. The
output of the slice is a function of the body and `ctx`. -/
structure Report (D : Type) where
  tid : Nat
  ctx : Ctx
  step : Step D

/-- The local state of `run_workstealing_seeded` (`executor.rs:156-186`). `slices` is not in the code: the
slices whose output has been flushed, in order, each with what the task was polled with and what it answered. `failed` is set where the code panics. -/
structure WS (B D : Type) where
  workers : Nat
  sched : State D
  fresh : Nat → Option D
  owner : Nat → Option Nat := fun _ => none
  nextW : Nat := 0
  bodies : Nat → Nat → Option B := fun _ _ => none
  slices : List (Nat × Ctx × Step D) := []
  failed : Bool := false

/-- Taking the resume state of a slot (`scheduler.rs:402-411`). -/
def Slot.cleared (sl : Slot D) : Slot D :=
  { sl with resume := .nothing, selectedArm := none, resumeChan := none, resumeTask := none }

/-- `ws_next_dispatch` (`scheduler.rs:400-412`). -/
def State.nextDispatch (s : State D) : Option Dispatch × State D :=
  match s.ready with
  | [] => (none, s)
  | _ :: _ =>
    match s.pickReady.1 with
    | none => (none, s.pickReady.2)
    | some t =>
      match s.pickReady.2.tasks t with
      | none => (none, { s.pickReady.2 with crashed := true })
      | some sl => (some ⟨t, sl.ctx⟩, { s.pickReady.2 with tasks := upd s.pickReady.2.tasks t (some sl.cleared) })

/-- Draining the ready list (`executor.rs:189-192`); the list shrinks each time, so its length bounds the
loop. -/
def State.drain : Nat → State D → List Dispatch × State D
  | 0, s => ([], s)
  | n + 1, s =>
    match s.nextDispatch.1 with
    | none => ([], s.nextDispatch.2)
    | some d => (d :: (drain n s.nextDispatch.2).1, (drain n s.nextDispatch.2).2)

/-- How a pinned task is re-entered (`executor.rs:221-234`). -/
def resumeOf (ctx : Ctx) : Resume D :=
  match ctx.selected with
  | some arm => .select arm ctx.resumed
  | none =>
    match ctx.newChan with
    | some c => .newChan c
    | none =>
      match ctx.spawned with
      | some t => .handle t
      | none =>
        match ctx.resumed with
        | .nothing => .nothing
        | p => .payload p

/-- The context a worker rebuilds (`executor.rs:312-330`). -/
def ctxOf : Resume D → Ctx
  | .nothing => {}
  | .spawn _ => {}
  | .payload p => { resumed := p }
  | .select arm p => { selected := some arm, resumed := p }
  | .newChan c => { newChan := some c }
  | .handle t => { spawned := some t }

/-- Choosing a worker for a dispatched task (`executor.rs:207-236`). -/
def WS.assign (ws : WS B D) (d : Dispatch) : Option (Msg D) × WS B D :=
  match ws.fresh d.tid with
  | some desc =>
    (some ⟨ws.nextW, d.tid, .spawn desc⟩,
      { ws with
        fresh := upd ws.fresh d.tid none
        owner := upd ws.owner d.tid (some ws.nextW)
        nextW := (ws.nextW + 1) % ws.workers })
  | none =>
    match ws.owner d.tid with
    | none => (none, { ws with failed := true })
    | some w => (some ⟨w, d.tid, resumeOf d.ctx⟩, ws)

/-- The whole batch. -/
def WS.assignAll : List Dispatch → WS B D → List (Msg D) × WS B D
  | [], ws => ([], ws)
  | d :: ds, ws => ((ws.assign d).1.toList ++ (assignAll ds (ws.assign d).2).1, (assignAll ds (ws.assign d).2).2)

/-- Did the task finish? (`project_step`'s flag, `executor.rs:349-384`). -/
def Step.isExit : Step D → Bool
  | .exit _ => true
  | _ => false

/-- Is this a step workers refuse? (`executor.rs:375-379`). -/
def Step.isIo : Step D → Bool
  | .ioPending => true
  | _ => false

/-- The body a worker polls for a message (`executor.rs:318-332`). -/
def WS.bodyFor (build : D → B) (ws : WS B D) (m : Msg D) : Option B :=
  match m.resume with
  | .spawn d => some (build d)
  | _ => ws.bodies m.worker m.tid

/-- A worker serving one message (`executor.rs:307-344`). -/
def WS.work (build : D → B) (poll : B → Ctx → Step D × B) (ws : WS B D) (m : Msg D) :
    Option (Report D) × WS B D :=
  match ws.bodyFor build m with
  | none => (none, { ws with failed := true })
  | some b =>
    if (poll b (ctxOf m.resume)).1.isIo then (none, { ws with failed := true })
    else
      (some ⟨m.tid, ctxOf m.resume, (poll b (ctxOf m.resume)).1⟩,
        { ws with bodies := upd ws.bodies m.worker (upd (ws.bodies m.worker) m.tid
            (if (poll b (ctxOf m.resume)).1.isExit then none else some (poll b (ctxOf m.resume)).2)) })

/-- All messages of a batch, in order of service. -/
def WS.workAll (build : D → B) (poll : B → Ctx → Step D × B) : List (Msg D) → WS B D → List (Report D) × WS B D
  | [], ws => ([], ws)
  | m :: ms, ws =>
    ((ws.work build poll m).1.toList ++ (workAll build poll ms (ws.work build poll m).2).1,
      (workAll build poll ms (ws.work build poll m).2).2)

/-- The descriptor a spawn leaves for the child (`executor.rs:288-293`). -/
def freshAfter (fresh : Nat → Option D) (child : Nat) : Step D → Nat → Option D
  | .spawn d => upd fresh child (some d)
  | _ => fresh

/-- `apply_step` (`executor.rs:269-295`) and flushing the slice's output (`executor.rs:249-254`). The child of
a spawn gets priority 0. -/
def WS.applyStep (ws : WS B D) (r : Report D) : WS B D :=
  { ws with
    sched := ws.sched.process (fun _ => 0) r.tid r.step
    fresh := freshAfter ws.fresh ws.sched.nextId r.step
    slices := ws.slices ++ [(r.tid, r.ctx, r.step)] }

/-- Applying the reports in pick order (`executor.rs:249-254`). -/
def WS.applyAll (reports : List (Report D)) : List Nat → WS B D → WS B D
  | [], ws => ws
  | t :: ts, ws =>
    match reports.find? (·.tid = t) with
    | none => applyAll reports ts { ws with failed := true }
    | some r => applyAll reports ts (ws.applyStep r)

/-- Polling a batch: assign, serve in the order `arr` says, apply in pick order. -/
def WS.batch (build : D → B) (poll : B → Ctx → Step D × B) (arr : List (Msg D) → List (Msg D))
    (ds : List Dispatch) (ws : WS B D) : WS B D :=
  WS.applyAll (WS.workAll build poll (arr (WS.assignAll ds ws).1) (WS.assignAll ds ws).2).1 (ds.map (·.tid))
    (WS.workAll build poll (arr (WS.assignAll ds ws).1) (WS.assignAll ds ws).2).2

/-- One turn of the coordinator's loop (`executor.rs:187-256`). -/
def WS.round (build : D → B) (poll : B → Ctx → Step D × B) (arr : List (Msg D) → List (Msg D)) (ws : WS B D) :
    Option State.Outcome × WS B D :=
  match (ws.sched.drain ws.sched.ready.length).1 with
  | [] =>
    if ws.sched.allDone then (some (.done (ws.sched.mainResult.getD .nothing)), ws)
    else if ws.sched.timers ≠ [] then (none, { ws with sched := ws.sched.advanceTimers })
    else (some .deadlock, ws)
  | d :: ds => (none, WS.batch build poll arr (d :: ds) { ws with sched := (ws.sched.drain ws.sched.ready.length).2 })

/-- The loop, for at most `n` turns; turn `k` is served in the order `arr k`. -/
def WS.run (build : D → B) (poll : B → Ctx → Step D × B) (arr : Nat → List (Msg D) → List (Msg D)) :
    Nat → Nat → WS B D → Option State.Outcome × WS B D
  | 0, _, ws => (none, ws)
  | n + 1, k, ws =>
    match (ws.round build poll (arr k)).1 with
    | some o => (some o, (ws.round build poll (arr k)).2)
    | none => run build poll arr n (k + 1) (ws.round build poll (arr k)).2

/-- The same program for the cooperative scheduler: a spawned child is built at once. -/
def coop (build : D → B) (poll : B → Ctx → Step D × B) : B → Ctx → Step B × B :=
  fun b ctx => ((poll b ctx).1.map build, (poll b ctx).2)

/-- `run_workstealing_seeded` up to its loop (`executor.rs:156-167`). -/
def WS.start (cfg : Config) (workers seed : Nat) (main : D) (priority : Nat) : WS B D where
  workers := max workers 1
  sched := (State.init cfg (.record seed seed [])).addTask main priority true
  fresh := upd (fun _ => none) 0 (some main)

/-- Every step the cooperative run takes is one the properties speak about, and it aborts no task that could run. -/
def Tame (build : D → B) (poll : B → Ctx → Step D × B) (prioOf : B → Nat) (s : State B) : Prop :=
  ∀ n t st, nextStep (coop build poll) (s.runSlice (coop build poll) prioOf n).2 = some (t, st) →
    StepOk (s.runSlice (coop build poll) prioOf n).2 t st ∧
    ∀ u, st = .abort u → u ∉ (s.runSlice (coop build poll) prioOf n).2.ready

end Verif.Sched
