import Verif.Common.SortBy
/-!
# Interval scheduling and register allocation

Model of `crates/logicaffeine_proof/src/interval_sched.rs` and of `crates/logicaffeine_proof/src/register_alloc.rs`.

Simplifications.  `i64` endpoints are integers (they are only compared).  `sort_by` is the stable sort of
`Verif.Common.SortBy`.  `free_at` and `assignment` are functions from the index instead of vectors; every index used is
in range.  Hash maps collected from pairs are the functions that return the last pair with the key.
-/

namespace Verif.Solve.Interval

/-- `Interval` (interval_sched.rs:14-20). -/
structure Interval where
  start : Int
  stop : Int
deriving DecidableEq, Repr

/-- `ScheduleOutcome` (interval_sched.rs:30-38). -/
inductive Outcome
  | feasible (assignment : List Nat)
  | infeasible (witness : List Nat)
deriving DecidableEq, Repr

/-- `overlaps` (interval_sched.rs:41-44). -/
def overlaps (a b : Interval) : Bool := decide (a.start < b.stop) && decide (b.start < a.stop)

/-- `tasks[i]`. -/
def at_ (tasks : List Interval) (i : Nat) : Interval := tasks.getD i ⟨0, 0⟩

/-- An event `(time, delta, index)` (interval_sched.rs:52). -/
structure Ev where
  time : Int
  delta : Int
  idx : Nat
deriving DecidableEq, Repr

/-- The events of one task (interval_sched.rs:54-57). -/
def evOf (tasks : List Interval) (i : Nat) : List Ev :=
  if (at_ tasks i).start < (at_ tasks i).stop then [⟨(at_ tasks i).start, 1, i⟩, ⟨(at_ tasks i).stop, -1, i⟩] else []

/-- The comparison of the sort (interval_sched.rs:59). -/
def evLe (a b : Ev) : Bool := decide (a.time < b.time) || (decide (a.time = b.time) && decide (a.delta ≤ b.delta))

/-- The sorted events (interval_sched.rs:52-59). -/
def events (tasks : List Interval) : List Ev :=
  Verif.sortBy evLe ((List.range tasks.length).flatMap (evOf tasks))

/-- What an event does to `active` (interval_sched.rs:62-63 and 69). -/
def step (active : List Nat) (e : Ev) : List Nat :=
  if e.delta = 1 then active ++ [e.idx] else active.filter (· != e.idx)

/-- The sweep (interval_sched.rs:60-71); `some` is the early return. -/
def sweep (machines : Nat) : List Ev → List Nat → Option (List Nat)
  | [], _ => none
  | e :: es, active =>
    if e.delta = 1 ∧ (step active e).length > machines then some (step active e)
    else sweep machines es (step active e)

/-- `free_at` and `assignment` (interval_sched.rs:99-100). -/
structure Greedy where
  freeAt : Nat → Int
  assignment : Nat → Nat

def upd {A : Type} (f : Nat → A) (i : Nat) (x : A) : Nat → A := fun j => if j = i then x else f j

/-- The machine chosen for a start time (interval_sched.rs:102-104). -/
def choose (k : Nat) (freeAt : Nat → Int) (start : Int) : Nat :=
  ((List.range k).find? fun m => decide (freeAt m ≤ start)).getD 0

/-- One task (interval_sched.rs:101-107). -/
def place (tasks : List Interval) (k : Nat) (g : Greedy) (i : Nat) : Greedy :=
  let m := choose k g.freeAt (at_ tasks i).start
  ⟨upd g.freeAt m (at_ tasks i).stop, upd g.assignment i m⟩

/-- The order of the tasks (interval_sched.rs:97-98). -/
def startOrder (tasks : List Interval) : List Nat :=
  Verif.sortBy (fun i j => decide ((at_ tasks i).start ≤ (at_ tasks j).start)) (List.range tasks.length)

/-- `greedy_assign` (interval_sched.rs:96-109). -/
def greedyAssign (tasks : List Interval) (machines : Nat) : List Nat :=
  let g := (startOrder tasks).foldl (place tasks (max machines 1)) ⟨fun _ => -2 ^ 63, fun _ => 0⟩
  (List.range tasks.length).map g.assignment

/-- `schedule_or_overflow` (interval_sched.rs:49-73). -/
def scheduleOrOverflow (tasks : List Interval) (machines : Nat) : Outcome :=
  match sweep machines (events tasks) [] with
  | some w => .infeasible w
  | none => .feasible (greedyAssign tasks machines)

/-- The two comparisons of `peak_concurrency` (interval_sched.rs:85). -/
def pairLe (a b : Int × Int) : Bool := decide (a.1 < b.1) || (decide (a.1 = b.1) && decide (a.2 ≤ b.2))

/-- The events of one task in `peak_concurrency` (interval_sched.rs:79-83). -/
def pairsOf (t : Interval) : List (Int × Int) := if t.start < t.stop then [(t.start, 1), (t.stop, -1)] else []

/-- The loop of `peak_concurrency` (interval_sched.rs:86-90) on `(cur, peak)`. -/
def peakStep (s : Int × Int) (e : Int × Int) : Int × Int := (s.1 + e.2, max s.2 (s.1 + e.2))

/-- `peak_concurrency` (interval_sched.rs:77-92). -/
def peakConcurrency (tasks : List Interval) : Nat :=
  ((Verif.sortBy pairLe (tasks.flatMap pairsOf)).foldl peakStep (0, 0)).2.toNat

/-- `is_valid_schedule` (interval_sched.rs:112-124). -/
def isValidSchedule (tasks : List Interval) (machines : Nat) (a : List Nat) : Bool :=
  if a.length ≠ tasks.length ∨ a.any (fun m => decide (m ≥ machines)) then false
  else (List.range tasks.length).all fun i => (List.range' (i + 1) (tasks.length - (i + 1))).all fun j =>
    !(decide (a.getD i 0 = a.getD j 0) && overlaps (at_ tasks i) (at_ tasks j))

/-- `is_overflow_witness` without the length test (interval_sched.rs:132-138). -/
def pairwiseOverlap (tasks : List Interval) : List Nat → Bool
  | [] => true
  | i :: w => (decide (i < tasks.length) &&
      w.all fun j => decide (j < tasks.length) && overlaps (at_ tasks i) (at_ tasks j)) && pairwiseOverlap tasks w

/-- `is_overflow_witness` (interval_sched.rs:128-139). -/
def isOverflowWitness (tasks : List Interval) (machines : Nat) (w : List Nat) : Bool :=
  if w.length ≤ machines then false else pairwiseOverlap tasks w

/-! ## Registers -/

/-- `LiveRange` (register_alloc.rs:18-25). -/
structure LiveRange where
  var : Nat
  start : Int
  stop : Int
deriving DecidableEq, Repr

/-- `Allocation` (register_alloc.rs:36-49). -/
inductive Allocation
  | allocated (reg : List (Nat × Nat))
  | spill (pressure : Nat) (mustSpill : List Nat)
deriving DecidableEq, Repr

/-- The interval of a live range (register_alloc.rs:53 and 60). -/
def LiveRange.interval (r : LiveRange) : Interval := ⟨r.start, r.stop⟩

/-- `register_pressure` (register_alloc.rs:52-55). -/
def registerPressure (rs : List LiveRange) : Nat := peakConcurrency (rs.map LiveRange.interval)

/-- `ranges[i].var`. -/
def varAt (rs : List LiveRange) (i : Nat) : Nat := (rs.getD i ⟨0, 0, 0⟩).var

/-- `allocate` (register_alloc.rs:59-71). -/
def allocate (rs : List LiveRange) (registers : Nat) : Allocation :=
  match scheduleOrOverflow (rs.map LiveRange.interval) registers with
  | .feasible reg => .allocated ((rs.zip reg).map fun p => (p.1.var, p.2))
  | .infeasible ps => .spill (peakConcurrency (rs.map LiveRange.interval)) (ps.map (varAt rs))

/-- `live_overlap` (register_alloc.rs:73-75). -/
def liveOverlap (a b : LiveRange) : Bool := decide (a.start < b.stop) && decide (b.start < a.stop)

/-- The register a variable is mapped to: the last pair wins (register_alloc.rs:83). -/
def regOf (ps : List (Nat × Nat)) (v : Nat) : Option Nat := (ps.reverse.find? fun p => p.1 == v).map (·.2)

/-- The distinct variables of the pairs: `reg.len()` (register_alloc.rs:84). -/
def keys (ps : List (Nat × Nat)) : List Nat := (ps.map (·.1)).eraseDups

/-- `is_valid_allocation` (register_alloc.rs:79-97). -/
def isValidAllocation (rs : List LiveRange) (registers : Nat) (ps : List (Nat × Nat)) : Bool :=
  if ps.length ≠ rs.length then false
  else if (keys ps).length ≠ rs.length ∨ (keys ps).any (fun v => (regOf ps v).any fun r => decide (r ≥ registers)) then
    false
  else (List.range rs.length).all fun i => (List.range' (i + 1) (rs.length - (i + 1))).all fun j =>
    !(liveOverlap (rs.getD i ⟨0, 0, 0⟩) (rs.getD j ⟨0, 0, 0⟩) &&
      decide (regOf ps (varAt rs i) = regOf ps (varAt rs j)))

/-- `by_var`: the last range of a variable (register_alloc.rs:105-106). -/
def byVar (rs : List LiveRange) (v : Nat) : Option LiveRange := rs.reverse.find? fun r => r.var == v

/-- `is_spill_certificate` without the length test (register_alloc.rs:107-114). -/
def pairwiseLive (rs : List LiveRange) : List Nat → Bool
  | [] => true
  | v :: w =>
    (match byVar rs v with
    | none => false
    | some rv => w.all fun u => (byVar rs u).any fun ru => liveOverlap rv ru) && pairwiseLive rs w

/-- `is_spill_certificate` (register_alloc.rs:101-115). -/
def isSpillCertificate (rs : List LiveRange) (registers : Nat) (w : List Nat) : Bool :=
  if w.length ≤ registers then false else pairwiseLive rs w

/-! ## Specification -/

/-- A schedule: every task has a machine below the limit, and two tasks that have an instant in common have different
machines. -/
def Schedule (tasks : List Interval) (machines : Nat) (f : Nat → Nat) : Prop :=
  (∀ i < tasks.length, f i < machines) ∧
  ∀ i j (hi : i < tasks.length) (hj : j < tasks.length), i ≠ j →
    (∃ t : Int, (tasks[i].start ≤ t ∧ t < tasks[i].stop) ∧ tasks[j].start ≤ t ∧ t < tasks[j].stop) → f i ≠ f j

/-- The number of tasks active at an instant. -/
def activeAt (tasks : List Interval) (t : Int) : Nat :=
  tasks.countP fun x => decide (x.start ≤ t ∧ t < x.stop)

/-- No task is empty. -/
def NonEmpty (tasks : List Interval) : Prop := ∀ t ∈ tasks, t.start < t.stop

/-- A register allocation: every variable of a range has a register below the limit, and two variables with ranges that
have an instruction in common have different registers. -/
def Alloc (rs : List LiveRange) (registers : Nat) (f : Nat → Nat) : Prop :=
  (∀ r ∈ rs, f r.var < registers) ∧
  ∀ r ∈ rs, ∀ r' ∈ rs, r.var ≠ r'.var →
    (∃ t : Int, (r.start ≤ t ∧ t < r.stop) ∧ r'.start ≤ t ∧ t < r'.stop) → f r.var ≠ f r'.var

end Verif.Solve.Interval
