import Verif.Proof.Lit
import Verif.Common.SortBy
/-!
# The clause-learning SAT solver (`crates/logicaffeine_proof/src/cdcl.rs`)

The solver core, function by function. Conventions:

* Arrays indexed by a variable or a literal (`value`, `level`, `reason`, `watches`) are functions.
  They have `num_vars` (or twice that) entries in the code, so the code needs every variable of every
  clause below `num_vars`; the theorems assume it of the input clauses.
* A `Val` is an `Option Bool`: `none` is `Unset`. A `Reason` is an `Option Nat`: `none` is `Decision`.
* Everything that only steers the search is a parameter: which variable the order heap yields, which
  polarity is tried, when to restart, which of the deletable learned clauses to delete. The code
  computes these from activities, LBD scores and counters (`f64` arithmetic); the theorems hold for
  every answer, so for the code's. One `Choice` is supplied per turn of the main loop, and the list of
  choices bounds the run: `pending` is a run that has not finished within the list.
* A Rust panic (index out of range, `unreachable!`, subtraction underflow) is an explicit outcome.
* No theory propagators (`theories` empty) and no `decision_mask`.
-/

namespace Verif.Sat
open Verif.Proof

/-- array update -/
def upd {α β : Type} [DecidableEq α] (f : α → β) (a : α) (b : β) : α → β :=
  fun x => if x = a then b else f x

/-- `cdcl.rs:93-102`. -/
structure Watcher where
  clause : Nat
  blocker : Lit
  binary : Bool
  deriving DecidableEq, Repr

/-- `cdcl.rs:184-308`, without the fields that only steer the search or only count.
`limit` and `reduceOn` are `reduce_limit` and `reduce_enabled`. The order heap is kept as the list of
the variables in it; its array layout is not modelled. -/
structure Solver where
  n : Nat
  clauses : List (List Lit)
  watches : Lit → List Watcher
  value : Nat → Option Bool
  level : Nat → Nat
  reason : Nat → Option Nat
  trail : List Lit
  lim : List Nat
  qhead : Nat
  heap : List Nat
  empty : Bool
  nOrig : Nat
  log : List (List Lit)
  limit : Nat
  reduceOn : Bool

/-- `Solver::new`, `cdcl.rs:325-377`. -/
def Solver.new (n : Nat) : Solver where
  n := n
  clauses := []
  watches := fun _ => []
  value := fun _ => none
  level := fun _ => 0
  reason := fun _ => none
  trail := []
  lim := []
  qhead := 0
  heap := List.range n
  empty := false
  nOrig := 0
  log := []
  limit := 2000
  reduceOn := true

/-- `val_of`, `cdcl.rs:752-767`: `some true` is `True`, `some false` is `False`. -/
def Solver.val (S : Solver) (l : Lit) : Option Bool :=
  (S.value l.var).map fun b => if l.pos then b else !b

/-- `enqueue`, `cdcl.rs:780-786`. -/
def Solver.enqueue (S : Solver) (l : Lit) (r : Option Nat) : Solver :=
  { S with
    value := upd S.value l.var (some l.pos)
    level := upd S.level l.var S.lim.length
    reason := upd S.reason l.var r
    trail := S.trail ++ [l] }

/-- The two watchers of a clause whose first two literals are `a` and `b`
(`cdcl.rs:743-746`, also `rewatch`, `1159-1167`, and the rebuild in `compact`, `1131-1138`). -/
def pushWatch (W : Lit → List Watcher) (ci : Nat) (a b : Lit) (bin : Bool) : Lit → List Watcher :=
  let W1 := upd W a (W a ++ [⟨ci, b, bin⟩])
  upd W1 b (W1 b ++ [⟨ci, a, bin⟩])

/-- `add_clause_raw`, `cdcl.rs:715-749`; the index returned is the old number of clauses. -/
def Solver.addRaw (S : Solver) (lits : List Lit) (learned : Bool) : Solver :=
  let ci := S.clauses.length
  let S1 : Solver :=
    { S with
      clauses := S.clauses ++ [lits]
      log := if learned then S.log ++ [lits] else S.log }
  match lits with
  | [] => { S1 with empty := true }
  | [l] =>
    match S.val l with
    | some true => S1
    | some false => { S1 with empty := true }
    | none => S1.enqueue l (some ci)
  | a :: b :: rest => { S1 with watches := pushWatch S1.watches ci a b (rest.length + 2 == 2) }

/-- `code` of a literal as the packed integer `var << 1 | negated` (`cdcl.rs:27-68`). -/
def litCode (l : Lit) : Nat := 2 * l.var + (if l.pos then 0 else 1)

/-- `Vec::dedup`: drop consecutive repetitions. -/
def dedupAdj : List Lit → List Lit
  | [] => []
  | [a] => [a]
  | a :: b :: rest => if a = b then dedupAdj (b :: rest) else a :: dedupAdj (b :: rest)

/-- The `windows(2)` test of `add_clause`, `cdcl.rs:704-709`. -/
def adjVar : List Lit → Bool
  | a :: b :: rest => a.var == b.var || adjVar (b :: rest)
  | _ => false

/-- `sort_by_key` then `dedup`, `cdcl.rs:702-703`. -/
def normClause (lits : List Lit) : List Lit :=
  dedupAdj (sortBy (fun a b => decide (litCode a ≤ litCode b)) lits)

/-- `add_clause`, `cdcl.rs:700-711`. -/
def Solver.addClause (S : Solver) (lits : List Lit) : Solver :=
  if adjVar (normClause lits) then S else S.addRaw (normClause lits) false

/-! ## Unit propagation -/

/-- What visiting one watcher of a falsified literal does. -/
inductive Visit
  /-- keep watching (`wi += 1`), with the watcher as updated -/
  | keep (w : Watcher) (S : Solver)
  /-- the watch moved to another literal (`swap_remove(wi)`) -/
  | move (S : Solver)
  /-- conflict: the watcher's clause is false -/
  | conflict (w : Watcher) (S : Solver)
  | panic

/-- The search `for k in 2..clause_len`: the first literal of the rest that is not false, with what
stands before and after it. -/
def findWatch (S : Solver) (pre : List Lit) : List Lit → Option (List Lit × Lit × List Lit)
  | [] => none
  | l :: rest => if S.val l = some false then findWatch S (pre ++ [l]) rest else some (pre, l, rest)

/-- `clauses[ci].swap(0, 1)` when slot 0 is the falsified literal. -/
def frontOther (f : Lit) : List Lit → List Lit
  | a :: b :: rest => if a = f then b :: a :: rest else a :: b :: rest
  | c => c

/-- The body of the watcher loop, `cdcl.rs:801-856`. Simplification: a watched clause of fewer than two
literals is a panic outright (the code panics on an empty one, and on a one-literal one when its
literal is the falsified one). -/
def visit (S : Solver) (f : Lit) (w : Watcher) : Visit :=
  if S.val w.blocker = some true then .keep w S
  else if w.binary then
    if S.val w.blocker = some false then .conflict w S
    else .keep w (S.enqueue w.blocker (some w.clause))
  else
    match (S.clauses[w.clause]?).map (frontOther f) with
    | some (o :: s :: rest) =>
      let S1 : Solver := { S with clauses := S.clauses.set w.clause (o :: s :: rest) }
      let w1 : Watcher := { w with blocker := o }
      if S.val o = some true then .keep w1 S1
      else
        match findWatch S [] rest with
        | some (pre, lk, post) =>
          .move { S with
            clauses := S.clauses.set w.clause (o :: lk :: (pre ++ s :: post))
            watches := upd S.watches lk
              (S.watches lk ++ [⟨w.clause, o, (o :: s :: rest).length == 2⟩]) }
        | none =>
          if S.val o = some false then .conflict w1 S1
          else .keep w1 (S1.enqueue o (some w.clause))
    | _ => .panic

/-- outcome of propagation -/
inductive Prop1
  | done
  | conflict (ci : Nat)
  | panic
  deriving DecidableEq, Repr

/-- `swap_remove` of the head: the last watcher takes its place. -/
def swapHead (rest : List Watcher) : List Watcher :=
  match rest.getLast? with
  | none => []
  | some x => x :: rest.dropLast

/-- The watcher loop, `cdcl.rs:800-858`: `kept` is `watchers[..wi]`, the list is `watchers[wi..]`.
The first argument bounds the turns; `propagate` supplies the number of watchers. -/
def visitAll (f : Lit) : Nat → Solver → List Watcher → List Watcher → Prop1 × Solver
  | _, S, kept, [] => (.done, { S with watches := upd S.watches f kept })
  | 0, S, _, _ :: _ => (.panic, S)
  | k + 1, S, kept, w :: rest =>
    match visit S f w with
    | .keep w' S' => visitAll f k S' (kept ++ [w']) rest
    | .move S' => visitAll f k S' kept (swapHead rest)
    | .conflict w' S' => (.conflict w.clause, { S' with watches := upd S'.watches f (kept ++ w' :: rest) })
    | .panic => (.panic, S)

/-- `propagate`, `cdcl.rs:790-862`, with a bound on the trail literals processed. -/
def propLoop : Nat → Solver → Prop1 × Solver
  | 0, S => (.panic, S)
  | k + 1, S =>
    match S.trail[S.qhead]? with
    | none => (.done, S)
    | some p =>
      let ws := S.watches p.negated
      match visitAll p.negated ws.length
          { S with qhead := S.qhead + 1, watches := upd S.watches p.negated [] } [] ws with
      | (.done, S') => propLoop k S'
      | r => r

/-- `propagate`, `cdcl.rs:790-862`. No trail literal is processed twice and there are at most `num_vars`
of them. -/
def Solver.propagate (S : Solver) : Prop1 × Solver := propLoop (S.n + 1) S

/-! ## Conflict analysis -/

/-- The locals of `analyze`. Simplification: `seen` starts all-false (the code keeps the array between
calls and clears every mark it made before returning). -/
structure AState where
  seen : Nat → Bool
  counter : Nat
  learned : List Lit

/-- One literal of the clause being resolved, `cdcl.rs:880-895`. -/
def resolveLit (S : Solver) (p : Option Lit) (st : AState) (q : Lit) : AState :=
  if some q = p then st
  else if st.seen q.var = false ∧ 0 < S.level q.var then
    if S.level q.var = S.lim.length then
      { st with seen := upd st.seen q.var true, counter := st.counter + 1 }
    else { st with seen := upd st.seen q.var true, learned := st.learned ++ [q] }
  else st

/-- The walk down the trail, `cdcl.rs:875-915`: `none` is a panic (`trail_idx` or `counter`
underflowing, or the `unreachable!`). -/
def scanTrail (S : Solver) : List Lit → AState → Option (Lit × List Lit)
  | [], _ => none
  | l :: ls, st =>
    if st.seen l.var then
      match st.counter with
      | 0 => none
      | 1 => some (l, st.learned)
      | k + 2 =>
        match S.reason l.var with
        | none => none
        | some ci =>
          match S.clauses[ci]? with
          | none => none
          | some c =>
            scanTrail S ls
              (c.foldl (resolveLit S (some l)) ⟨upd st.seen l.var false, k + 1, st.learned⟩)
    else scanTrail S ls st

/-- `all` with a state threaded through and the usual short circuit. -/
def allS {σ : Type} (f : Lit → σ → Bool × σ) : List Lit → σ → Bool × σ
  | [], s => (true, s)
  | q :: qs, s =>
    match f q s with
    | (true, s') => allS f qs s'
    | (false, s') => (false, s')

/-- `lit_redundant`, `cdcl.rs:1003-1032`. The first argument is `48 - depth`. The cache maps a variable to
0 (unknown), 1 (redundant) or 2 (not). A reason that is not in the database (a panic in the code) is
treated as not redundant; it does not arise for literals on the trail (`Core.whyC`). -/
def litRedundant (S : Solver) (seen : Nat → Bool) : Nat → Lit → (Nat → Nat) → Bool × (Nat → Nat)
  | 0, lit, cache => (cache lit.var == 1, cache)
  | d + 1, lit, cache =>
    if cache lit.var = 1 then (true, cache)
    else if cache lit.var = 2 then (false, cache)
    else
      match (S.reason lit.var).bind (S.clauses[·]?) with
      | none => (false, upd cache lit.var 2)
      | some c =>
        let r := allS (fun q s =>
          if q.var = lit.var ∨ S.level q.var = 0 ∨ seen q.var = true then (true, s)
          else litRedundant S seen d q s) c cache
        (r.1, upd r.2 lit.var (if r.1 then 1 else 2))

/-- `minimize`, `cdcl.rs:967-1001`, on `learned = uip :: rest`. The cache starts all-zero: the code resets
every entry it set. -/
def minimize (S : Solver) (uip : Lit) (rest : List Lit) : List Lit :=
  let seen := fun v => decide (v ∈ (uip :: rest).map Lit.var)
  let cache := rest.foldl (fun cache l => (litRedundant S seen 48 l cache).2) (fun _ => 0)
  rest.filter fun l => cache l.var ≠ 1

/-- The search for the highest level, `cdcl.rs:929-937`, over `learned[1..]`; indices count from 0 at
`learned[1]`. -/
def bestLevel (S : Solver) : List Lit → Nat → Nat → Nat → Nat × Nat
  | [], _, bj, mi => (bj, mi)
  | l :: ls, i, bj, mi =>
    if bj < S.level l.var then bestLevel S ls (i + 1) (S.level l.var) i
    else bestLevel S ls (i + 1) bj mi

/-- `learned.swap(1, max_idx)`, `cdcl.rs:938-940`, on `learned[1..]`. -/
def swapFront (ls : List Lit) (j : Nat) : List Lit :=
  match ls, j with
  | a :: as, j + 1 =>
    match as[j]? with
    | some x => x :: as.set j a
    | none => a :: as
  | ls, _ => ls

/-- `analyze`, `cdcl.rs:867-960`: the learned clause and the level to return to. -/
def Solver.analyze (S : Solver) (ci : Nat) : Option (List Lit × Nat) :=
  match S.clauses[ci]? with
  | none => none
  | some c =>
    match scanTrail S S.trail.reverse (c.foldl (resolveLit S none) ⟨fun _ => false, 0, []⟩) with
    | none => none
    | some (p, learned) =>
      let rest := minimize S p.negated learned
      let (bj, mi) := bestLevel S rest 0 0 0
      some (p.negated :: swapFront rest mi, bj)

/-! ## Backtracking and clause deletion -/

/-- `heap_insert`, `cdcl.rs:608-616`, seen as a set. -/
def heapInsert (h : List Nat) (v : Nat) : List Nat := if v ∈ h then h else h ++ [v]

/-- One turn of the loop of `backtrack_to`, `cdcl.rs:1056-1066`. -/
def Solver.unassign (S : Solver) (l : Lit) : Solver :=
  { S with value := upd S.value l.var none, heap := heapInsert S.heap l.var }

/-- `backtrack_to`, `cdcl.rs:1051-1069`. -/
def Solver.backtrackTo (S : Solver) (lv : Nat) : Solver :=
  match S.lim[lv]? with
  | none => S
  | some target =>
    let S1 := (S.trail.drop target).reverse.foldl Solver.unassign S
    { S1 with trail := S.trail.take target, qhead := target, lim := S.lim.take lv }

/-- One turn of the rebuilding loop of `compact`, `cdcl.rs:1131-1138`. -/
def rewatch (cs : List Clause) (W : Lit → List Watcher) (i : Nat) : Lit → List Watcher :=
  match cs.getD i [] with
  | a :: b :: rest => pushWatch W i a b (rest.length + 2 == 2)
  | _ => W

/-- A variable carries a reason that is not an index of the database. -/
def Solver.badReason (S : Solver) (v : Nat) : Bool :=
  match S.reason v with | some ci => decide (S.clauses.length ≤ ci) | none => false

/-- `compact`, `cdcl.rs:1107-1139`: `none` is the panic of `remap[ci]` when a variable still carries a
reason that is not an index of the database. -/
def Solver.compact (S : Solver) (delete : Nat → Bool) : Option Solver :=
  let idx := List.range S.clauses.length
  if (idx.all fun i => !delete i) then some S
  else if (List.range S.n).any S.badReason then none
  else
    let surv := idx.filter fun i => !delete i
    let clauses := surv.map fun i => S.clauses.getD i []
    let remap := fun ci => if delete ci then ci else (surv.takeWhile (· ≠ ci)).length
    some { S with
      clauses := clauses
      reason := fun v => (S.reason v).map remap
      watches := (List.range clauses.length).foldl (rewatch clauses) (fun _ => []) }

/-- the clauses that are the reason of a literal on the trail, `cdcl.rs:1083-1088` -/
def Solver.locked (S : Solver) (ci : Nat) : Bool :=
  S.trail.any fun l => S.reason l.var == some ci

/-- `reduce_db`, `cdcl.rs:1080-1100`. Which half of the deletable clauses goes is decided by their LBD
scores; here `drop` answers for each clause. `none` is the panic of `locked[ci]` or of `compact`. -/
def Solver.reduceDb (S : Solver) (drop : Nat → Bool) : Option Solver :=
  if S.trail.any fun l => S.badReason l.var then none
  else S.compact fun ci =>
    decide (S.nOrig ≤ ci) && !S.locked ci && decide (2 < (S.clauses.getD ci []).length) && drop ci

/-! ## The main loops -/

/-- The search-steering answers of one turn of a main loop. -/
structure Choice where
  /-- position, among the variables in the heap, of the one it yields -/
  pop : List Nat → Nat
  /-- polarity of the decision -/
  phase : Nat → Bool
  /-- which deletable clauses a reduction deletes -/
  drop : Nat → Bool
  /-- restart after this conflict -/
  restart : Bool

/-- verdicts -/
inductive Verdict
  | sat (m : List Bool)
  | unsat
  | budget
  | pending
  | panic
  deriving DecidableEq, Repr

/-- `heap_pop`, `cdcl.rs:619-632`, seen as a set. -/
def heapPop (pop : List Nat → Nat) (h : List Nat) : Option (Nat × List Nat) :=
  match h[pop h % h.length]? with
  | none => none
  | some v => some (v, h.eraseIdx (pop h % h.length))

/-- `pick_branch`, `cdcl.rs:1495-1502`; the first argument bounds the turns. -/
def pickLoop (pop : List Nat → Nat) : Nat → Solver → Option Nat × Solver
  | 0, S => (none, S)
  | k + 1, S =>
    match heapPop pop S.heap with
    | none => (none, S)
    | some (v, h) =>
      let S1 : Solver := { S with heap := h }
      if S.value v = none then (some v, S1) else pickLoop pop k S1

def Solver.pickBranch (S : Solver) (pop : List Nat → Nat) : Option Nat × Solver :=
  pickLoop pop (S.heap.length + 1) S

/-- `trail_lim.push(trail.len()); enqueue(l, Decision)`, e.g. `cdcl.rs:1607-1609`. -/
def Solver.decide (S : Solver) (l : Lit) : Solver :=
  ({ S with lim := S.lim ++ [S.trail.length] } : Solver).enqueue l none

/-- the model read off the assignment, e.g. `cdcl.rs:1603` -/
def Solver.model (S : Solver) : List Bool :=
  (List.range S.n).map fun v => S.value v == some true

/-- Analyse a conflict, jump back and learn, `cdcl.rs:1573-1583` (also `1521-1531`, `1783-1791`). -/
def Solver.learn (S : Solver) (ci : Nat) : Option Solver :=
  match S.analyze ci with
  | none => none
  | some (learned, bj) =>
    let S1 := S.backtrackTo bj
    let S2 := S1.addRaw learned true
    match learned with
    | a :: _ :: _ => some (S2.enqueue a (some S1.clauses.length))
    | _ => some S2

/-- The clause-deletion step, `cdcl.rs:1591-1594`. -/
def Solver.maybeReduce (S : Solver) (drop : Nat → Bool) : Option Solver :=
  if S.reduceOn = true ∧ S.limit ≤ S.clauses.length - S.nOrig then
    (S.reduceDb drop).map fun S' => { S' with limit := S'.limit + 500 }
  else some S

/-- The main loop of `solve_budgeted`, `cdcl.rs:1568-1612`; `k` counts the conflicts of this call. -/
def budgetLoop (max : Nat) : List Choice → Nat → Solver → Verdict × Solver
  | [], _, S => (.pending, S)
  | ch :: chs, k, S =>
    match S.propagate with
    | (.panic, S1) => (.panic, S1)
    | (.conflict ci, S1) =>
      if S1.lim = [] then (.unsat, S1)
      else
        match S1.learn ci with
        | none => (.panic, S1)
        | some S2 =>
          if max ≠ 0 ∧ max ≤ k + 1 then (.budget, S2.backtrackTo 0)
          else
            match S2.maybeReduce ch.drop with
            | none => (.panic, S2)
            | some S3 => budgetLoop max chs (k + 1) (if ch.restart then S3.backtrackTo 0 else S3)
    | (.done, S1) =>
      match S1.pickBranch ch.pop with
      | (none, S2) => (.sat S2.model, S2)
      | (some v, S2) => budgetLoop max chs k (S2.decide ⟨v, ch.phase v⟩)

/-- `solve_budgeted`, `cdcl.rs:1556-1613`. -/
def Solver.solveBudgeted (S : Solver) (max : Nat) (chs : List Choice) : Verdict × Solver :=
  let S0 : Solver := { S with nOrig := S.clauses.length }
  if S0.empty then (.unsat, S0)
  else
    match S0.propagate with
    | (.panic, S1) => (.panic, S1)
    | (.conflict _, S1) => (.unsat, S1)
    | (.done, S1) => budgetLoop max chs 0 S1

/-- The first assumption that does not hold yet, `cdcl.rs:1797-1810`. -/
inductive Assume
  | holds
  | refuted
  | place (l : Lit)
  deriving DecidableEq, Repr

def firstOpen (S : Solver) : List Lit → Assume
  | [] => .holds
  | a :: as =>
    match S.val a with
    | some false => .refuted
    | some true => firstOpen S as
    | none => .place a

/-- The main loop of `solve_under_assumptions`, `cdcl.rs:1777-1828`. -/
def assumeLoop (as : List Lit) : List Choice → Solver → Verdict × Solver
  | [], S => (.pending, S)
  | ch :: chs, S =>
    match S.propagate with
    | (.panic, S1) => (.panic, S1)
    | (.conflict ci, S1) =>
      if S1.lim = [] then (.unsat, { S1 with empty := true })
      else
        match S1.learn ci with
        | none => (.panic, S1)
        | some S2 => assumeLoop as chs S2
    | (.done, S1) =>
      match firstOpen S1 as with
      | .refuted => (.unsat, S1)
      | .place a => assumeLoop as chs (S1.decide a)
      | .holds =>
        match S1.pickBranch ch.pop with
        | (none, S2) => (.sat S2.model, S2)
        | (some v, S2) => assumeLoop as chs (S2.decide ⟨v, ch.phase v⟩)

/-- `solve_under_assumptions`, `cdcl.rs:1763-1829`. -/
def Solver.solveAssuming (S : Solver) (as : List Lit) (chs : List Choice) : Verdict × Solver :=
  let S0 := S.backtrackTo 0
  if S0.empty then (.unsat, S0)
  else
    match S0.propagate with
    | (.panic, S1) => (.panic, S1)
    | (.conflict _, S1) => (.unsat, { S1 with empty := true })
    | (.done, S1) => assumeLoop as chs S1

/-- `original_clauses` (`cdcl.rs:694`). -/
def Solver.originals (S : Solver) : List (List Lit) := S.clauses.take S.nOrig

/-- A solver over `n` variables holding the clauses `F`, added one by one. -/
def load (n : Nat) (F : List (List Lit)) : Solver := F.foldl Solver.addClause (.new n)

end Verif.Sat
