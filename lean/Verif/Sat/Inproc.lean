import Verif.Sat.Cdcl
/-!
# Inprocessing and `solve` (`crates/logicaffeine_proof/src/cdcl.rs`)

Failed-literal probing, subsumption and self-subsuming resolution, vivification, and the main loop of
`solve` that runs them after a restart. Conventions as in `Cdcl.lean`. `rephase` only changes saved phases
(a heuristic) and is left out, and so are the counters.
-/

namespace Verif.Sat
open Verif.Proof

/-- Result of an inprocessing step: go on, formula refuted (`return false`), or a Rust panic. -/
inductive Round
  | ok (S : Solver)
  | unsat (S : Solver)
  | panic (S : Solver)

/-- `watches[a].swap_remove(p)` at the first watcher of clause `ci`, `cdcl.rs:1149-1151`. -/
def dropFirst (ci : Nat) : List Watcher → List Watcher
  | [] => []
  | w :: rest => if w.clause = ci then swapHead rest else w :: dropFirst ci rest

/-- `unwatch`, `cdcl.rs:1144-1155`. -/
def Solver.unwatch (S : Solver) (ci : Nat) : Solver :=
  match S.clauses.getD ci [] with
  | a :: b :: _ =>
    let W := upd S.watches a (dropFirst ci (S.watches a))
    { S with watches := upd W b (dropFirst ci (W b)) }
  | _ => S

/-- `rewatch`, `cdcl.rs:1159-1167`. -/
def Solver.rewatchAt (S : Solver) (ci : Nat) : Solver :=
  match S.clauses.getD ci [] with
  | a :: b :: rest => { S with watches := pushWatch S.watches ci a b (rest.length + 2 == 2) }
  | _ => S

/-- propagation at the top level as the rounds use it: a conflict refutes the formula -/
def Solver.settle (S : Solver) : Round :=
  match S.propagate with
  | (.panic, S1) => .panic S1
  | (.conflict _, S1) => .unsat S1
  | (.done, S1) => .ok S1

/-- A clause that has shrunk to the unit `u`, `cdcl.rs:1245-1260` and `1416-1428`. -/
def Solver.settleUnit (S : Solver) (u : Lit) (ci : Nat) : Round :=
  match S.val u with
  | some false => .unsat { S with empty := true }
  | some true => S.settle
  | none => (S.enqueue u (some ci)).settle

/-- Put a shrunk clause back, `cdcl.rs:1238-1266` and `1403-1435`. -/
def Solver.replace (S : Solver) (ci : Nat) (c : List Lit) : Round :=
  let S1 : Solver := { S with clauses := S.clauses.set ci c, log := S.log ++ [c] }
  match c with
  | [] => .unsat { S1 with empty := true }
  | [u] => S1.settleUnit u ci
  | _ => .ok (S1.rewatchAt ci)

/-! ## Vivification -/

/-- Outcome of the trial decisions of `vivify_clause`. -/
structure Trial where
  short : Bool
  kept : List Lit
  st : Solver

/-- The loop of `vivify_clause`, `cdcl.rs:1185-1204`; `none` is a panic. -/
def vivLoop (len : Nat) : List Lit → Bool → List Lit → Solver → Option Trial
  | [], sh, kept, S => some ⟨sh, kept, S⟩
  | l :: ls, sh, kept, S =>
    match S.val l with
    | some false => vivLoop len ls true kept S
    | some true => some ⟨decide ((kept ++ [l]).length < len), kept ++ [l], S⟩
    | none =>
      match (S.decide l.negated).propagate with
      | (.panic, _) => none
      | (.conflict _, S1) => some ⟨decide ((kept ++ [l]).length < len), kept ++ [l], S1⟩
      | (.done, S1) => vivLoop len ls sh (kept ++ [l]) S1

/-- One clause of `vivify_round`, `cdcl.rs:1229-1267`, with `vivify_clause`, `1181-1211`. -/
def Solver.vivifyAt (S : Solver) (ci : Nat) : Round :=
  let c := S.clauses.getD ci []
  match vivLoop c.length c false [] (S.unwatch ci) with
  | none => .panic S
  | some t =>
    let S1 := t.st.backtrackTo 0
    if t.short = true ∧ t.kept ≠ [] then S1.replace ci t.kept else .ok (S1.rewatchAt ci)

/-- The clauses in turn; the first number is what is left of the budget. -/
def vivifyAll : Nat → List Nat → Solver → Round
  | _, [], S => .ok S
  | cap, ci :: cis, S =>
    match cap with
    | 0 => .ok S
    | cap + 1 =>
      if (S.clauses.getD ci []).length < 2 then vivifyAll (cap + 1) cis S
      else
        match S.vivifyAt ci with
        | .ok S' => vivifyAll cap cis S'
        | r => r

/-- `vivify_round`, `cdcl.rs:1219-1270`. -/
def Solver.vivifyRound (S : Solver) (budget : Nat) : Round :=
  match (S.backtrackTo 0).settle with
  | .ok S0 =>
    let n := S0.clauses.length
    vivifyAll (if budget = 0 then n else budget) ((List.range n).drop S0.nOrig) S0
  | r => r

/-! ## Failed-literal probing -/

/-- One probe, `cdcl.rs:1293-1309`. -/
def Solver.probeLit (S : Solver) (p : Lit) : Round :=
  match (S.decide p).propagate with
  | (.panic, S1) => .panic S1
  | (.done, S1) => .ok (S1.backtrackTo 0)
  | (.conflict _, S1) =>
    let S2 := (S1.backtrackTo 0).addRaw [p.negated] true
    if S2.empty then .unsat S2 else S2.settle

/-- Both phases of a variable, `cdcl.rs:1291-1310`. -/
def Solver.probeVar (S : Solver) (v : Nat) : Round :=
  match S.probeLit ⟨v, true⟩ with
  | .ok S1 => if S1.value v = none then S1.probeLit ⟨v, false⟩ else .ok S1
  | r => r

def probeAll : Nat → List Nat → Solver → Round
  | _, [], S => .ok S
  | cap, v :: vs, S =>
    match cap with
    | 0 => .ok S
    | cap + 1 =>
      if S.value v = none then
        match S.probeVar v with
        | .ok S' => probeAll cap vs S'
        | r => r
      else probeAll (cap + 1) vs S

/-- `probe_round`, `cdcl.rs:1276-1313`. -/
def Solver.probeRound (S : Solver) (budget : Nat) : Round :=
  match (S.backtrackTo 0).settle with
  | .ok S0 => probeAll (if budget = 0 then S0.n else budget) (List.range S0.n) S0
  | r => r

/-! ## Subsumption -/

/-- `Sub`, `cdcl.rs:1835-1844`; the code carried is the literal it codes. -/
inductive Sub
  | subsumes
  | strengthen (l : Lit)
  | no
  deriving DecidableEq, Repr

/-- The loop of `self_subsumes`, `cdcl.rs:1849-1862`. The binary searches are membership tests
in a sorted vector. -/
def subLoop (d : List Lit) : Option Lit → List Lit → Sub
  | none, [] => .subsumes
  | some p, [] => .strengthen p
  | pivot, x :: xs =>
    if x ∈ d then subLoop d pivot xs
    else if x.negated ∈ d then
      match pivot with
      | some _ => .no
      | none => subLoop d (some x.negated) xs
    else .no

/-- `self_subsumes`, `cdcl.rs:1848-1867`. -/
def selfSubsumes (c d : List Lit) : Sub := subLoop d none c

/-- `occ[v]`, `cdcl.rs:1344-1349`: the clauses in which the variable occurs. -/
def occOf (coded : List (List Lit)) (v : Nat) : List Nat :=
  (List.range coded.length).flatMap fun ci =>
    ((coded.getD ci []).filter fun l => l.var == v).map fun _ => ci

/-- `min_by_key`: the first literal with the fewest occurrences, `cdcl.rs:1368-1371`. -/
def rarest (occ : Nat → Nat) : List Lit → Option Lit
  | [] => none
  | l :: ls =>
    match rarest occ ls with
    | none => some l
    | some m => if occ l.var ≤ occ m.var then some l else some m

/-- The inner loop of `subsume_round`, `cdcl.rs:1373-1397`, for clause `di`; the number is `96 - tried`.
The signature test `sigs[ci] & !sigs[di]` is left out: it only skips clauses that `self_subsumes`
answers `No` for. -/
def findSub (coded : List (List Lit)) (delete : List Nat) (di : Nat) : Nat → List Nat → Sub
  | _, [] => .no
  | tries, ci :: cis =>
    if ci = di ∨ ci ∈ delete then findSub coded delete di tries cis
    else
      match tries with
      | 0 => .no
      | tries + 1 =>
        if (coded.getD di []).length < (coded.getD ci []).length then findSub coded delete di tries cis
        else
          match selfSubsumes (coded.getD ci []) (coded.getD di []) with
          | .no => findSub coded delete di tries cis
          | r => r

/-- The outer loop, `cdcl.rs:1360-1399`: the clauses to delete and the literals to drop. -/
def subScan (coded : List (List Lit)) (locked : Nat → Bool) :
    Nat → List Nat → List Nat → List (Nat × Lit) → List Nat × List (Nat × Lit)
  | _, [], del, str => (del, str)
  | cap, di :: dis, del, str =>
    match cap with
    | 0 => (del, str)
    | cap + 1 =>
      if (coded.getD di []).length < 2 ∨ di ∈ del then subScan coded locked (cap + 1) dis del str
      else
        match rarest (fun v => (occOf coded v).length) (coded.getD di []) with
        | none => subScan coded locked cap dis del str
        | some r =>
          match findSub coded del di 96 (occOf coded r.var) with
          | .subsumes => subScan coded locked cap dis (if locked di then del else di :: del) str
          | .strengthen l => subScan coded locked cap dis del (str ++ [(di, l)])
          | .no => subScan coded locked cap dis del str

/-- The strengthening loop, `cdcl.rs:1400-1436`. -/
def strengthenAll (del : List Nat) : List (Nat × Lit) → Solver → Round
  | [], S => .ok S
  | (di, l) :: rest, S =>
    if di ∈ del then strengthenAll del rest S
    else
      let S1 := S.unwatch di
      match S1.replace di ((S1.clauses.getD di []).filter fun x => decide (x ≠ l)) with
      | .ok S2 => strengthenAll del rest S2
      | r => r

/-- `subsume_round`, `cdcl.rs:1323-1440`. -/
def Solver.subsumeRound (S : Solver) (budget : Nat) : Round :=
  match (S.backtrackTo 0).settle with
  | .ok S0 =>
    let n := S0.clauses.length
    if n ≤ S0.nOrig then .ok S0
    else
      let coded := S0.clauses.map normClause
      let scan := subScan coded S0.locked (if budget = 0 then n else budget) ((List.range n).drop S0.nOrig) [] []
      match strengthenAll scan.1 scan.2 S0 with
      | .ok S1 =>
        match S1.compact fun ci => scan.1.contains ci with
        | none => .panic S1
        | some S2 => .ok S2
      | r => r
  | r => r

/-! ## `solve` -/

/-- `inprocess`, `cdcl.rs:1460-1481`; `probing` is `probe_active`. -/
def Solver.inprocess (S : Solver) (probing : Bool) : Round :=
  match (if probing then S.probeRound 256 else .ok S) with
  | .ok S1 =>
    match S1.subsumeRound 600 with
    | .ok S2 => S2.vivifyRound 400
    | r => r
  | r => r

/-- The main loop of `solve_with`, `cdcl.rs:1632-1747`, without theories. With each turn's choice comes
whether the inprocessing schedule is due after a restart, and then whether probing is active. -/
def solveLoop : List (Choice × Option Bool) → Solver → Verdict × Solver
  | [], S => (.pending, S)
  | (ch, ip) :: chs, S =>
    match S.propagate with
    | (.panic, S1) => (.panic, S1)
    | (.conflict ci, S1) =>
      if S1.lim = [] then (.unsat, S1)
      else
        match S1.learn ci with
        | none => (.panic, S1)
        | some S2 =>
          match S2.maybeReduce ch.drop with
          | none => (.panic, S2)
          | some S3 =>
            if ch.restart then
              match ip with
              | none => solveLoop chs (S3.backtrackTo 0)
              | some probing =>
                match (S3.backtrackTo 0).inprocess probing with
                | .ok S4 => solveLoop chs S4
                | .unsat S4 => (.unsat, S4)
                | .panic S4 => (.panic, S4)
            else solveLoop chs S3
    | (.done, S1) =>
      match S1.pickBranch ch.pop with
      | (none, S2) => (.sat S2.model, S2)
      | (some v, S2) => solveLoop chs (S2.decide ⟨v, ch.phase v⟩)

/-- `solve`, `cdcl.rs:1548-1550`, with `solve_with`, `1617-1749`. -/
def Solver.solve (S : Solver) (chs : List (Choice × Option Bool)) : Verdict × Solver :=
  let S0 : Solver := { S with nOrig := S.clauses.length }
  if S0.empty then (.unsat, S0)
  else
    match S0.propagate with
    | (.panic, S1) => (.panic, S1)
    | (.conflict _, S1) => (.unsat, S1)
    | (.done, S1) => solveLoop chs S1

end Verif.Sat
