import Verif.Sat.Inproc
import Verif.Proof.Cnf
/-!
# The propositional entry points on top of the solver

Models `cdcl_entails` (`cnf.rs:297-305`), `entails_certified` (`rup.rs:34-72`) and `find_model`
(`sat.rs:69-83`) of `crates/logicaffeine_proof/src`, with the solver of `Sat/Cdcl.lean` and `Sat/Inproc.lean`
where `Proof/Cnf.lean` has an arbitrary engine. As there, what the search heuristics and the inprocessing
schedule answer is a parameter, one entry per turn of the main loop.
-/

namespace Verif.Sat
open Verif.Proof

/-- What a call of the code comes to: a value, a panic, or more turns of the main loop than the model was
given heuristic answers for. -/
inductive Ran (A : Type) where
  | value (a : A)
  | panics
  | running
  deriving DecidableEq

/-- `into_solver`, `cnf.rs:277-290`. -/
def intoSolver (s : Cnf) : Solver := load s.numVars s.clauses

/-- `cdcl_entails`, `cnf.rs:297-305`. -/
def cdclEntails (chs : List (Choice × Option Bool)) (ps : List Expr) (goal : Expr) : Ran (Option Bool) :=
  match Cnf.fromPremises ps with
  | none => .value none
  | some s =>
    match s.assertNeg goal with
    | none => .value none
    | some s1 =>
      match ((intoSolver s1).solve chs).1 with
      | .unsat => .value (some true)
      | .sat _ => .value (some false)
      | .panic => .panics
      | _ => .running

/-- `certified_from_cnf`, `rup.rs:50-72`. -/
def certifiedFrom (chs : List (Choice × Option Bool)) (s : Cnf) (goal : Expr) : Ran (Option Proof.Verdict) :=
  match s.assertNeg goal with
  | none => .value none
  | some s1 =>
    match (intoSolver s1).solve chs with
    | (.sat _, _) => .value (some .notEntailed)
    | (.unsat, S) =>
      match checkRefutation s1.numVars S.originals S.log with
      | none => .panics
      | some true => .value (some .entailed)
      | some false => .value none
    | (.panic, _) => .panics
    | _ => .running

/-- `entails_certified`, `rup.rs:34-40`. -/
def certifiedEntails (chs : List (Choice × Option Bool)) (ps : List Expr) (goal : Expr) : Ran (Option Proof.Verdict) :=
  match Cnf.fromPremises ps with
  | none => .value none
  | some s => certifiedFrom chs s goal

/-- `collect_atoms`, `sat.rs:433-449`, in order of visit; `BTreeSet` order and uniqueness are put in by
`atomNames`. -/
def lettersOf : Expr → List (List Char)
  | .atom n => [n]
  | .not p => lettersOf p
  | .and p q | .or p q | .implies p q | .iff p q => lettersOf p ++ lettersOf q
  | _ => []

/-- The `BTreeSet` of `decode_model_from`, iterated in order (`sat.rs:412-416`). -/
def atomNames (e : Expr) : List (List Char) := Proof.dedupAdj (sortBy leChars (lettersOf e))

/-- `decode_model_from`, `sat.rs:407-427`. -/
def decodeModel (s : Cnf) (model : List Bool) (e : Expr) : List (List Char × Bool) :=
  (atomNames e).filterMap fun n =>
    match s.atomOf.get? (['a', 't', 'o', 'm', ':'] ++ n) with
    | none => none
    | some v => (model[v]?).map fun b => (n, b)

/-- `ModelOutcome`, `sat.rs:27-36`. -/
inductive ModelOutcome where
  | sat (bindings : List (List Char × Bool))
  | unsat
  | unsupported
  deriving DecidableEq

/-- `find_model`, `sat.rs:69-83`. -/
def findModel (chs : List (Choice × Option Bool)) (e : Expr) : Ran ModelOutcome :=
  match Cnf.assert e Cnf.new with
  | none => .value .unsupported
  | some s =>
    match ((intoSolver s).solve chs).1 with
    | .unsat => .value .unsat
    | .sat mdl => .value (.sat (decodeModel s mdl e))
    | .panic => .panics
    | _ => .running

end Verif.Sat
