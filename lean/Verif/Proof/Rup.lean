import Verif.Proof.Lit
/-!
# The reverse-unit-propagation checker

Models `crates/logicaffeine_proof/src/rup.rs`. `none` is the out-of-bounds panic a literal whose
variable is not below `num_vars` causes.
-/

namespace Verif.Proof

/-- A partial assignment, `Vec<Option<bool>>` (`rup.rs:89`). -/
abbrev PAssign := List (Option Bool)

/-- `lit_val` (`rup.rs:101-103`). -/
def litVal (a : PAssign) (l : Lit) : Option (Option Bool) :=
  match a[l.var]? with
  | none => none
  | some o => some (o.map fun b => if l.pos then b else !b)

/-- `set_true` (`rup.rs:107-116`): the flag is the returned boolean, the list the mutated slice. -/
def setTrue (a : PAssign) (l : Lit) : Option (Bool × PAssign) :=
  match litVal a l with
  | none => none
  | some (some true) => some (true, a)
  | some (some false) => some (false, a)
  | some none => some (true, a.set l.var (some l.pos))

/-- What the literal loop found in one clause (`rup.rs:127-147`). -/
inductive Scan where
  | panic
  | satisfied
  | unset (ls : List Lit)
  deriving DecidableEq, Repr

/-- The literal loop of `propagate` (`rup.rs:127-147`). -/
def scan (a : PAssign) (unset : List Lit) : Clause → Scan
  | [] => .unset unset
  | l :: ls =>
    match litVal a l with
    | none => .panic
    | some (some true) => .satisfied
    | some (some false) => scan a unset ls
    | some none =>
      if l.negated ∈ unset then .satisfied
      else if l ∈ unset then scan a unset ls
      else scan a (unset ++ [l]) ls

/-- What one sweep over the clauses did (`rup.rs:121-160`). -/
inductive Sweep where
  | panic
  | conflict
  | done (a : PAssign) (changed : Bool)
  deriving DecidableEq, Repr

/-- The clause loop of `propagate` (`rup.rs:123-157`). -/
def sweep (a : PAssign) (changed : Bool) : List Clause → Sweep
  | [] => .done a changed
  | c :: cs =>
    match scan a [] c with
    | .panic => .panic
    | .satisfied => sweep a changed cs
    | .unset [] => .conflict
    | .unset [l] =>
      match setTrue a l with
      | none => .panic
      | some (_, a') => sweep a' true cs
    | .unset (_ :: _ :: _) => sweep a changed cs

/-- The outer loop of `propagate` (`rup.rs:120-162`) with a step budget; `propagate_complete` in
`RupLemmas` shows the budget used by `propagate` is never the reason it stops. -/
def propagateF (db : List Clause) : Nat → PAssign → Option Bool
  | 0, _ => some false
  | n + 1, a =>
    match sweep a false db with
    | .panic => none
    | .conflict => some true
    | .done a' true => propagateF db n a'
    | .done _ false => some false

/-- `propagate` (`rup.rs:120-162`): every sweep but the last assigns a variable. -/
def propagate (db : List Clause) (a : PAssign) : Option Bool :=
  propagateF db (a.length + 1) a

/-- Outcome of assuming literals one after another. -/
inductive Assume where
  | panic
  | clash
  | ok (a : PAssign)
  deriving DecidableEq, Repr

/-- The assumption loop (`rup.rs:90-95`, `pr.rs:200-204`). -/
def assume (a : PAssign) : List Lit → Assume
  | [] => .ok a
  | l :: ls =>
    match setTrue a l with
    | none => .panic
    | some (false, _) => .clash
    | some (true, a') => assume a' ls

/-- `up_conflict` (`pr.rs:198-206`). -/
def upConflict (numVars : Nat) (db : List Clause) (ls : List Lit) : Option Bool :=
  match assume (List.replicate numVars none) ls with
  | .panic => none
  | .clash => some true
  | .ok a => propagate db a

/-- `is_rup` (`rup.rs:88-97`): assume the negation of every literal, then propagate. The loop is the
one of `up_conflict` over the negated literals. -/
def isRup (numVars : Nat) (db : List Clause) (c : Clause) : Option Bool :=
  upConflict numVars db (c.map Lit.negated)

/-- `check_refutation` (`rup.rs:74-84`). -/
def checkRefutation (numVars : Nat) (db : List Clause) : List Clause → Option Bool
  | [] => isRup numVars db []
  | c :: cs =>
    match isRup numVars db c with
    | none => none
    | some false => some false
    | some true => checkRefutation numVars (db ++ [c]) cs

end Verif.Proof
