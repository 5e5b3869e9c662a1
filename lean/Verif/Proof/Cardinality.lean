import Verif.Proof.Cnf
import Verif.Common.Decimal
/-!
# Cardinality constraints

Model of `crates/logicaffeine_proof/src/cardinality.rs`.  Text is a list of characters; `format!("{aux}_{i}_{j}")` is
concatenation with decimal numbers.
-/

namespace Verif.Proof.Card
open Verif.Proof

/-- The text `__card_true`. -/
def trueName : List Char := ['_', '_', 'c', 'a', 'r', 'd', '_', 't', 'r', 'u', 'e']
/-- The text `__card_false`. -/
def falseName : List Char := ['_', '_', 'c', 'a', 'r', 'd', '_', 'f', 'a', 'l', 's', 'e']

/-- `tautology` (cardinality.rs:23-26). -/
def tautology : Expr := .or (.atom trueName) (.not (.atom trueName))

/-- `contradiction` (cardinality.rs:27-30). -/
def contradiction : Expr := .and (.atom falseName) (.not (.atom falseName))

/-- `conj` (cardinality.rs:31-37). -/
def conj : List Expr → Expr
  | [] => tautology
  | e :: es => es.foldl .and e

/-- The name of an auxiliary atom (cardinality.rs:51). -/
def auxName (aux : List Char) (i j : Nat) : List Char := aux ++ '_' :: (dec i ++ '_' :: dec j)

/-- The closure `s` (cardinality.rs:51). -/
def s (aux : List Char) (i j : Nat) : Expr := .atom (auxName aux i j)

/-- `vars[i - 1]` (cardinality.rs:59). -/
def nth (vars : List Expr) (i : Nat) : Expr := vars.getD (i - 1) (.other 0)

/-- The clauses of the first variable (cardinality.rs:54-57). -/
def firstRow (vars : List Expr) (k : Nat) (aux : List Char) : List Expr :=
  .implies (nth vars 1) (s aux 1 1) :: (List.range' 2 (k - 1)).map fun j => .not (s aux 1 j)

/-- The clauses of variable `i` (cardinality.rs:58-67). -/
def row (vars : List Expr) (k : Nat) (aux : List Char) (i : Nat) : List Expr :=
  [.implies (nth vars i) (s aux i 1), .implies (s aux (i - 1) 1) (s aux i 1)] ++
  ((List.range' 2 (k - 1)).flatMap fun j =>
    [.implies (.and (nth vars i) (s aux (i - 1) (j - 1))) (s aux i j), .implies (s aux (i - 1) j) (s aux i j)]) ++
  [.not (.and (nth vars i) (s aux (i - 1) k))]

/-- `at_most` (cardinality.rs:41-69). -/
def atMost (vars : List Expr) (k : Nat) (aux : List Char) : Expr :=
  if k ≥ vars.length then tautology
  else if k = 0 then conj (vars.map .not)
  else conj (firstRow vars k aux ++ (List.range' 2 (vars.length - 1)).flatMap (row vars k aux))

/-- `at_least` (cardinality.rs:72-82). -/
def atLeast (vars : List Expr) (k : Nat) (aux : List Char) : Expr :=
  if k = 0 then tautology
  else if k > vars.length then contradiction
  else atMost (vars.map .not) (vars.length - k) aux

/-- `exactly` (cardinality.rs:85-90). -/
def exactly (vars : List Expr) (k : Nat) (aux : List Char) : Expr :=
  .and (atLeast vars k (aux ++ ['_', 'g', 'e'])) (atMost vars k (aux ++ ['_', 'l', 'e']))

/-! ## Specification -/

/-- An atom occurs in a formula. -/
def Mentions (a : Expr) : Expr → Prop
  | .and p q | .or p q | .implies p q | .iff p q => Mentions a p ∨ Mentions a q
  | .not p => Mentions a p
  | e => e = a

/-- The auxiliary atoms under a prefix. -/
def IsAux (aux : List Char) (e : Expr) : Prop := ∃ i j, e = s aux i j

/-- No auxiliary atom under the prefix occurs in the constrained formulas. -/
def Fresh (aux : List Char) (vars : List Expr) : Prop := ∀ x ∈ vars, ∀ a, IsAux aux a → ¬ Mentions a x

end Verif.Proof.Card
