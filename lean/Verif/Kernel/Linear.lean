import Verif.Common.BMap
import Verif.Kernel.Syntax
import Mathlib.Algebra.Order.Ring.Rat
/-!
# The linear-arithmetic procedures `lia` and `omega`

`/repo/crates/logicaffeine_kernel/src/lia.rs`, `omega.rs` and their callers in `reduction.rs`.
`Rational` and `BigInt` are modelled by `Rat` and `Int` (C44, C45 and C46 prove that they compute in
`ℚ` and `ℤ`).  `LinearExpr` and `IntExpr` are the same code over two number types, so one definition
stands for both.
-/
namespace Verif.Kernel

/-- `LinearExpr` (`lia.rs` 41-46) and `IntExpr` (`omega.rs` 50-55). -/
structure LExpr (R : Type) where
  const : R
  coeffs : BMap Int R

namespace LExpr
variable {R : Type} [Ring R] [DecidableEq R]

/-- `LinearExpr::constant` (`lia.rs` 50-55), `IntExpr::constant` (`omega.rs` 59-64). -/
def constant (c : R) : LExpr R := ⟨c, []⟩

/-- `LinearExpr::var` (`lia.rs` 58-65), `IntExpr::var` (`omega.rs` 67-74). -/
def var (i : Int) : LExpr R := ⟨0, [(i, 1)]⟩

/-- One step of the loop of `add` (`lia.rs` 71-80, `omega.rs` 80-86). -/
def addCoeff (m : BMap Int R) (e : Int × R) : BMap Int R :=
  if (BMap.get? e.1 m).getD 0 + e.2 = 0 then BMap.remove e.1 m
  else BMap.insert e.1 ((BMap.get? e.1 m).getD 0 + e.2) m

/-- `add` (`lia.rs` 68-82, `omega.rs` 77-88). -/
def add (a b : LExpr R) : LExpr R := ⟨a.const + b.const, b.coeffs.foldl addCoeff a.coeffs⟩

/-- `neg` (`lia.rs` 85-94, `omega.rs` 91-96). -/
def neg (a : LExpr R) : LExpr R := ⟨-a.const, a.coeffs.map (fun e => (e.1, -e.2))⟩

/-- `sub` (`lia.rs` 97-99, `omega.rs` 99-101). -/
def sub (a b : LExpr R) : LExpr R := add a (neg b)

/-- `scale` (`lia.rs` 102-115, `omega.rs` 104-118). -/
def scale (a : LExpr R) (c : R) : LExpr R :=
  if c = 0 then constant 0
  else ⟨a.const * c, (a.coeffs.map (fun e => (e.1, e.2 * c))).filter (fun e => decide (e.2 ≠ 0))⟩

/-- `is_constant` (`lia.rs` 118-120, `omega.rs` 121-123). -/
def isConstant (a : LExpr R) : Bool := a.coeffs.isEmpty

/-- `get_coeff` (`lia.rs` 123-128, `omega.rs` 126-128). -/
def getCoeff (a : LExpr R) (v : Int) : R := (BMap.get? v a.coeffs).getD 0

/-- `rest.coefficients.remove(&var)` (`lia.rs` 368-369, `omega.rs` 420-421). -/
def without (a : LExpr R) (v : Int) : LExpr R := ⟨a.const, BMap.remove v a.coeffs⟩

end LExpr

/-- `Constraint` (`lia.rs` 136-142) and `IntConstraint` (`omega.rs` 135-141): `expr < 0` when strict,
`expr ≤ 0` otherwise. -/
structure Constr (R : Type) where
  expr : LExpr R
  strict : Bool

/-- `is_satisfied_constant` (`lia.rs` 147-157, `omega.rs` 145-155). -/
def Constr.satisfiedConstant {R : Type} [Ring R] [LT R] [DecidableLT R] (c : Constr R) : Bool :=
  if c.expr.isConstant then
    (if c.strict then decide (c.expr.const < 0) else !decide (0 < c.expr.const))
  else true

/-- The product of `reify_linear` (`lia.rs` 220-230) and `reify_int_linear` (`omega.rs` 241-251): one
factor must have become constant. -/
def linearMul {R : Type} [Ring R] [DecidableEq R] (x y : LExpr R) : Option (LExpr R) :=
  if x.isConstant then some (y.scale x.const)
  else if y.isConstant then some (x.scale y.const)
  else none

/-- The algebra of `reify_linear` and `reify_int_linear`. -/
def linearAlgebra (R : Type) [Ring R] [DecidableEq R] : Algebra (LExpr R) where
  lit n := LExpr.constant (n : R)
  var := LExpr.var
  add := LExpr.add
  sub := LExpr.sub
  mul := linearMul

/-! ## `lia` -/

/-- `lia::goal_to_negated_constraint` (`lia.rs` 262-298). -/
def liaNegated (r : Rel) (a b : LExpr Rat) : Constr Rat :=
  match r with
  | .lt => ⟨b.sub a, false⟩
  | .le => ⟨b.sub a, true⟩
  | .gt => ⟨a.sub b, false⟩
  | .ge => ⟨a.sub b, true⟩

/-- The bound a constraint gives for the variable (`lia.rs` 368-371): `-rest / coeff`. -/
def liaBound (c : Constr Rat) (v : Int) : LExpr Rat × Bool :=
  (((c.expr.without v).neg).scale (c.expr.getCoeff v)⁻¹, c.strict)

/-- The constraints that do not mention the variable (`lia.rs` 355-359). -/
def independents (cs : List (Constr Rat)) (v : Int) : List (Constr Rat) :=
  cs.filter (fun c => decide (c.expr.getCoeff v = 0))

/-- The upper bounds (`lia.rs` 372-373). -/
def liaUpper (cs : List (Constr Rat)) (v : Int) : List (LExpr Rat × Bool) :=
  (cs.filter (fun c => decide (0 < c.expr.getCoeff v))).map (fun c => liaBound c v)

/-- The lower bounds (`lia.rs` 374-376). -/
def liaLower (cs : List (Constr Rat)) (v : Int) : List (LExpr Rat × Bool) :=
  (cs.filter (fun c => decide (c.expr.getCoeff v < 0))).map (fun c => liaBound c v)

/-- One combination (`lia.rs` 383-388): `lo - hi`, strict if either bound is. -/
def liaPair (lo hi : LExpr Rat × Bool) : Constr Rat := ⟨lo.1.sub hi.1, lo.2 || hi.2⟩

/-- `lia::eliminate_variable` (`lia.rs` 347-393).  The three vectors are filled in one pass in the
code. -/
def liaEliminate (cs : List (Constr Rat)) (v : Int) : List (Constr Rat) :=
  independents cs v ++
    (liaLower cs v).flatMap (fun lo => (liaUpper cs v).map (fun hi => liaPair lo hi))

/-- A constant constraint that does not hold (`lia.rs` 327-331). -/
def contradiction {R : Type} [Ring R] [LT R] [DecidableLT R] (cs : List (Constr R)) : Bool :=
  cs.any (fun c => c.expr.isConstant && !c.satisfiedConstant)

/-- The loop over the variables (`lia.rs` 323-336), then the last test (`lia.rs` 335). -/
def liaLoop : List Int → List (Constr Rat) → Bool
  | [], cs => cs.any (fun c => !c.satisfiedConstant)
  | v :: vs, cs =>
    if contradiction (liaEliminate cs v) then true else liaLoop vs (liaEliminate cs v)

/-- Sorted insertion without repetition: collecting into a set and sorting. -/
def insertVar (v : Int) : List Int → List Int
  | [] => [v]
  | w :: ws => if v = w then w :: ws else if v < w then v :: w :: ws else w :: insertVar v ws

/-- The variables, ascending (`lia.rs` 312-318). -/
def liaVars (cs : List (Constr Rat)) : List Int :=
  (cs.flatMap (fun c => c.expr.coeffs.map Prod.fst)).foldr insertVar []

/-- `fourier_motzkin_unsat` (`lia.rs` 306-337). -/
def fourierMotzkinUnsat (cs : List (Constr Rat)) : Bool :=
  if cs.isEmpty then false else liaLoop (liaVars cs) cs

/-- The test shared by `try_try_lia_reduce` (`reduction.rs` 2384-2416) and `try_dlia_solve_conclude`
(`reduction.rs` 2421-2445). -/
def liaAccepts (goal : Term) : Bool :=
  match extractComparison goal with
  | none => false
  | some (r, a, b) =>
    match reify (linearAlgebra Rat) a Interner.new with
    | (none, _) => false
    | (some x, v) =>
      match reify (linearAlgebra Rat) b v with
      | (none, _) => false
      | (some y, _) => fourierMotzkinUnsat [liaNegated r x y]

/-! ## `omega` -/

/-- The greatest common divisor of the non-zero coefficients and the constant (`omega.rs` 159-165).
The Euclidean recursion `gcd` (`omega.rs` 177-184) is Lean's `Nat.gcd`, the same recursion. -/
def exprGcd (a : LExpr Int) : Nat :=
  ((a.coeffs.map Prod.snd ++ [a.const]).filter (fun x => decide (x ≠ 0))).foldl
    (fun g x => Nat.gcd g x.natAbs) 0

/-- `normalize` (`omega.rs` 158-173); `exact_div` (`omega.rs` 187-189) is truncating division. -/
def Constr.normalize (c : Constr Int) : Constr Int :=
  if 1 < exprGcd c.expr then
    ⟨⟨Int.tdiv c.expr.const (exprGcd c.expr),
      c.expr.coeffs.map (fun e => (e.1, Int.tdiv e.2 (exprGcd c.expr)))⟩, c.strict⟩
  else c

/-- `omega::goal_to_negated_constraint` (`omega.rs` 279-322). -/
def omegaNegated (r : Rel) (a b : LExpr Int) : Constr Int :=
  match r with
  | .lt => ⟨b.sub a, false⟩
  | .le => ⟨(b.sub a).add (LExpr.constant 1), false⟩
  | .gt => ⟨a.sub b, false⟩
  | .ge => ⟨(a.sub b).add (LExpr.constant 1), false⟩

/-- The constraint of a hypothesis (`reduction.rs` 2620-2651). -/
def omegaFact (r : Rel) (a b : LExpr Int) : Constr Int :=
  match r with
  | .lt => ⟨(a.sub b).add (LExpr.constant 1), false⟩
  | .le => ⟨a.sub b, false⟩
  | .gt => ⟨(b.sub a).add (LExpr.constant 1), false⟩
  | .ge => ⟨b.sub a, false⟩

/-- Upper bounds: what is left, and the coefficient (`omega.rs` 423-426). -/
def omegaUpper (cs : List (Constr Int)) (v : Int) : List (LExpr Int × Int) :=
  (cs.filter (fun c => decide (0 < c.expr.getCoeff v))).map
    (fun c => (c.expr.without v, c.expr.getCoeff v))

/-- Lower bounds: what is left, and the coefficient negated (`omega.rs` 427-433). -/
def omegaLower (cs : List (Constr Int)) (v : Int) : List (LExpr Int × Int) :=
  (cs.filter (fun c => decide (c.expr.getCoeff v < 0))).map
    (fun c => (c.expr.without v, -c.expr.getCoeff v))

/-- One combination (`omega.rs` 448-458); strictness is dropped. -/
def omegaPair (lo hi : LExpr Int × Int) : Constr Int :=
  Constr.normalize ⟨(lo.1.scale hi.2).add (hi.1.scale lo.2), false⟩

/-- `eliminate_variable_int` (`omega.rs` 405-463). -/
def omegaEliminate (cs : List (Constr Int)) (v : Int) : List (Constr Int) :=
  cs.filter (fun c => decide (c.expr.getCoeff v = 0)) ++
    (omegaLower cs v).flatMap (fun lo => (omegaUpper cs v).map (fun hi => omegaPair lo hi))

/-- The loop over the variables (`omega.rs` 384-400). -/
def omegaLoop : List Int → List (Constr Int) → Bool
  | [], cs => contradiction cs
  | v :: vs, cs =>
    if contradiction (omegaEliminate cs v) then true else omegaLoop vs (omegaEliminate cs v)

/-- The variables of a system (`omega.rs` 374-381), before the hash set. -/
def omegaVars (cs : List (Constr Int)) : List Int :=
  cs.flatMap (fun c => c.expr.coeffs.map Prod.fst)

/-- `omega_unsat` (`omega.rs` 345-402).  `order` is the order in which the hash set of the variables is
walked: any list without repetition with the same elements as its argument. -/
def omegaUnsat (order : List Int → List Int) (cs : List (Constr Int)) : Bool :=
  if cs.isEmpty then false
  else if contradiction (cs.map Constr.normalize) then true
  else omegaLoop (order (omegaVars (cs.map Constr.normalize))) (cs.map Constr.normalize)

/-- What a hash set may give back: the same elements, each once. -/
def HashOrder (order : List Int → List Int) : Prop :=
  ∀ l, (order l).Nodup ∧ ∀ v, v ∈ order l ↔ v ∈ l

/-- `(Some(lhs), Some(rhs)) = (reify(lhs), reify(rhs))`: both sides are read whatever happens. -/
def readBoth (a b : Term) (v : Interner) : Option (LExpr Int × LExpr Int) × Interner :=
  match reify (linearAlgebra Int) a v with
  | (x, v1) =>
    match reify (linearAlgebra Int) b v1 with
    | (y, v2) =>
      match x, y with
      | some x, some y => (some (x, y), v2)
      | _, _ => (none, v2)

/-- `omega_hyp_constraints` (`reduction.rs` 2611-2658): the hypotheses that are not comparisons, or are
not linear, are skipped. -/
def omegaFacts : List Term → Interner → List (Constr Int) × Interner
  | [], v => ([], v)
  | h :: hs, v =>
    match extractComparison h with
    | none => omegaFacts hs v
    | some (r, a, b) =>
      match readBoth a b v with
      | (none, v) => omegaFacts hs v
      | (some (x, y), v) => (omegaFact r x y :: (omegaFacts hs v).1, (omegaFacts hs v).2)

/-- The test on the conclusion, with the facts (`reduction.rs` 2562-2582, 2592-2606). -/
def omegaConclude (order : List Int → List Int) (facts : List (Constr Int)) (v : Interner)
    (goal : Term) : Bool :=
  match extractComparison goal with
  | none => false
  | some (r, a, b) =>
    match readBoth a b v with
    | (none, _) => false
    | (some (x, y), _) => omegaUnsat order (facts ++ [omegaNegated r x y])

/-- The test shared by `try_try_omega_reduce` (`reduction.rs` 2551-2606) and
`try_domega_solve_conclude` (`reduction.rs` 2663-2705). -/
def omegaAccepts (order : List Int → List Int) (goal : Term) : Bool :=
  omegaConclude order (omegaFacts (extractImplications goal).1 Interner.new).1
    (omegaFacts (extractImplications goal).1 Interner.new).2 (extractImplications goal).2

end Verif.Kernel
