import Verif.Proof.Unify
import Verif.Common.Decimal
/-!
# Unification and one-sided matching of formulas

Models the formula level of `crates/logicaffeine_proof/src/unify.rs` for formulas built from
predicates, identities, atoms, connectives, negation, quantifiers, lambda, and unary and binary temporal
operators.  Not modelled: application, constructors, `match`, fixpoints and events (for the
modelled formulas `beta_reduce` is the identity, since only application and `match` reduce), and the
variants that never unify (modal operators, counterfactuals, typed variables, holes, embedded terms).
-/

namespace Verif.Proof

/-- Binary connectives; `TemporalBinary` carries its operator name. -/
inductive BinOp where
  | and | or | implies | iff | temporal (op : List Char)
  deriving DecidableEq

/-- Unary operators; `Temporal` carries its operator name. -/
inductive UnOp where
  | not | temporal (op : List Char)
  deriving DecidableEq

/-- `ForAll`, `Exists`, `Lambda`. -/
inductive Binder where
  | all | ex | lam
  deriving DecidableEq

/-- `ProofExpr` (`lib.rs:199-340`), the variants named above. -/
inductive QExpr where
  | pred (name : List Char) (args : List Term) (world : Option (List Char))
  | ident (a b : Term)
  | atom (name : List Char)
  | bin (op : BinOp) (a b : QExpr)
  | un (op : UnOp) (a : QExpr)
  | quant (q : Binder) (x : List Char) (body : QExpr)

/-- The binder of a substituted formula: renamed only if its variable is mapped to a variable
(`unify.rs:1497-1500`, `1507-1510`, `1539-1542`). -/
def newBinder (s : Subst) (x : List Char) : List Char :=
  match s x with
  | some (.var y) => y
  | _ => x

/-- `apply_subst_to_expr` (`unify.rs:1469-1600`). -/
def applyExpr (n : Nat) (s : Subst) : QExpr → Option QExpr
  | .pred p args w => (mapAll (applyTerm n s) args).map fun as => .pred p as w
  | .ident a b => match applyTerm n s a, applyTerm n s b with
    | some a', some b' => some (.ident a' b')
    | _, _ => none
  | .atom p => some (.atom p)
  | .bin op a b => match applyExpr n s a, applyExpr n s b with
    | some a', some b' => some (.bin op a' b')
    | _, _ => none
  | .un op a => (applyExpr n s a).map (.un op)
  | .quant q x b => (applyExpr n s b).map (.quant q (newBinder s x))

/-- `fresh_alpha_constant` (`unify.rs:86-89`). -/
def alphaConst (id : Nat) : Term := .const ('#' :: 'α' :: dec id)

/-- The disagreement of two worlds (`unify.rs:1270-1278`): only if both are present. -/
def worldsClash : Option (List Char) → Option (List Char) → Bool
  | some a, some b => a ≠ b
  | _, _ => false

/-- `unify_exprs_with_subst` (`unify.rs:1238-1445`). The number is the global counter of alpha
constants, returned with the substitution. -/
def unifyExpr : Nat → Nat → QExpr → QExpr → Subst → Option (Except UErr (Subst × Nat))
  | 0, _, _, _, _ => none
  | n + 1, id, e1, e2, s => match e1, e2 with
    | .atom a, .atom b => if a = b then some (.ok (s, id)) else some (.error .exprUnificationFailed)
    | .pred p as w, .pred q bs w' =>
      if p ≠ q then some (.error .symbolMismatch)
      else if as.length ≠ bs.length then some (.error .arityMismatch)
      else if worldsClash w w' then some (.error .symbolMismatch)
      else (unifyArgs (unifyTerm n) as bs s).map fun r => r.map fun s' => (s', id)
    | .ident a b, .ident c d => match unifyTerm n a c s with
      | none => none
      | some (.error e) => some (.error e)
      | some (.ok s') => (unifyTerm n b d s').map fun r => r.map fun s' => (s', id)
    | .bin op a b, .bin op' c d =>
      if op = op' then match unifyExpr n id a c s with
        | none => none
        | some (.error e) => some (.error e)
        | some (.ok (s', id')) => unifyExpr n id' b d s'
      else some (.error .exprUnificationFailed)
    | .un op a, .un op' b =>
      if op = op' then unifyExpr n id a b s else some (.error .exprUnificationFailed)
    | .quant q x b, .quant q' y c =>
      if q = q' then
        match applyExpr n (Subst.insert .empty x (alphaConst id)) b,
          applyExpr n (Subst.insert .empty y (alphaConst id)) c with
        | some b', some c' => unifyExpr n (id + 1) b' c' s
        | _, _ => none
      else some (.error .exprUnificationFailed)
    | _, _ => some (.error .exprUnificationFailed)

/-- `unify_exprs` (`unify.rs:1231-1235`), with the counter at `id`. -/
def unifyExprs (n id : Nat) (e1 e2 : QExpr) : Option (Except UErr (Subst × Nat)) :=
  unifyExpr n id e1 e2 .empty

/-- Derived `PartialEq` of formulas. -/
def exprEq : QExpr → QExpr → Bool
  | .pred p as w, .pred q bs w' => decide (p = q) && termsEq as bs && decide (w = w')
  | .ident a b, .ident c d => termEq a c && termEq b d
  | .atom a, .atom b => a = b
  | .bin op a b, .bin op' c d => decide (op = op') && exprEq a c && exprEq b d
  | .un op a, .un op' b => decide (op = op') && exprEq a b
  | .quant q x b, .quant q' y c => decide (q = q') && decide (x = y) && exprEq b c
  | _, _ => false

/-- `match_expr_into` (`unify.rs:1987-2039`). Temporal operators and lambda are not walked. -/
def matchExpr (bnd : List (List Char)) : QExpr → QExpr → Subst → Option Subst
  | .pred p as w, e, s => match e with
    | .pred q bs w' =>
      if p ≠ q ∨ as.length ≠ bs.length ∨ w ≠ w' then none else matchTerms bnd as bs s
    | _ => none
  | .ident a b, e, s => match e with
    | .ident c d => match matchTerm bnd a c s with
      | none => none
      | some s' => matchTerm bnd b d s'
    | _ => none
  | .atom a, e, s => match e with
    | .atom b => if a = b then some s else none
    | _ => none
  | .bin op a b, e, s => match op, e with
    | .temporal _, e => if exprEq (.bin op a b) e then some s else none
    | op, .bin op' c d => if op = op' then
        match matchExpr bnd a c s with
        | none => none
        | some s' => matchExpr bnd b d s'
      else none
    | _, _ => none
  | .un op a, e, s => match op, e with
    | .temporal _, e => if exprEq (.un op a) e then some s else none
    | .not, .un .not b => matchExpr bnd a b s
    | _, _ => none
  | .quant q x b, e, s => match q, e with
    | .lam, e => if exprEq (.quant q x b) e then some s else none
    | q, .quant q' y c => if q = q' ∧ x = y then matchExpr (x :: bnd) b c s else none
    | _, _ => none

/-- `match_expr_pattern` (`unify.rs:1907-1915`). -/
def matchExprPattern (p t : QExpr) : Option Subst := matchExpr [] p t .empty

end Verif.Proof
