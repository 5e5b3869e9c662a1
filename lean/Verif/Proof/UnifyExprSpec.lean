import Verif.Proof.UnifyExpr
import Verif.Proof.UnifySpec
/-!
# Specification of substitutions in formulas

Independent of the functions of `unify.rs`.
-/

namespace Verif.Proof

/-- Specification: `s` without the binding of `x`. -/
def without (s : List Char → Option Term) (x : List Char) : List Char → Option Term :=
  fun v => if v = x then none else s v

/-- Specification: free variables of a formula replaced at once; a quantified variable is left alone
in its scope. -/
def fillExpr : (List Char → Option Term) → QExpr → QExpr
  | s, .pred p as w => .pred p (fills s as) w
  | s, .ident a b => .ident (fill s a) (fill s b)
  | _, .atom p => .atom p
  | s, .bin op a b => .bin op (fillExpr s a) (fillExpr s b)
  | s, .un op a => .un op (fillExpr s a)
  | s, .quant q x b => .quant q x (fillExpr (without s x) b)

/-- Specification: `v` is a free variable of the formula. -/
def HasVarE (v : List Char) : QExpr → Prop
  | .pred _ as _ => HasVars v as
  | .ident a b => HasVar v a ∨ HasVar v b
  | .atom _ => False
  | .bin _ a b => HasVarE v a ∨ HasVarE v b
  | .un _ a => HasVarE v a
  | .quant _ x b => x ≠ v ∧ HasVarE v b

/-- Specification: no replacement mentions a variable quantified around the replaced one. -/
def CaptureFree : (List Char → Option Term) → QExpr → Prop
  | _, .pred _ _ _ => True
  | _, .ident _ _ => True
  | _, .atom _ => True
  | s, .bin _ a b => CaptureFree s a ∧ CaptureFree s b
  | s, .un _ a => CaptureFree s a
  | s, .quant _ x b =>
    (∀ v, HasVarE v b → v ≠ x → ¬ Mentions (fun w => w = x) ((s v).getD (.var v))) ∧
      CaptureFree (without s x) b

/-- Specification: a name occurs in the formula, free or as a bound variable reference, outside every
scope of the same name. -/
def FreeName (w : List Char) : QExpr → Prop
  | .pred _ as _ => MentionsSome (fun u => u = w) as
  | .ident a b => Mentions (fun u => u = w) a ∨ Mentions (fun u => u = w) b
  | .atom _ => False
  | .bin _ a b => FreeName w a ∨ FreeName w b
  | .un _ a => FreeName w a
  | .quant _ x b => x ≠ w ∧ FreeName w b

/-- Specification: `x` is quantified somewhere in the formula. -/
def Quantified (x : List Char) : QExpr → Prop
  | .pred _ _ _ => False
  | .ident _ _ => False
  | .atom _ => False
  | .bin _ a b => Quantified x a ∨ Quantified x b
  | .un _ a => Quantified x a
  | .quant _ y b => y = x ∨ Quantified x b

/-- Specification: only predicates, identities, atoms, propositional connectives, `∀` and `∃`. -/
def FirstOrder : QExpr → Prop
  | .pred _ _ _ => True
  | .ident _ _ => True
  | .atom _ => True
  | .bin op a b => (∀ t, op ≠ .temporal t) ∧ FirstOrder a ∧ FirstOrder b
  | .un op a => op = .not ∧ FirstOrder a
  | .quant q _ b => q ≠ .lam ∧ FirstOrder b

/-- Specification: no quantifiers, and no worlds. -/
def Plain : QExpr → Prop
  | .pred _ _ w => w = none
  | .ident _ _ => True
  | .atom _ => True
  | .bin _ a b => Plain a ∧ Plain b
  | .un _ a => Plain a
  | .quant _ _ _ => False

/-- Specification: every variable of a formula replaced by `θ`. -/
def instExpr (θ : List Char → Term) : QExpr → QExpr
  | .pred p as w => .pred p (insts θ as) w
  | .ident a b => .ident (inst θ a) (inst θ b)
  | .atom p => .atom p
  | .bin op a b => .bin op (instExpr θ a) (instExpr θ b)
  | .un op a => .un op (instExpr θ a)
  | .quant q x b => .quant q x (instExpr (fun v => if v = x then .var v else θ v) b)

/-- Specification: every name has one kind. -/
def WKE (K : List Char → Bool) : QExpr → Prop
  | .pred _ as _ => WKs K as
  | .ident a b => WK K a ∧ WK K b
  | .atom _ => True
  | .bin _ a b => WKE K a ∧ WKE K b
  | .un _ a => WKE K a
  | .quant _ _ b => WKE K b

end Verif.Proof
