import Verif.Lang.Scoping

/-!
# Programs in which dead code elimination cannot be seen

A specification used by the theorems about dead code elimination.  None of this is code of the
project.
-/
namespace Verif.Lang

mutual
/-- The expression contains no call and creates no closure. -/
def callFree : Expr → Bool
  | .lit _ | .var _ => true
  | .call _ _ | .callv _ _ | .closure _ _ => false
  | .bin _ a b | .index a b => callFree a && callFree b
  | .not a | .length a => callFree a
  | .list es => callFrees es

/-- None of them does. -/
def callFrees : List Expr → Bool
  | [] => true
  | e :: es => callFree e && callFrees es
end

mutual
/-- The name occurs in the expression, outside closures. -/
def occursE (x : Sym) : Expr → Bool
  | .lit _ | .closure _ _ => false
  | .var y => x == y
  | .bin _ a b | .index a b => occursE x a || occursE x b
  | .not a | .length a => occursE x a
  | .call _ es | .list es => occursEs x es
  | .callv c es => occursE x c || occursEs x es

/-- It occurs in one of them. -/
def occursEs (x : Sym) : List Expr → Bool
  | [] => false
  | e :: es => occursE x e || occursEs x es
end

/-- A statement that makes the assignment of `x` before it needed: it may read `x`, it is a
conditional, a loop or a call, or it assigns the result of a call. -/
def needs (x : Sym) : Stmt → Bool
  | .ifS _ _ _ | .whileS _ _ | .repeatS _ _ _ | .callS _ _ => true
  | .set _ e => occursE x e || !callFree e
  | .letS _ _ _ e | .showS e | .assertS e | .ret (some e) => occursE x e
  | .push y e => x == y || occursE x e
  | .ret none | .brk | .funDef _ _ _ => false

/-- A statement that cannot see the value of `x`, leaves the block only at its end, and does not
declare another `x`: no call (a function might use `x`), no closure (it would capture `x`), no
`Return` and no `Break`. -/
def passes (x : Sym) : Stmt → Bool
  | .letS y _ _ e => x != y && callFree e
  | .set _ e | .showS e | .assertS e | .push _ e => callFree e
  | .funDef _ _ _ => true
  | _ => false

/-- Whenever a block assigns `x` twice, something between needs the first value, or everything
between passes it by. -/
def settled (ss : List Stmt) : Prop :=
  ∀ pre x e mid e' post, ss = pre ++ .set x e :: (mid ++ .set x e' :: post) →
    (∃ st ∈ mid, needs x st = true) ∨ ∀ st ∈ mid, passes x st = true

mutual
/-- Every block is settled, and a branch that is always taken declares nothing. -/
def tidyS : Stmt → Prop
  | .ifS c t e => tidySs t ∧ tidySs e ∧ settled t ∧ settled e ∧
      (c = .lit (.bool true) → topLets t = []) ∧ (c = .lit (.bool false) → topLets e = [])
  | .whileS _ b | .repeatS _ _ b | .funDef _ _ b => tidySs b ∧ settled b
  | _ => True

/-- Every statement of the block is tidy. -/
def tidySs : List Stmt → Prop
  | [] => True
  | s :: ss => tidyS s ∧ tidySs ss
end

/-- A tidy program. -/
def Tidy (p : List Stmt) : Prop := tidySs p ∧ settled p

end Verif.Lang
