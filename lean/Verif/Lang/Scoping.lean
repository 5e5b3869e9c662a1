import Verif.Lang.Syntax

/-!
# Which names a program declares and assigns

A specification used by the theorems about the optimiser's passes.  None of this is code of the
project.
-/
namespace Verif.Lang

/-- The name a statement declares for the statements after it. -/
def declS : Stmt → List Sym
  | .letS x _ _ _ => [x]
  | _ => []

mutual
/-- Every `Let` and every `Repeat` inside the statement declares a name that is not in scope in the
same function already (`seen`). -/
def freshS (seen : List Sym) : Stmt → Prop
  | .letS x _ _ _ => x ∉ seen
  | .ifS _ t e => freshSs seen t ∧ freshSs seen e
  | .whileS _ b => freshSs seen b
  | .repeatS x _ b => x ∉ seen ∧ freshSs (x :: seen) b
  | .funDef _ _ b => freshSs [] b
  | _ => True

/-- The same for a block. -/
def freshSs (seen : List Sym) : List Stmt → Prop
  | [] => True
  | s :: ss => freshS seen s ∧ freshSs (declS s ++ seen) ss
end

/-- The names declared by `Let` at the top of a block. -/
def topLets : List Stmt → List Sym
  | [] => []
  | st :: ss => declS st ++ topLets ss

mutual
/-- Every name assigned by `Set` in a statement, functions included. -/
def allSetsS : Stmt → List Sym
  | .set x _ => [x]
  | .ifS _ t e => allSetsSs t ++ allSetsSs e
  | .whileS _ b => allSetsSs b
  | .repeatS _ _ b => allSetsSs b
  | .funDef _ _ b => allSetsSs b
  | _ => []

/-- Every name assigned by `Set` in a block, functions included. -/
def allSetsSs : List Stmt → List Sym
  | [] => []
  | s :: ss => allSetsS s ++ allSetsSs ss
end

mutual
/-- Every name assigned by `Set` inside a function of a statement. -/
def funSetsS : Stmt → List Sym
  | .ifS _ t e => funSetsSs t ++ funSetsSs e
  | .whileS _ b => funSetsSs b
  | .repeatS _ _ b => funSetsSs b
  | .funDef _ _ b => allSetsSs b
  | _ => []

/-- Every name assigned by `Set` inside a function of a block. -/
def funSetsSs : List Stmt → List Sym
  | [] => []
  | s :: ss => funSetsS s ++ funSetsSs ss
end

end Verif.Lang
