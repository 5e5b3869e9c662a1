import Verif.Lang.Interp

/-!
# Programs whose functions come first

Conditions used by the theorems about replacing calls (`C109`, `C110`).  None of this is code of the
project.
-/
namespace Verif.Lang.CallSpec

/-- A definition of a function. -/
structure Def where
  name : Sym
  params : List Param
  body : List Stmt

/-- The statement that defines it. -/
def Def.stmt (d : Def) : Stmt := .funDef d.name d.params d.body

/-- A program: definitions, then statements. -/
def program (defs : List Def) (main : List Stmt) : List Stmt := defs.map Def.stmt ++ main

mutual
/-- No function is defined inside. -/
def plainS : Stmt → Bool
  | .funDef _ _ _ => false
  | .ifS _ t e => plainSs t && plainSs e
  | .whileS _ b => plainSs b
  | .repeatS _ _ b => plainSs b
  | _ => true

/-- No function is defined inside. -/
def plainSs : List Stmt → Bool
  | [] => true
  | s :: ss => plainS s && plainSs ss
end

/-- Every function is defined once, before the other statements and not inside another one, under a
name that no builtin function has. -/
structure Orderly (P : Prims) (defs : List Def) (main : List Stmt) : Prop where
  distinct : (defs.map Def.name).Nodup
  flat : ∀ d ∈ defs, plainSs d.body = true
  main : plainSs main = true
  own : ∀ d ∈ defs, P.builtin d.name = none

mutual
/-- The names an expression reads, without those read by closures. -/
def reads : Expr → List Sym
  | .var x => [x]
  | .bin _ a b => reads a ++ reads b
  | .not a => reads a
  | .call _ as => readss as
  | .callv c as => reads c ++ readss as
  | .list as => readss as
  | .index c i => reads c ++ reads i
  | .length c => reads c
  | _ => []

/-- The names a list of expressions reads. -/
def readss : List Expr → List Sym
  | [] => []
  | e :: es => reads e ++ readss es
end

mutual
/-- The names declared in a statement. -/
def declsS : Stmt → List Sym
  | .letS x _ _ _ => [x]
  | .ifS _ t e => declsSs t ++ declsSs e
  | .whileS _ b => declsSs b
  | .repeatS x _ b => x :: declsSs b
  | _ => []

/-- The names declared in a block. -/
def declsSs : List Stmt → List Sym
  | [] => []
  | s :: ss => declsS s ++ declsSs ss
end

/-- Every name read is in scope, or not a name of the function at all. -/
def inScopeE (own vis : List Sym) (e : Expr) : Prop := ∀ x ∈ reads e, x ∈ vis ∨ x ∉ own

mutual
/-- Scoping inside a function whose own names are `own`: what is read or assigned is in scope (`vis`),
and a block does not declare again a name in scope outside it (`outer`). -/
def scopedS (own outer vis : List Sym) : Stmt → Prop
  | .letS x _ _ e => inScopeE own vis e ∧ x ∉ outer
  | .set x e => inScopeE own vis e ∧ x ∈ vis
  | .ret (some e) => inScopeE own vis e
  | .ifS c t e => inScopeE own vis c ∧ scopedSs own vis vis t ∧ scopedSs own vis vis e
  | .whileS c b => inScopeE own vis c ∧ scopedSs own vis vis b
  | _ => True

/-- Scoping of a block. -/
def scopedSs (own outer vis : List Sym) : List Stmt → Prop
  | [] => True
  | .letS x b m e :: ss => scopedS own outer vis (.letS x b m e) ∧ scopedSs own outer (x :: vis) ss
  | s :: ss => scopedS own outer vis s ∧ scopedSs own outer vis ss
end

/-- The parameters' names. -/
def Def.names (d : Def) : List Sym := d.params.map Prod.fst

/-- A function that reads and assigns its own names in their scope only, assigns no names but its
own, and declares no name of an enclosing block again. -/
def Def.scoped (d : Def) : Prop :=
  scopedSs (d.names ++ declsSs d.body) [] d.names d.body

/-- A function that is one returned expression reads its parameters only. -/
def Def.closed (d : Def) : Prop :=
  ∀ e, d.body = [.ret (some e)] → ∀ x ∈ reads e, x ∈ d.names

end Verif.Lang.CallSpec
