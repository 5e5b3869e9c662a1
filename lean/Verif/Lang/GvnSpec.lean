import Verif.Lang.Syntax

/-!
# Programs in which common subexpressions can be shared unseen

A specification used by the theorem about common subexpression elimination.  None of this is code
of the project.
-/
namespace Verif.Lang.Gvn

/-- Built from names, number, text and Boolean literals, operators, `not`, `length` and indexing
alone: evaluating it changes nothing. -/
def simple : Expr → Bool
  | .var _ => true
  | .lit (.num _) | .lit (.bool _) | .lit (.text _) => true
  | .bin _ a b | .index a b => simple a && simple b
  | .not a | .length a => simple a
  | _ => false

/-- Neither a name nor a literal. -/
def compound : Expr → Bool
  | .var _ | .lit _ => false
  | _ => true

/-- A computation whose result can be reused. -/
def reusable (e : Expr) : Bool := simple e && compound e

/-- The names a simple expression reads. -/
def names : Expr → List Sym
  | .var x => [x]
  | .bin _ a b | .index a b => names a ++ names b
  | .not a | .length a => names a
  | _ => []

/-- Every part is evaluated: no `and` and no `or`. -/
def strict : Expr → Bool
  | .bin op a b => op != .and && op != .or && strict a && strict b
  | .index a b => strict a && strict b
  | .not a | .length a => strict a
  | _ => true

/-- The reusable computations inside an expression, one for each place, outside the arguments of
calls, lists and closures. -/
def parts : Expr → List Expr
  | .bin op a b =>
    (if reusable (.bin op a b) then [.bin op a b] else []) ++ (parts a ++ parts b)
  | .index a b => (if reusable (.index a b) then [.index a b] else []) ++ (parts a ++ parts b)
  | .not a => (if reusable (.not a) then [.not a] else []) ++ parts a
  | .length a => (if reusable (.length a) then [.length a] else []) ++ parts a
  | _ => []

mutual
/-- The names a statement assigns or pushes to, outside functions. -/
def writesS : Stmt → List Sym
  | .set x _ | .push x _ => [x]
  | .ifS _ t e => writesSs t ++ writesSs e
  | .whileS _ b | .repeatS _ _ b => writesSs b
  | _ => []

/-- The names a block assigns or pushes to, outside functions. -/
def writesSs : List Stmt → List Sym
  | [] => []
  | s :: ss => writesS s ++ writesSs ss
end

mutual
/-- The names a statement assigns or pushes to, functions included. -/
def allWritesS : Stmt → List Sym
  | .set x _ | .push x _ => [x]
  | .ifS _ t e => allWritesSs t ++ allWritesSs e
  | .whileS _ b | .repeatS _ _ b | .funDef _ _ b => allWritesSs b
  | _ => []

/-- The names a block assigns or pushes to, functions included. -/
def allWritesSs : List Stmt → List Sym
  | [] => []
  | s :: ss => allWritesS s ++ allWritesSs ss
end

mutual
/-- The names assigned or pushed to inside the functions a statement defines. -/
def funWritesS : Stmt → List Sym
  | .ifS _ t e => funWritesSs t ++ funWritesSs e
  | .whileS _ b | .repeatS _ _ b => funWritesSs b
  | .funDef _ _ b => allWritesSs b
  | _ => []

/-- The names assigned or pushed to inside the functions a block defines. -/
def funWritesSs : List Stmt → List Sym
  | [] => []
  | s :: ss => funWritesS s ++ funWritesSs ss
end

/-- What has been declared and computed before a point of a function. -/
structure Before where
  /-- names declared, or read by a reusable computation -/
  seen : List Sym := []
  /-- names read by a reusable computation given a name by `Let` -/
  read : List Sym := []
  /-- names given by `Let` to a reusable computation -/
  held : List Sym := []
  /-- names declared in this function or in a block of the main program -/
  own : List Sym := []

/-- What has been declared and computed after a statement; `top` at the top level of the main
program. -/
def Before.after (B : Before) (top : Bool) : Stmt → Before
  | .letS x _ _ e =>
    { seen := x :: ((if reusable e then names e else []) ++ B.seen)
      read := (if reusable e then names e else []) ++ B.read
      held := (if reusable e then [x] else []) ++ B.held
      own := (if top then [] else [x]) ++ B.own }
  | _ => B

mutual
/-- The conditions under which sharing cannot be seen; `G` are the names functions may assign.
* A `Let` declares a name not used before in the function, and its value does not read that name.
* The value of a `Let` does not contain the same computation twice.
* Where a `Let` names a computation, no function can assign what is read or the name itself.
* A name given to a computation is not assigned afterwards.
* A loop does not assign names read by a computation named before it. -/
def safeS (G : List Sym) (B : Before) (top : Bool) : Stmt → Prop
  | .letS x _ _ e => x ∉ B.seen ∧ (parts e).Nodup ∧ (reusable e = true → x ∉ names e ∧
      (∀ y ∈ names e, y ∈ B.own ∨ y ∉ G) ∧ (top = true → x ∉ G))
  | .set x _ | .push x _ => x ∉ B.held
  | .ifS _ t e => safeSs G B false t ∧ safeSs G B false e
  | .whileS _ b => (∀ x ∈ writesSs b, x ∉ B.read) ∧ safeSs G B false b
  | .repeatS x _ b => (∀ y ∈ writesSs b, y ∉ B.read) ∧ x ∉ B.seen ∧
      safeSs G { B with seen := x :: B.seen, own := x :: B.own } false b
  | .funDef _ _ b => safeSs G {} false b
  | _ => True

/-- The same for a block. -/
def safeSs (G : List Sym) (B : Before) (top : Bool) : List Stmt → Prop
  | [] => True
  | s :: ss => safeS G B top s ∧ safeSs G (B.after top s) top ss
end

/-- The same for a whole program. -/
def safeProgram (p : List Stmt) : Prop := safeSs (funWritesSs p) {} true p

end Verif.Lang.Gvn
