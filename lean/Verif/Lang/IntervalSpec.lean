import Verif.Lang.Intervals
import Verif.Lang.Scoping
import Verif.Lang.Checked

/-!
# Runs and programs in which deciding branches by intervals cannot be seen

A specification used by the theorems about the interval pass.  None of this is code of the
project.  It has two parts: the interpreter with checks for the situations in which the intervals
are wrong about values (an integer result that needs more than 64 bits, a product of 0 with
something that is not an integer, a remainder by the smallest integer, a float compared with an
integer), and a repaired pass, which forgets what the pass should forget.
-/
namespace Verif.Lang

/-! ## Checked runs -/

/-- Operands the intervals are right about. -/
def ivTame (op : BinOp) (a b : Value) : Bool :=
  match op with
  | .mul => (a.isInt || !b.isIntLit 0) && (b.isInt || !a.isIntLit 0)
  | .mod => !b.isIntLit (-(2 ^ 63))
  | .lt | .gt | .le | .ge => !(a.isFlt && b.isInt)
  | _ => true

/-- Integer results of `+`, `-`, `*` and `/` are 64-bit integers. -/
def ivFits (op : BinOp) (v : Value) : Bool :=
  match op with
  | .add | .sub | .mul | .div => !v.isInt || v.isNarrow
  | _ => true

/-- An operator, checked. -/
def ivOp (P : Prims) (op : BinOp) (a b : Value) : Except Err Value :=
  if ivTame op a b then
    match applyOp P op a b with
    | .ok v => if ivFits op v then .ok v else .error .stuck
    | .error e => .error e
  else .error .stuck

/-- The interpreter with these checks. -/
def ivChecked (P : Prims) (n : Nat) : Inst := inst P (ivOp P) (fun _ _ => true) n

/-- The outcome of a checked run from the empty state. -/
def ivRun (P : Prims) (n : Nat) (p : List Stmt) : Outcome := outcome (execs (ivChecked P n) n p {})

/-- The run met a check, a name that is not defined, or an operand of the wrong type. -/
def IvTripped : Option Err → Prop
  | some .stuck => True
  | some (.unbound _) => True
  | some .type => True
  | _ => False

/-- What is assumed of the abstract operations: a length is a natural number, and asking for the
length of something that has none is a type error. -/
def LengthLaw (P : Prims) : Prop :=
  ∀ v, (∃ n : Nat, P.length v = .ok (.int n)) ∨ P.length v = .error .type

/-! ## The repaired pass -/

/-- Subtraction of bounds with the overflow of `0 - b` on the right side. -/
def subRight : Bound → Bound → Bound
  | .fin a, .fin b => .wrap (a - b)
  | a, b => a.sub b

/-- Operators that can only fail on operands of the wrong type: not the divisions, except by a
number that is not 0, nor the operators left abstract. -/
def quietOp (op : BinOp) (b : Expr) : Bool :=
  match op with
  | .pow | .exactDiv | .approxEq | .and | .or | .floorDiv => false
  | .div | .mod => match b with
    | .lit (.num k) => k != 0
    | _ => false
  | _ => true

/-- Evaluating the expression can only fail on operands of the wrong type and undefined names, and
does nothing else: it calls nothing. -/
def quietE : Expr → Bool
  | .lit _ | .var _ => true
  | .not a | .length a => quietE a
  | .bin op a b => quietOp op b && quietE a && quietE b
  | _ => false

/-- Forget some names. -/
def IMap.forget (V : IMap) (xs : List Sym) : IMap := fun x => if xs.contains x then none else V x

/-- The state of the repaired pass has no lengths. -/
def IMap.st (V : IMap) : AState := ⟨V, fun _ => none⟩

mutual
/-- A `Break` leaves the block. -/
def breaksS : Stmt → Bool
  | .brk => true
  | .ifS _ t e => breaksSs t || breaksSs e
  | _ => false

/-- A `Break` of one of the statements leaves the block. -/
def breaksSs : List Stmt → Bool
  | [] => false
  | s :: ss => breaksS s || breaksSs ss
end

/-- The repaired pass believes something of a name only when no function assigns a name of that
spelling (`G`), or it has seen its declaration (`own`). -/
def may (G own : List Sym) (x : Sym) : Bool := !G.contains x || own.contains x

/-- Narrowing in the repaired pass. -/
def rpNarrow (f : BinOp → Int → Interval → Interval) (G own : List Sym) (c : Expr) (V : IMap) :
    IMap :=
  match boundedVar c with
  | some x => if may G own x then (narrowWith f subRight c V.st).vars else V
  | none => V

/-- What holds on both ways out of a branch. -/
def IMap.either (a b : IMap) : IMap := fun x =>
  match a x, b x with
  | some i, some j => some (i.join j)
  | _, _ => none

/-- Only quiet conditions are decided. -/
def rpDecide (c : Expr) (V : IMap) : Option Bool :=
  if quietE c then decideE subRight V.st c else none

mutual
/-- The repaired pass on a statement.  It differs from `ivS` in that it keeps no lengths, decides
only quiet conditions, forgets the names declared in a block when the block ends, keeps after a
branch only what both ways out know, forgets every name assigned in a loop before it uses the
negated condition, uses the negated condition only if no `Break` leaves the loop, and keeps nothing
about names that a function may assign. -/
def rpS (G own : List Sym) : Stmt → IMap → Stmt × IMap
  | .letS x b m e, V => (.letS x b m e, V.put x (some (rangeE subRight V.st e)))
  | .set x e, V =>
    (.set x e, V.put x (if may G own x then some (rangeE subRight V.st e) else none))
  | .ifS c t e, V =>
    match rpDecide c V with
    | some true =>
      let r := rpSs G own t (rpNarrow narrowBy G own c V)
      (.ifS (.lit (.bool true)) r.1 [], r.2.forget (topLets t))
    | some false =>
      if e.isEmpty then (.ifS (.lit (.bool false)) [] [], V)
      else
        let r := rpSs G own e (rpNarrow narrowNot G own c V)
        (.ifS (.lit (.bool false)) [] r.1, r.2.forget (topLets e))
    | none =>
      let r := rpSs G own t (rpNarrow narrowBy G own c V)
      if e.isEmpty then (.ifS c r.1 [], (r.2.forget (topLets t)).either V)
      else
        let r' := rpSs G own e (rpNarrow narrowNot G own c V)
        (.ifS c r.1 r'.1, (r.2.forget (topLets t)).either (r'.2.forget (topLets e)))
  | .whileS c b, V =>
    let V1 := V.forget (setsSs b)
    let r := rpSs G own b (rpNarrow narrowBy G own c V1)
    (.whileS c r.1, if breaksSs b then V1 else rpNarrow narrowNot G own c V1)
  | .repeatS x e b, V =>
    let r := rpSs G (x :: own) b (V.forget (x :: setsSs b))
    (.repeatS x e r.1, V.forget (setsSs b))
  | .funDef f ps b, V => (.funDef f ps (rpSs G [] b (fun _ => none)).1, V)
  | st, V => (st, V)

/-- The repaired pass on a block. -/
def rpSs (G own : List Sym) : List Stmt → IMap → List Stmt × IMap
  | [], V => ([], V)
  | st :: ss, V =>
    let r := rpS G own st V
    let r' := rpSs G (declS st ++ own) ss r.2
    (r.1 :: r'.1, r'.2)
end

/-- The repaired pass. -/
def repairedProgram (p : List Stmt) : List Stmt := (rpSs (funSetsSs p) [] p (fun _ => none)).1

end Verif.Lang
