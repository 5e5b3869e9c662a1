import Verif.Lang.Interp

/-!
# Runs in which constant folding cannot be seen

A specification used by the theorems about folding: the interpreter with checks.  A checked run
ends in `Err.stuck` when it meets one of the situations in which folding is known to change the
result.  None of this is code of the project.
-/
namespace Verif.Lang

/-- The value is an integer. -/
def Value.isInt : Value → Bool
  | .int _ => true
  | _ => false

/-- The value is a float. -/
def Value.isFlt : Value → Bool
  | .flt _ => true
  | _ => false

/-- The value is a list. -/
def Value.isList : Value → Bool
  | .list _ => true
  | _ => false

/-- The value is a Boolean. -/
def Value.isBool : Value → Bool
  | .bool _ => true
  | _ => false

/-- The value is the integer `k`. -/
def Value.isIntLit (k : Int) : Value → Bool
  | .int n => n == k
  | _ => false

/-- The value is a float equal to `k`. -/
def Value.isFltLit (P : Prims) (k : Nat) : Value → Bool
  | .flt f => P.fcmp f k == some .eq
  | _ => false

/-- The value is the float `nz`. -/
def Value.isBits (nz : Nat) : Value → Bool
  | .flt f => f == nz
  | _ => false

/-- The value is an integer of 64 bits. -/
def Value.isNarrow : Value → Bool
  | .int n => decide (-(2 ^ 63) ≤ n ∧ n < 2 ^ 63)
  | _ => false

/-- The value is one of 2, 4, 8, … -/
def Value.isTwoPow : Value → Bool
  | .int n => decide (1 < n ∧ n = 2 ^ n.toNat.log2)
  | _ => false

/-- The operands are of the kinds folding takes for granted: only integers have 0 added or are
multiplied by 0, only integers and floats have 0 subtracted or are multiplied or divided by 1
(lists may be multiplied by 1), only floats meet the floats 0.0 and 1.0, negative zero is not
subtracted from itself, and only 64-bit integers are reduced modulo a power of two. -/
def tame (P : Prims) (nz : Nat) (op : BinOp) (a b : Value) : Bool :=
  match op with
  | .add => (!b.isIntLit 0 || a.isInt) && (!a.isIntLit 0 || b.isInt)
  | .sub => (!b.isIntLit 0 || a.isInt || a.isFlt) &&
      (!b.isFltLit P P.f0 || (a.isFlt && !(a.isBits nz && b.isBits nz)))
  | .mul => (!b.isIntLit 1 || a.isInt || a.isFlt || a.isList) &&
      (!a.isIntLit 1 || b.isInt || b.isFlt || b.isList) &&
      (!b.isFltLit P P.f1 || a.isFlt) && (!a.isFltLit P P.f1 || b.isFlt) &&
      (!b.isIntLit 0 || a.isInt) && (!a.isIntLit 0 || b.isInt)
  | .div => (!b.isIntLit 1 || a.isInt || a.isFlt) && (!b.isFltLit P P.f1 || a.isFlt)
  | .mod => !b.isTwoPow || a.isNarrow
  | _ => true

/-- Only division, exact division and modulo may fail. -/
def mayFail : BinOp → Bool
  | .div | .exactDiv | .mod => true
  | _ => false

/-- An operator, checked. -/
def checkedOp (P : Prims) (nz : Nat) (op : BinOp) (a b : Value) : Except Err Value :=
  if tame P nz op a b then
    match applyOp P op a b with
    | .ok v => .ok v
    | .error e => if mayFail op then .error e else .error .stuck
  else .error .stuck

/-- A variable, checked: the names in `B` hold Booleans. -/
def checkedRead (B : List Sym) (x : Sym) (v : Value) : Bool := !B.contains x || v.isBool

/-- The interpreter with checks. -/
def checked (P : Prims) (nz : Nat) (B : List Sym) (n : Nat) : Inst :=
  inst P (checkedOp P nz) (checkedRead B) n

/-- The outcome of a checked run from the empty state. -/
def checkedRun (P : Prims) (nz : Nat) (B : List Sym) (n : Nat) (p : List Stmt) : Outcome :=
  outcome (execs (checked P nz B n) n p {})

/-- The run met a check, or a name that is not defined. -/
def Tripped : Option Err → Prop
  | some .stuck => True
  | some (.unbound _) => True
  | _ => False

/-- What is assumed of the abstract operations: the laws of 64-bit floats that folding uses, with
`nz` the negative zero, and that `is approximately` yields a Boolean. -/
structure Lawful (P : Prims) (nz : Nat) : Prop where
  zero_eq : P.fcmp P.f0 P.f0 = some .eq
  zero_ne : P.f0 ≠ nz
  one_eq : P.fcmp P.f1 P.f1 = some .eq
  one_ne : ∀ z, P.fcmp z P.f1 = some .eq → P.fcmp z P.f0 ≠ some .eq
  int_zero : P.ofInt 0 = P.f0
  int_one : P.ofInt 1 = P.f1
  sub_zero : ∀ x z, P.fcmp z P.f0 = some .eq → x ≠ nz ∨ z ≠ nz → P.fsub x z = x
  mul_one : ∀ x z, P.fcmp z P.f1 = some .eq → P.fmul x z = x
  one_mul : ∀ x z, P.fcmp z P.f1 = some .eq → P.fmul z x = x
  div_one : ∀ x z, P.fcmp z P.f1 = some .eq → P.fdiv x z = x
  approx : ∀ a b v, P.other .approxEq a b = .ok v → v.isBool = true

end Verif.Lang
