import Verif.Lang.Encoder

/-!
# Specification for the encoder: what SMT terms mean, typed programs, in-range runs
-/
namespace Verif.Lang.Tv

mutual
/-- The value of a bit-vector term in SMT-LIB; truth values have none (`0`). -/
def word : Term → BitVec 64
  | .bv v => v
  | .bin .add a b => word a + word b
  | .bin .sub a b => word a - word b
  | .bin .mul a b => word a * word b
  | .bin .sdiv a b => (word a).smtSDiv (word b)
  | .bin .srem a b => (word a).srem (word b)
  | .bin .band a b => word a &&& word b
  | .bin .bor a b => word a ||| word b
  | .bin .bxor a b => word a ^^^ word b
  | _ => 0

/-- The truth value of a Boolean term in SMT-LIB; a bit vector has none (`false`). -/
def truth : Term → Bool
  | .bool b => b
  | .bin .slt a b => decide ((word a).toInt < (word b).toInt)
  | .bin .sle a b => decide ((word a).toInt ≤ (word b).toInt)
  | .bin .beq a b => word a == word b
  | .not a => !truth a
  | .and a b => truth a && truth b
  | .or a b => truth a || truth b
  | .iff a b => truth a == truth b
  | _ => false
end

/-- The value a symbolic value stands for: a 64-bit integer or a truth value. -/
def SymVal.value : SymVal → Value
  | .int e => .int (word e).toInt
  | .bool e => .bool (truth e)

/-- The two types of the fragment. -/
inductive Ty where
  | int
  | bool
deriving DecidableEq, Repr

/-- An expression without division or remainder. -/
inductive NoDiv : Expr → Prop where
  | lit (l : Lit) : NoDiv (.lit l)
  | var (x : Sym) : NoDiv (.var x)
  | bin {op : BinOp} {a b : Expr} : op ≠ .div → op ≠ .mod → NoDiv a → NoDiv b → NoDiv (.bin op a b)
  | not {a : Expr} : NoDiv a → NoDiv (.not a)

/-- Typed expressions over integers and truth values.  The right operand of `and` and `or`, which
may not be evaluated, contains no division. -/
inductive HasTy (Γ : Sym → Option Ty) : Expr → Ty → Prop where
  | num {n : Int} : -(2 ^ 63) ≤ n → n < 2 ^ 63 → HasTy Γ (.lit (.num n)) .int
  | bool (b : Bool) : HasTy Γ (.lit (.bool b)) .bool
  | var {x : Sym} {t : Ty} : Γ x = some t → HasTy Γ (.var x) t
  | arith {op : BinOp} {a b : Expr} : op ∈ [BinOp.add, .sub, .mul, .div, .mod] →
      HasTy Γ a .int → HasTy Γ b .int → HasTy Γ (.bin op a b) .int
  | order {op : BinOp} {a b : Expr} : op ∈ [BinOp.lt, .gt, .le, .ge] →
      HasTy Γ a .int → HasTy Γ b .int → HasTy Γ (.bin op a b) .bool
  | equal {op : BinOp} {a b : Expr} {t : Ty} : op ∈ [BinOp.eq, .ne] →
      HasTy Γ a t → HasTy Γ b t → HasTy Γ (.bin op a b) .bool
  | logic {op : BinOp} {a b : Expr} : op ∈ [BinOp.and, .or] →
      HasTy Γ a .bool → HasTy Γ b .bool → NoDiv b → HasTy Γ (.bin op a b) .bool
  | not {a : Expr} : HasTy Γ a .bool → HasTy Γ (.not a) .bool

/-- Typed straight-line programs: definitions, assignments to defined names, and output. -/
inductive Straight : (Sym → Option Ty) → List Stmt → Prop where
  | nil {Γ : Sym → Option Ty} : Straight Γ []
  | letS {Γ : Sym → Option Ty} {x : Sym} {i m : Bool} {e : Expr} {t : Ty} {p : List Stmt} :
      HasTy Γ e t → Straight (fun y => if y = x then some t else Γ y) p →
      Straight Γ (.letS x i m e :: p)
  | set {Γ : Sym → Option Ty} {x : Sym} {e : Expr} {t : Ty} {p : List Stmt} : Γ x ≠ none →
      HasTy Γ e t → Straight (fun y => if y = x then some t else Γ y) p → Straight Γ (.set x e :: p)
  | showS {Γ : Sym → Option Ty} {e : Expr} {t : Ty} {p : List Stmt} : HasTy Γ e t → Straight Γ p →
      Straight Γ (.showS e :: p)
  | funDef {Γ : Sym → Option Ty} {f : Sym} {ps : List Param} {b : List Stmt} {p : List Stmt} :
      Straight Γ p → Straight Γ (.funDef f ps b :: p)

/-- The interpreter's operators, stuck when an integer result does not fit 64 bits. -/
def fitOp (P : Prims) (op : BinOp) (a b : Value) : Except Err Value :=
  match applyOp P op a b with
  | .ok (.int n) => if -(2 ^ 63) ≤ n ∧ n < 2 ^ 63 then .ok (.int n) else .error .stuck
  | r => r

/-- No operator the program evaluates has an integer result outside 64 bits. -/
def Fits (P : Prims) (n : Nat) (p : List Stmt) : Prop :=
  (outcome (execs (inst P (fitOp P) (fun _ _ => true) n) n p {})).error ≠ some .stuck

/-- The solver decides validity of closed terms correctly. -/
def Decides (valid : Term → Bool) : Prop := ∀ t, valid t = truth t

/-- The solver proves only what is true. -/
def Sound (valid : Term → Bool) : Prop := ∀ t, valid t = true → truth t = true

/-- A displayed truth value, and a displayed integer that fits 64 bits, read back as themselves. -/
def Reads (P : Prims) (read : Text → Option Expected) : Prop :=
  (∀ b, read (P.display (.bool b)) = some (.bool b)) ∧
  ∀ n : Int, -(2 ^ 63) ≤ n → n < 2 ^ 63 → read (P.display (.int n)) = some (.int n)

end Verif.Lang.Tv
