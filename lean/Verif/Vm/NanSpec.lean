import Verif.Vm.NanBox

/-!
# What it means for two values to be the same, and what is assumed of the environment

Two values are the same when they are equal, or are both a floating-point "not a number".
-/
namespace Verif.Vm
variable {α : Type}

/-- "Not a number" in IEEE 754 binary64: above infinity when the sign is left out. -/
def NotANumber (bits : Nat) : Prop := 0x7FF0000000000000 < bits % 2 ^ 63

/-- The same value. -/
def Same (a b : RV α) : Prop :=
  a = b ∨ ∃ x y, a = .float x ∧ b = .float y ∧ NotANumber x ∧ NotANumber y

/-- A value of the machine: whole numbers of 64 bits, floats of 64 bits. -/
def Wf : RV α → Prop
  | .int n => -(2 ^ 63) ≤ n ∧ n < 2 ^ 63
  | .float bits => bits < 2 ^ 64
  | _ => True

/-- The same outcome of an operator. -/
def SameResult : Except Nat (RV α) → Except Nat (RV α) → Prop
  | .ok a, .ok b => Same a b
  | .error a, .error b => a = b
  | _, _ => False

/-- The allocator gives addresses of 48 bits at which nothing lives. -/
def GoodAllocator (pick : Mem α → Option Nat) : Prop :=
  ∀ m p, pick m = some p → m p = none ∧ p < 2 ^ 48

/-- The exact answer of an operator on two whole numbers. -/
def exactAnswer : Op → Int → Int → RV α
  | .add, x, y => .int (x + y)
  | .sub, x, y => .int (x - y)
  | .mul, x, y => .int (x * y)
  | .lt, x, y => .bool (decide (x < y))
  | .gt, x, y => .bool (decide (x > y))
  | .lte, x, y => .bool (decide (x ≤ y))
  | .gte, x, y => .bool (decide (x ≥ y))
  | .eq, x, y => .bool (decide (x = y))
  | .neq, x, y => .bool (decide (x ≠ y))

/-- What the shared operators must do: values in, values out; they do not tell two "not a number"
apart; on two whole numbers they give the exact answer when that fits. -/
structure GoodOps (K : Ops α) : Prop where
  wf : ∀ op a b v, Wf a → Wf b → K op a b = .ok v → Wf v
  same : ∀ op a a' b b', Same a a' → Same b b' → SameResult (K op a b) (K op a' b')
  exact : ∀ op x y, Wf (exactAnswer op x y : RV α) →
    K op (.int x) (.int y) = .ok (exactAnswer op x y)

/-- What an event brings in from outside is a value, and a change made in place is a function of the
value. -/
def GoodEvent : Ev α → Prop
  | .put _ v => Wf v
  | .write _ f => (∀ v, Wf v → Wf (f v)) ∧ ∀ u v, Same u v → Same (f u) (f v)
  | _ => True

end Verif.Vm
