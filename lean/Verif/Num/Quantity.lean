import Verif.Num.Dimension

/-!
# Physical quantities (`crates/logicaffeine_base/src/quantity.rs` and their use by the interpreter)

Magnitudes are the exact rationals of `Verif/Num/Rational.lean`.  The text of a displayed quantity is
modelled as the number shown together with the unit it is shown in.
-/
namespace Verif.Num

/-- `Unit` (`quantity.rs` 23–31). -/
structure MUnit where
  symbol : List Char
  dimension : Dimension
  scale : Rational
  offset : Rational
deriving DecidableEq

namespace MUnit

/-- `Unit::linear` (`quantity.rs` 34–36). -/
def linear (symbol : List Char) (dimension : Dimension) (scale : Rational) : MUnit :=
  ⟨symbol, dimension, scale, .zero⟩

/-- `Unit::affine` (`quantity.rs` 39–41). -/
def affine (symbol : List Char) (dimension : Dimension) (scale offset : Rational) : MUnit :=
  ⟨symbol, dimension, scale, offset⟩

end MUnit

/-- `Quantity` (`quantity.rs` 46–50). -/
structure Quantity where
  magnitude : Rational
  dimension : Dimension
deriving DecidableEq

/-- What stops a computation on quantities: an error message about dimensions, one about a zero
divisor, or a panic. -/
inductive QErr where
  | dims
  | zero
  | panic
deriving DecidableEq

namespace Quantity

/-- `Quantity::of` (`quantity.rs` 54–59). -/
def «of» (value : Rational) (u : MUnit) : Quantity := ⟨(value.mul u.scale).add u.offset, u.dimension⟩

/-- `Quantity::in_unit` (`quantity.rs` 83–88). -/
def inUnit (q : Quantity) (u : MUnit) : Option Rational :=
  if q.dimension ≠ u.dimension then none else (q.magnitude.sub u.offset).div u.scale

/-- `Quantity::add` (`quantity.rs` 91–96). -/
def add (a b : Quantity) : Option Quantity :=
  if a.dimension ≠ b.dimension then none else some ⟨a.magnitude.add b.magnitude, a.dimension⟩

/-- `Quantity::sub` (`quantity.rs` 99–104). -/
def sub (a b : Quantity) : Option Quantity :=
  if a.dimension ≠ b.dimension then none else some ⟨a.magnitude.sub b.magnitude, a.dimension⟩

/-- `Quantity::mul` (`quantity.rs` 107–112). -/
def mul (a b : Quantity) : Except QErr Quantity :=
  match Dimension.mul a.dimension b.dimension with
  | some d => .ok ⟨a.magnitude.mul b.magnitude, d⟩
  | none => .error .panic

/-- `Quantity::div` (`quantity.rs` 115–120). -/
def div (a b : Quantity) : Except QErr Quantity :=
  match a.magnitude.div b.magnitude with
  | none => .error .zero
  | some m =>
    match Dimension.div a.dimension b.dimension with
    | some d => .ok ⟨m, d⟩
    | none => .error .panic

/-- The comparison made for each candidate by `in_best_unit` (`quantity.rs` 138–143). -/
def better (mag bestMag : Rational) : Bool :=
  let abs := mag.abs
  let bestAbs := bestMag.abs
  match decide (abs.cmp .one ≠ .lt), decide (bestAbs.cmp .one ≠ .lt) with
  | true, true => decide (abs.cmp bestAbs = .lt)
  | true, false => true
  | false, true => false
  | false, false => decide (abs.cmp bestAbs = .gt)

/-- The loop of `in_best_unit` (`quantity.rs` 132–147). -/
def bestLoop (q : Quantity) : List MUnit → Option (Rational × MUnit) → Option (Rational × MUnit)
  | [], best => best
  | u :: us, best =>
    match q.inUnit u with
    | none => bestLoop q us best
    | some mag =>
      match best with
      | none => bestLoop q us (some (mag, u))
      | some (bm, bu) => bestLoop q us (some (if better mag bm then (mag, u) else (bm, bu)))

/-- `Quantity::in_best_unit` (`quantity.rs` 129–149). -/
def inBestUnit (q : Quantity) (ladder : List MUnit) : Option (Rational × MUnit) :=
  bestLoop q ladder none

end Quantity

/-- `QuantityValue` (`interpreter.rs` 1061–1064 of the compile crate): the interpreter's value. -/
structure QV where
  q : Quantity
  unit : MUnit
deriving DecidableEq

namespace QV

/-- `QuantityValue::display` (`interpreter.rs` 1070–1080): the number shown, and the unit's symbol; the
`expect` is the panic.  With an empty symbol the dimension is shown in its place. -/
def display (v : QV) : Except QErr (Rational × List Char) :=
  match v.q.inUnit v.unit with
  | some m => .ok (m, v.unit.symbol)
  | none => .error .panic

/-- The built-in function `quantity` (`semantics/builtins.rs` 869–888) once the unit's name is read. -/
def make (value : Rational) (u : MUnit) : QV := ⟨.of value u, u⟩

/-- The built-in function `convert` (`semantics/builtins.rs` 1061–1086) once the unit's name is read. -/
def convert (v : QV) (u : MUnit) : Except QErr QV :=
  if v.q.dimension ≠ u.dimension then .error .dims else .ok ⟨v.q, u⟩

/-- `si_unit` (`semantics/arith.rs` 163). -/
def siUnit (q : Quantity) : MUnit := .linear [] q.dimension .one

/-- `+` (`semantics/arith.rs` 166–168). -/
def add (a b : QV) : Except QErr QV :=
  match a.q.add b.q with
  | some q => .ok ⟨q, a.unit⟩
  | none => .error .dims

/-- `-` (`semantics/arith.rs` 169–171). -/
def sub (a b : QV) : Except QErr QV :=
  match a.q.sub b.q with
  | some q => .ok ⟨q, a.unit⟩
  | none => .error .dims

/-- `*` (`semantics/arith.rs` 172–176). -/
def mul (a b : QV) : Except QErr QV :=
  match a.q.mul b.q with
  | .ok q => .ok ⟨q, siUnit q⟩
  | .error e => .error e

/-- `/` (`semantics/arith.rs` 177–183). -/
def div (a b : QV) : Except QErr QV :=
  match a.q.div b.q with
  | .ok q => .ok ⟨q, siUnit q⟩
  | .error e => .error e

/-- `q * k` and `k * q` for a plain number (`semantics/arith.rs` 187–205). -/
def times (a : QV) (k : Rational) : QV := ⟨⟨a.q.magnitude.mul k, a.q.dimension⟩, a.unit⟩

/-- `q / k` for a plain number (`semantics/arith.rs` 187–200). -/
def over (a : QV) (k : Rational) : Except QErr QV :=
  match a.q.magnitude.div k with
  | some m => .ok ⟨⟨m, a.q.dimension⟩, a.unit⟩
  | none => .error .zero

/-- The order of two quantities (`semantics/compare.rs` 258–267). -/
def cmp (a b : QV) : Except QErr Ordering :=
  if a.q.dimension ≠ b.q.dimension then .error .dims
  else .ok (a.q.magnitude.cmp b.q.magnitude)

end QV

/-- Programs over quantities. -/
inductive QExpr where
  | of (value : Rational) (u : MUnit)
  | convert (e : QExpr) (u : MUnit)
  | add (a b : QExpr)
  | sub (a b : QExpr)
  | mul (a b : QExpr)
  | div (a b : QExpr)
  | times (e : QExpr) (k : Rational)
  | over (e : QExpr) (k : Rational)

/-- The interpreter on such a program: operands first, left to right. -/
def QExpr.eval : QExpr → Except QErr QV
  | .of v u => .ok (.make v u)
  | .convert e u => do (← e.eval).convert u
  | .add a b => do let x ← a.eval; let y ← b.eval; x.add y
  | .sub a b => do let x ← a.eval; let y ← b.eval; x.sub y
  | .mul a b => do let x ← a.eval; let y ← b.eval; x.mul y
  | .div a b => do let x ← a.eval; let y ← b.eval; x.div y
  | .times e k => do return (← e.eval).times k
  | .over e k => do (← e.eval).over k

end Verif.Num
