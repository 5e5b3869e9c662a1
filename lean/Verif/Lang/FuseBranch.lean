import Verif.Lang.JitRun
import Verif.Num.Float

/-!
# A comparison and the jump after it, fused

`fuse_cmp_branch` (`crates/logicaffeine_jit/src/lib.rs` 2078–2108) and its use (2251–2276), on words and on floats.

Simplified: only the choice of the comparison.  That the slot of the comparison is read by nothing but the jump
(the conditions on liveness, jump targets and scratch slots) and the conversion of an integer operand
to a float are not modelled.
-/
namespace Verif.Lang.Strength

/-- `Cmp` (`jit.rs` 63–76). -/
inductive Cmp where
  | lt | gt | le | ge | eq | ne
deriving DecidableEq, Repr

/-- `Cmp::negated` (`jit.rs` 92–101). -/
def Cmp.negated : Cmp → Cmp
  | .lt => .ge
  | .gt => .le
  | .le => .gt
  | .ge => .lt
  | .eq => .ne
  | .ne => .eq

/-- The operation that computes it (`cmp_of`, `lib.rs` 2059–2069). -/
def Cmp.op : Cmp → MOp
  | .lt => .lt
  | .gt => .gt
  | .le => .le
  | .ge => .ge
  | .eq => .eq
  | .ne => .ne

/-- The comparison of the fused branch (`lib.rs` 2090–2094): `ifTrue` where the jump is `JumpIfTrue`. -/
def fusedCmp (c : Cmp) (ifTrue : Bool) : Cmp := if ifTrue then c.negated else c

/-- How two floats compare, from their bits (IEEE 754; Rust's `partial_cmp`): not at all if one is no number, and
else by sign and magnitude, the two zeros being equal. -/
def floatOrder (a b : Nat) : Option Ordering :=
  if Num.fIsNan a || Num.fIsNan b then none
  else some (compare (key a) (key b))
where
  key (x : Nat) : Int := if Num.fSign x then -((x % 2 ^ 63 : Nat) : Int) else ((x % 2 ^ 63 : Nat) : Int)

/-- The truth of a comparison of floats (`BranchF` in `reference_eval`, `jit.rs` 3592–3602). -/
def Cmp.holds (c : Cmp) (o : Option Ordering) : Bool :=
  match c with
  | .lt => o == some .lt
  | .gt => o == some .gt
  | .le => o == some .lt || o == some .eq
  | .ge => o == some .gt || o == some .eq
  | .eq => o == some .eq
  | .ne => !(o == some .eq)

/-- `JumpIfTrue` or `JumpIfFalse` after the comparison of two floats (`logicaffeine_compile`, semantics/compare.rs
225–226: `partial_cmp`): does it jump? -/
def pairJumps (c : Cmp) (ifTrue : Bool) (a b : Nat) : Bool := c.holds (floatOrder a b) == ifTrue

/-- `BranchF` jumps where its comparison is false (`jit.rs` 3603–3606). -/
def branchJumps (c : Cmp) (a b : Nat) : Bool := !c.holds (floatOrder a b)

end Verif.Lang.Strength
