import Verif.Lang.Interp
import Verif.Data.Div

/-!
# Division by a constant in the virtual machine, and the integer operations of the JIT

`crates/logicaffeine_compile/src/vm/compiler.rs` replaces a division or remainder by a literal by a
shift, a mask or a multiplication; `vm/machine.rs` runs the replacement.  The JIT's operations are
those of `reference_eval` (`crates/logicaffeine_forge/src/jit.rs` 3456–), the model its machine code
is tested against, and `crates/logicaffeine_synth/src/spec.rs` states them for a solver.

Not modelled: registers and frames (each operation is taken on its operands), the machine code
itself, and floats.
-/
namespace Verif.Lang.Strength

open Verif.Data

/-- Wrapping to a signed 64-bit integer (`as i64`, `wrapping_*`). -/
def wrap (z : Int) : Int := z.bmod (2 ^ 64)

/-- The operations the compiler chooses between (`vm/instruction.rs` 128–142); the divisor of `div`
and `mod` is the literal loaded for them, and `mask` is `BitAnd` with a loaded constant. -/
inductive VOp where
  | div (d : Int)
  | mod (d : Int)
  | divPow2 (k : Nat)
  | magic (magic more : Nat) (mulBack : Int)
  | mask (m : Int)
deriving DecidableEq, Repr

/-- The divisor is a power of two, at least 2 (`compiler.rs` 936, 963). -/
def powerOfTwo (d : Int) : Bool := decide (2 ≤ d) && (d.toNat &&& (d.toNat - 1)) == 0

/-- `divpow2_shift` (`compiler.rs` 933–947).  `isInt` is what the analysis says of the dividend. -/
def divpow2Shift (isInt : Bool) (d : Int) : Option Nat :=
  if powerOfTwo d then
    let k := trailingZeros d.toNat
    if 1 ≤ k ∧ k ≤ 62 then if isInt then some k else none else none
  else none

/-- `modpow2_mask` (`compiler.rs` 960–978). -/
def modpow2Mask (isInt nonneg : Bool) (d : Int) : Option Int :=
  if powerOfTwo d then
    let k := trailingZeros d.toNat
    if 1 ≤ k ∧ k ≤ 62 then if isInt then if nonneg then some (d - 1) else none else none else none
  else none

/-- `magic_div_const` (`compiler.rs` 994–1013) with `magic_u64_gen` (53–55). -/
def magicDivConst (enabled isInt nonneg : Bool) (d : Int) : Option (Nat × Nat) :=
  if !enabled then none
  else if d < 2 ∨ (d.toNat &&& (d.toNat - 1)) = 0 then none
  else if !isInt then none
  else if !nonneg then none
  else (DivU64.new d.toNat).map fun s => (s.magic, s.more)

/-- Division by a literal (`compiler.rs` 2268–2281). -/
def lowerDiv (enabled isInt nonneg : Bool) (d : Int) : VOp :=
  match divpow2Shift isInt d with
  | some k => .divPow2 k
  | none =>
    match magicDivConst enabled isInt nonneg d with
    | some (m, o) => .magic m o 0
    | none => .div d

/-- Remainder by a literal (`compiler.rs` 2287–2305). -/
def lowerMod (enabled isInt nonneg : Bool) (d : Int) : VOp :=
  match modpow2Mask isInt nonneg d with
  | some m => .mask m
  | none =>
    match magicDivConst enabled isInt nonneg d with
    | some (m, o) => .magic m o d
    | none => .mod d

/-- The quotient of `magic_eval` (`compiler.rs` 68–79, `jit.rs` 3431–3442). -/
def magicQ (n magic more : Nat) : Nat :=
  if more &&& 128 ≠ 0 then n >>> (more &&& 63)
  else
    let hi := ((magic * n) >>> 64) % W64
    if more &&& 64 ≠ 0 then ((((n + W64 - hi) % W64) >>> 1 + hi) % W64) >>> (more &&& 63)
    else hi >>> (more &&& 63)

/-- `magic_eval` (`compiler.rs` 64–85, `jit.rs` 3427–3448). -/
def magicEval (x : Int) (magic more : Nat) (mulBack : Int) : Int :=
  let q := wrap (magicQ (x % 2 ^ 64).toNat magic more)
  if mulBack = 0 then q else wrap (x - wrap (q * mulBack))

/-- The operations in the virtual machine (`machine.rs` 1990–2014, 2045). `Value::as_int` is `None`
on a `BigInt`. -/
def vmOp (P : Prims) : VOp → Value → Except Err Value
  | .div d, v => divVals P v (.int d)
  | .mod d, v => modVals v (.int d)
  | .divPow2 k, v => divVals P v (.int (2 ^ k))
  | .magic m o b, v =>
    match v with
    | .int n => if narrow n then .ok (.int (magicEval n m o b)) else .error .type
    | _ => .error .type
  | .mask m, v => bitVals band (· && ·) v (.int m)

/-- The integer operations of the JIT (`jit.rs`, `MicroOp`) with two operands. -/
inductive MOp where
  | add | sub | mul | div | mod | lt | gt | le | ge | eq | ne | band | bor | bxor | shl | shr
deriving DecidableEq, Repr

/-- `checked_add` and the like: the exact result if it fits. -/
def checked (r : Int) : Option (BitVec 64) :=
  if -(2 ^ 63) ≤ r ∧ r < 2 ^ 63 then some (BitVec.ofInt 64 r) else none

/-- `bool as i64`. -/
def bit (b : Bool) : BitVec 64 := if b then 1 else 0

/-- One operation of `reference_eval` (`jit.rs` 3469–3534); `none` is the side exit. -/
def refOp (op : MOp) (a b : BitVec 64) : Option (BitVec 64) :=
  match op with
  | .add => checked (a.toInt + b.toInt)
  | .sub => checked (a.toInt - b.toInt)
  | .mul => checked (a.toInt * b.toInt)
  | .div => if b = 0 ∨ (b = -1 ∧ a = BitVec.intMin 64) then none else some (a.sdiv b)
  | .mod => if b = 0 then none else some (a.srem b)
  | .lt => some (bit (a.slt b))
  | .gt => some (bit (b.slt a))
  | .le => some (bit (a.sle b))
  | .ge => some (bit (b.sle a))
  | .eq => some (bit (a == b))
  | .ne => some (bit (a != b))
  | .band => some (a &&& b)
  | .bor => some (a ||| b)
  | .bxor => some (a ^^^ b)
  | .shl => some (a <<< (b.toNat % 2 ^ 32 % 64))
  | .shr => some (a.sshiftRight (b.toNat % 2 ^ 32 % 64))

/-- `DivPow2` in `reference_eval` (`jit.rs` 3487–3491). -/
def refShift (x : BitVec 64) (k : Nat) : BitVec 64 :=
  (x + (x.sshiftRight 63 &&& ((1#64 <<< k) - 1#64))).sshiftRight k

/-- `no_overflow` (`spec.rs` 60–62). -/
def noOverflow (exact : BitVec 128) (narrow : BitVec 64) : Bool := exact == narrow.signExtend 128

/-- The precondition of the solver's specification (`spec.rs` 34–75); `gt`, `ge` and `ne` have no
specification there and are given as total. -/
def specPre (op : MOp) (a b : BitVec 64) : Bool :=
  match op with
  | .add => noOverflow (a.signExtend 128 + b.signExtend 128) (a + b)
  | .sub => noOverflow (a.signExtend 128 - b.signExtend 128) (a - b)
  | .mul => noOverflow (a.signExtend 128 * b.signExtend 128) (a * b)
  | .div => !(b == 0) && !(a == BitVec.intMin 64 && b == -1)
  | .mod => !(b == 0)
  | _ => true

/-- The result of the solver's specification (`spec.rs` 88–185), in SMT-LIB. -/
def specResult (op : MOp) (a b : BitVec 64) : Option (BitVec 64) :=
  match op with
  | .add => some (a + b)
  | .sub => some (a - b)
  | .mul => some (a * b)
  | .div => some (a.smtSDiv b)
  | .mod => some (a.srem b)
  | .band => some (a &&& b)
  | .bor => some (a ||| b)
  | .bxor => some (a ^^^ b)
  | .shl => some (a <<< (b &&& 63))
  | .shr => some (a.sshiftRight' (b &&& 63))
  | .lt => some (bit (a.slt b))
  | .le => some (bit (a.sle b))
  | .eq => some (bit (a == b))
  | .gt | .ge | .ne => none

end Verif.Lang.Strength
