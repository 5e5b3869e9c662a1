import Mathlib.Data.Nat.Log
import Mathlib.Data.Nat.Bitwise

/-! # Division by a fixed divisor: `LogosDivU64`, data/src/types.rs:1345-1416

A `u64` is a natural number.  Plain arithmetic that could leave the 64 bits (a panic in a checked
build) yields `none`; the `wrapping_` operations reduce. -/
namespace Verif.Data

/-- `2^64`. -/
scoped notation "W64" => (18446744073709551616 : Nat)

/-- `u64::trailing_zeros`, by shifting (`fuel` is the word width). -/
def tzLoop : Nat → Nat → Nat
  | 0, _ => 0
  | f + 1, d => if d % 2 = 1 then 0 else tzLoop f (d / 2) + 1

/-- `d.trailing_zeros()`. -/
def trailingZeros (d : Nat) : Nat := tzLoop 64 d

/-- `d.leading_zeros()`. -/
def leadingZeros (d : Nat) : Nat := if d = 0 then 64 else 63 - Nat.log2 d

/-- `a + b` on `u64`, checked. -/
def ckAdd (a b : Nat) : Option Nat := if a + b < W64 then some (a + b) else none

/-- `a - b` on `u64`, checked. -/
def ckSub (a b : Nat) : Option Nat := if b ≤ a then some (a - b) else none

/-- `LogosDivU64`, data/src/types.rs:1346-1352. -/
structure DivU64 where
  magic : Nat
  more : Nat
  d : Nat
deriving DecidableEq, Repr

/-- The two magic paths of `LogosDivU64::new`, data/src/types.rs:1376-1386. -/
def divMagic (d fl m rem e : Nat) : Option DivU64 :=
  if e < 1 <<< fl then
    match ckAdd m 1 with
    | none => none
    | some magic => some ⟨magic, fl, d⟩
  else
    let twice := rem * 2 % W64
    let bump := if twice ≥ d ∨ twice < rem then 1 else 0
    match ckAdd ((m * 2 % W64 + bump) % W64) 1 with
    | none => none
    | some magic => some ⟨magic, fl ||| 64, d⟩

/-- `LogosDivU64::new`, data/src/types.rs:1363-1388.  `none` is a failed `debug_assert` or an
overflow. -/
def DivU64.new (d : Nat) : Option DivU64 :=
  if d = 0 then none
  else if d &&& (d - 1) = 0 then some ⟨0, trailingZeros d ||| 128, d⟩
  else
    let fl := 63 - leadingZeros d
    let numer := 1 <<< (64 + fl)
    let m := numer / d % W64
    let rem := numer % d % W64
    match ckSub d rem with
    | none => none
    | some e => divMagic d fl m rem e

/-- `LogosDivU64::div`, data/src/types.rs:1390-1401. -/
def DivU64.div (s : DivU64) (n : Nat) : Option Nat :=
  if s.more &&& 128 ≠ 0 then some (n >>> (s.more &&& 63))
  else
    let q := ((s.magic * n) >>> 64) % W64
    if s.more &&& 64 ≠ 0 then
      match ckSub n q with
      | none => none
      | some df => some ((((df >>> 1) + q) % W64) >>> (s.more &&& 63))
    else some (q >>> s.more)

/-- `LogosDivU64::rem`, data/src/types.rs:1404-1406. -/
def DivU64.rem (s : DivU64) (n : Nat) : Option Nat :=
  match s.div n with
  | none => none
  | some q => ckSub n (q * s.d % W64)

end Verif.Data
