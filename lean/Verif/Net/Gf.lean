import Mathlib.Data.Fin.Basic
import Mathlib.Data.Nat.Bitwise
/-! # GF(2^8) of `logicaffeine_compile::concurrency::fec`: the tables and the byte operations -/
namespace Verif.Net

/-- A byte, `u8`.  Its own name, so that nothing but the operations below act on it. -/
def Byte := Fin 256

instance : DecidableEq Byte := inferInstanceAs (DecidableEq (Fin 256))

/-- The number a byte stands for. -/
def Byte.toNat (b : Byte) : Nat := Fin.val b

/-- `x as u8`. -/
def Byte.ofNat (x : Nat) : Byte := Fin.ofNat 256 x

/-- `a ^ b` on `u8`. -/
def Byte.xor (a b : Byte) : Byte := Byte.ofNat (a.toNat ^^^ b.toNat)

/-- One turn of the generator, compile/src/concurrency/fec.rs:33-36 (`x: u16`). -/
def xtime (x : Nat) : Nat :=
  let y := x <<< 1
  if y &&& 256 ≠ 0 then y ^^^ 285 else y

/-- The loop body of `gf`, compile/src/concurrency/fec.rs:30-37: `exp`, `log` and `x`. -/
def gfStep (st : List Byte × List Nat × Nat) (i : Nat) : List Byte × List Nat × Nat :=
  (st.1.set i (Byte.ofNat st.2.2), st.2.1.set st.2.2 i, xtime st.2.2)

/-- The loop `for i in 0..255`, compile/src/concurrency/fec.rs:27-37. -/
def gfFill : List Byte × List Nat × Nat :=
  (List.range 255).foldl gfStep (List.replicate 512 (Byte.ofNat 0), List.replicate 256 0, 1)

/-- The finished `exp` table, compile/src/concurrency/fec.rs:38-40. -/
def gfExp : List Byte :=
  (List.range' 255 257).foldl (fun e i => e.set i (e.getD (i - 255) (Byte.ofNat 0))) gfFill.1

/-- The finished `log` table. -/
def gfLog : List Nat := gfFill.2.1

/-- `exp[i]` (an index past the table would panic; none is used, `gexp_index`). -/
def gexp (i : Nat) : Byte := gfExp.getD i (Byte.ofNat 0)

/-- `log[a]`. -/
def glog (a : Byte) : Nat := gfLog.getD a.toNat 0

/-- `mul`, compile/src/concurrency/fec.rs:45-51. -/
def gmul (a b : Byte) : Byte :=
  if a = Byte.ofNat 0 ∨ b = Byte.ofNat 0 then Byte.ofNat 0 else gexp (glog a + glog b)

/-- `div`, compile/src/concurrency/fec.rs:54-60. -/
def gdiv (a b : Byte) : Byte :=
  if a = Byte.ofNat 0 then Byte.ofNat 0 else gexp (glog a + 255 - glog b)

/-- `pow`, compile/src/concurrency/fec.rs:63-69. -/
def gpow (base : Byte) : Nat → Byte
  | 0 => Byte.ofNat 1
  | e + 1 => gmul (gpow base e) base

end Verif.Net
