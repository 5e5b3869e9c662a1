/-!
# Linear systems over GF(2)

Model of `crates/logicaffeine_proof/src/gf2.rs:26-155`.  A `u64` row is a natural number, `(a >> c) & 1 == 1` is `testBit`.
Shift amounts are reduced modulo 64, as in a release build; a debug build panics where a shift amount reaches 64.
-/

namespace Verif.Solve.Gf2

/-- `rows[r]`. -/
def at_ (rows : List Nat) (r : Nat) : Nat := rows.getD r 0

/-- The search for a pivot row (gf2.rs:30, 113). -/
def findPivot (rows : List Nat) (rank col : Nat) : Option Nat :=
  (List.range' rank (rows.length - rank)).find? fun r => (at_ rows r).testBit col

/-- `rows.swap(i, j)` (gf2.rs:31, 114). -/
def swap (rows : List Nat) (i j : Nat) : List Nat := (rows.set i (at_ rows j)).set j (at_ rows i)

/-- The elimination loop (gf2.rs:32-36, 115-119).  Row `rank` is never changed by it, so all rows can be done at once. -/
def elim (rows : List Nat) (rank col : Nat) : List Nat :=
  rows.mapIdx fun r a => if r ≠ rank ∧ a.testBit col = true then a ^^^ at_ rows rank else a

/-- The loop's state; the rank is the number of pivots. -/
structure St where
  rows : List Nat
  pivots : List Nat

/-- A pivot row was found or not. -/
def pivoted (st : St) (col : Nat) : Option Nat → St
  | none => st
  | some p => ⟨elim (swap st.rows st.pivots.length p) st.pivots.length col, st.pivots ++ [col]⟩

/-- The body of the loop over columns (gf2.rs:30-38, 113-122). -/
def step (st : St) (col : Nat) : St := pivoted st col (findPivot st.rows st.pivots.length col)

/-- The loop over columns. -/
def reduce (n : Nat) (rows : List Nat) : St := (List.range n).foldl step ⟨rows, []⟩

/-- `is_invertible_gf2` (gf2.rs:26-41). -/
def isInvertible (n : Nat) (rows : List Nat) : Bool := decide ((reduce n rows).pivots.length = n)

/-- `u64 << n` with the shift amount reduced. -/
def shl (a n : Nat) : Nat := (a <<< (n % 64)) % 2 ^ 64

/-- `coeff_mask` (gf2.rs:107). -/
def coeffMask (n : Nat) : Nat := if n = 64 then 2 ^ 64 - 1 else shl 1 n - 1

/-- One augmented row (gf2.rs:108-109). -/
def augment (n : Nat) (p : Nat × Bool) : Nat := (p.1 &&& coeffMask n) ||| shl p.2.toNat n

/-- The right-hand side bit of an augmented row (gf2.rs:126, 138). -/
def rhsBit (n a : Nat) : Bool := a.testBit (n % 64)

/-- The inconsistency test (gf2.rs:125-129). -/
def inconsistent (n : Nat) (rows : List Nat) : Bool := rows.any fun a => decide (a &&& coeffMask n = 0) && rhsBit n a

/-- `SolutionSpace` (gf2.rs:70-75). -/
structure Space where
  numVars : Nat
  particular : List Bool
  kernel : List (List Bool)
deriving Repr, DecidableEq

/-- Setting a position (an index out of range would panic; all are below `n`). -/
def put (xs : List Bool) (p : Nat × Bool) : List Bool := xs.set p.1 p.2

/-- The particular solution (gf2.rs:136-139). -/
def particular (n : Nat) (st : St) : List Bool :=
  (st.pivots.mapIdx fun r pc => (pc, rhsBit n (at_ st.rows r))).foldl put (List.replicate n false)

/-- One kernel vector (gf2.rs:146-152). -/
def kernelVec (n : Nat) (st : St) (f : Nat) : List Bool :=
  ((st.pivots.mapIdx fun r pc => (pc, (at_ st.rows r).testBit f)).filter (·.2)).foldl put
    ((List.replicate n false).set f true)

/-- The columns without a pivot (gf2.rs:131-134, 142-145). -/
def freeCols (n : Nat) (st : St) : List Nat := (List.range n).filter fun c => !st.pivots.contains c

/-- The result when the system is consistent (gf2.rs:130-155). -/
def space (n : Nat) (st : St) : Space := ⟨n, particular n st, (freeCols n st).map (kernelVec n st)⟩

/-- The result after the loop. -/
def finish (n : Nat) (st : St) : Option Space := if inconsistent n st.rows = true then none else some (space n st)

/-- `solve_gf2` (gf2.rs:106-155). -/
def solve (n : Nat) (rows : List Nat) (rhs : List Bool) : Option Space :=
  finish n (reduce n ((rows.zip rhs).map (augment n)))

/-- `SolutionSpace::count` (gf2.rs:79-81). -/
def Space.count (s : Space) : Nat := 2 ^ s.kernel.length

/-- `x[v] ^= kernel_basis[b][v]` for every variable (gf2.rs:92-94). -/
def addVec (n : Nat) (x k : List Bool) : List Bool := (List.range n).map fun v => x.getD v false ^^ k.getD v false

/-- The solution for one mask (gf2.rs:88-97). -/
def member (s : Space) (mask : Nat) : List Bool :=
  (s.kernel.zipIdx.filter fun p => mask.testBit p.2).foldl (fun x p => addVec s.numVars x p.1) s.particular

/-- `SolutionSpace::enumerate` (gf2.rs:85-100); the `u64` mask suffices for fewer than 64 vectors. -/
def Space.enumerate (s : Space) : List (List Bool) := (List.range (2 ^ s.kernel.length)).map (member s)

/-! ## Specification -/

/-- The equation with coefficients `row` (bit `c` for variable `c`) and right-hand side `b` holds: the number of true
variables among those with a coefficient is odd exactly if `b`. -/
def Holds (n : Nat) (row : Nat) (b : Bool) (x : List Bool) : Prop :=
  (List.range n).countP (fun c => row.testBit c && x.getD c false) % 2 = b.toNat

/-- `x` gives a value to each of the `n` variables and satisfies every equation. -/
def Solution (n : Nat) (rows : List Nat) (rhs : List Bool) (x : List Bool) : Prop :=
  x.length = n ∧ ∀ i (h1 : i < rows.length) (h2 : i < rhs.length), Holds n rows[i] rhs[i] x

end Verif.Solve.Gf2
