import Verif.Lang.IntervalRun
import Verif.Lang.IntervalCareful
import Verif.Props.Fold

/-!
# C102: deciding branches by intervals does not change what a program does

Specification: `run` (the interpreter of `Lang/Interp.lean`) before and after `intervalProgram`
(`Lang/Intervals.lean`).  For the part that is true: `ivRun` (`Lang/IntervalSpec.lean`), the same
interpreter which stops where a number leaves the 64 bits, where a float is compared with an
integer, and at the other places named there; `repairedProgram`, the pass with the repairs named
there; and `careful` (`Lang/IntervalCareful.lean`), the programs on which the pass needs no
repair.
-/
namespace Verif.Props
open Verif.Lang

/-- The property in full: however the abstract operations behave, the program ends as before and
prints the same. -/
def IntervalsInvisible : Prop :=
  ∀ (P : Prims) (nw : Sym) (n : Nat) (p : List Stmt),
    run P n (intervalProgram nw p) = run P n p

/-- **C102, the repaired pass.**  Let a length be a natural number or a type error.  A program in
which no function assigns a name that the main program declares at its top level, and whose checked
run trips no check, ends in the same way and prints the same after the repaired pass: for every such
program, with functions, recursion, closures, loops and `Break`, and every amount of fuel. -/
theorem C102_repaired (P : Prims) (hl : LengthLaw P) (n : Nat) (p : List Stmt)
    (hfun : ∀ x ∈ topLets p, x ∉ funSetsSs p) (h : ¬ IvTripped (ivRun P n p).error) :
    run P n (repairedProgram p) = run P n p :=
  repaired_run hl hfun h

/-- **C102, where the two agree.**  The same for the pass itself, on a program on which it does what
the repaired pass does. -/
theorem C102_same_as_repaired (P : Prims) (hl : LengthLaw P) (nw : Sym) (n : Nat) (p : List Stmt)
    (hfun : ∀ x ∈ topLets p, x ∉ funSetsSs p) (h : ¬ IvTripped (ivRun P n p).error)
    (hsame : intervalProgram nw p = repairedProgram p) :
    run P n (intervalProgram nw p) = run P n p := by
  rw [hsame]
  exact repaired_run hl hfun h

/-- **C102 (partial).**  Let a length be a natural number or a type error.  A program which is careful
(`Lang/IntervalCareful.lean`: no condition looks at a name the pass may be wrong about, calls
anything, or can fail otherwise than on operand types), in which no function assigns a name that the
main program declares at its top level, and whose checked run trips no check, ends in the same way
and prints the same after the pass: for every such program, with functions, recursion, closures,
loops and `Break`, and every amount of fuel.
Missing: programs that are not careful, and programs that compute numbers of more than 64 bits or
compare floats with integers; the theorems below show that these do change. -/
theorem C102_intervals_partial (P : Prims) (hl : LengthLaw P) (nw : Sym) (n : Nat) (p : List Stmt)
    (hcareful : careful p = true) (hfun : ∀ x ∈ topLets p, x ∉ funSetsSs p)
    (h : ¬ IvTripped (ivRun P n p).error) :
    run P n (intervalProgram nw p) = run P n p :=
  C102_same_as_repaired P hl nw n p hfun h (careful_same nw hcareful)

/-! ## A concrete case

`Let x be 7. To f (a): If a < 10: If a > 20: Show 1. Return a. Return a % 5.`
`Let y be f(x) % 6. If x >= 5: Show 2. Otherwise: Show 3.`
`If y < 3: If y > 4: Show 1. Otherwise: Show y.`
`Let i be 0. While i < 3: If i > 2: Show 1. Set i to i + 1. Repeat for j in [i]: If x * 2 = 14: Show j.` -/

/-- The program above. -/
def rangeProgram : List Stmt :=
  [.letS 0 false false (num 7),
   .funDef 9 [(1, false)] [.ifS (.bin .lt (.var 1) (num 10))
     [.ifS (.bin .gt (.var 1) (num 20)) [.showS (num 1)] [], .ret (some (.var 1))] [],
     .ret (some (.bin .mod (.var 1) (num 5)))],
   .letS 2 false false (.bin .mod (.call 9 [.var 0]) (num 6)),
   .ifS (.bin .ge (.var 0) (num 5)) [.showS (num 2)] [.showS (num 3)],
   .ifS (.bin .lt (.var 2) (num 3)) [.ifS (.bin .gt (.var 2) (num 4)) [.showS (num 1)]
     [.showS (.var 2)]] [],
   .letS 3 false true (num 0),
   .whileS (.bin .lt (.var 3) (num 3))
     [.ifS (.bin .gt (.var 3) (num 2)) [.showS (num 1)] [],
      .set 3 (.bin .add (.var 3) (num 1)),
      .repeatS 4 (.list [.var 3])
        [.ifS (.bin .eq (.bin .mul (.var 0) (num 2)) (num 14)) [.showS (.var 4)] []]]]

/-- What the pass makes of it: six conditions are decided. -/
def rangeProgram' : List Stmt :=
  [.letS 0 false false (num 7),
   .funDef 9 [(1, false)] [.ifS (.bin .lt (.var 1) (num 10))
     [.ifS (.lit (.bool false)) [] [], .ret (some (.var 1))] [],
     .ret (some (.bin .mod (.var 1) (num 5)))],
   .letS 2 false false (.bin .mod (.call 9 [.var 0]) (num 6)),
   .ifS (.lit (.bool true)) [.showS (num 2)] [],
   .ifS (.bin .lt (.var 2) (num 3)) [.ifS (.lit (.bool false)) [] [.showS (.var 2)]] [],
   .letS 3 false true (num 0),
   .whileS (.bin .lt (.var 3) (num 3))
     [.ifS (.lit (.bool false)) [] [],
      .set 3 (.bin .add (.var 3) (num 1)),
      .repeatS 4 (.list [.var 3]) [.ifS (.lit (.bool true)) [.showS (.var 4)] []]]]

example : intervalProgram 99 rangeProgram = rangeProgram' ∧
    repairedProgram rangeProgram = rangeProgram' ∧ careful rangeProgram = true ∧
    (∀ x ∈ topLets rangeProgram, x ∉ funSetsSs rangeProgram) ∧
    ¬ IvTripped (ivRun sampleP 20 rangeProgram).error ∧
    (run sampleP 20 rangeProgram).output.length = 5 := by
  refine ⟨by rfl, by rfl, by rfl, ?_, ?_, ?_⟩
  · simp [rangeProgram, topLets, declS, funSetsSs, funSetsS, allSetsSs, allSetsS]
  · have : (ivRun sampleP 20 rangeProgram).error = none := by decide +kernel
    rw [this]; simp [IvTripped]
  · decide +kernel

theorem sampleP_length : LengthLaw sampleP := by
  intro v
  cases v with
  | list xs => exact .inl ⟨xs.length, rfl⟩
  | _ => exact .inr rfl

/-! ## Where it fails -/

/-- **C102 fails.**  `Let i be 0. While i < 10: Set i to i + 1. If i < 5: Show 1.` prints nothing;
after the pass it prints 1: the pass keeps what it knew of `i` before the loop. -/
theorem C102_loop_variable_fails :
    let p : List Stmt := [.letS 1 false true (num 0),
      .whileS (.bin .lt (.var 1) (num 10)) [.set 1 (.bin .add (.var 1) (num 1))],
      .ifS (.bin .lt (.var 1) (num 5)) [.showS (num 1)] []]
    (run sampleP 20 p).output = [] ∧ (run sampleP 20 (intervalProgram 99 p)).output = [['I']] := by
  decide +kernel

/-- **C102 fails.**  `Let n be length of [1, 1]. Let i be 0. While i < n: Set i to i + 1.
If i equals 0: Show 1. Otherwise: Show 2.` prints 2; after the pass it prints 1: when the bound of
the loop is not known the pass still believes that `i` is 0. -/
theorem C102_loop_bound_fails :
    let p : List Stmt := [.letS 0 false false (.length (.list [num 1, num 1])),
      .letS 1 false true (num 0),
      .whileS (.bin .lt (.var 1) (.var 0)) [.set 1 (.bin .add (.var 1) (num 1))],
      .ifS (.bin .eq (.var 1) (num 0)) [.showS (num 1)] [.showS (num 2)]]
    (run sampleP 20 p).output = [['I', 'I']] ∧
      (run sampleP 20 (intervalProgram 99 p)).output = [['I']] := by
  decide +kernel

/-- **C102 fails.**  `Let n be length of []. While n < 10: Break. If n >= 10: Show 1.` prints
nothing; after the pass it prints 1: a loop left by `Break` need not have ended its condition. -/
theorem C102_break_fails :
    let p : List Stmt := [.letS 1 false false (.length (.list [])),
      .whileS (.bin .lt (.var 1) (num 10)) [.brk],
      .ifS (.bin .ge (.var 1) (num 10)) [.showS (num 1)] []]
    (run sampleP 20 p).output = [] ∧ (run sampleP 20 (intervalProgram 99 p)).output = [['I']] := by
  decide +kernel

/-- **C102 fails.**  `Let b be 5. Let i be length of []. While i < b: Set b to 0. If i >= 5: Show 1.`
prints nothing; after the pass it prints 1: the pass takes the bound from before the loop, although
the loop assigns it. -/
theorem C102_bound_assigned_fails :
    let p : List Stmt := [.letS 0 false true (num 5), .letS 1 false false (.length (.list [])),
      .whileS (.bin .lt (.var 1) (.var 0)) [.set 0 (num 0)],
      .ifS (.bin .ge (.var 1) (num 5)) [.showS (num 1)] []]
    (run sampleP 20 p).output = [] ∧ (run sampleP 20 (intervalProgram 99 p)).output = [['I']] := by
  decide +kernel

/-- Primitives in which symbol 99 makes a new list. -/
def newP : Prims :=
  { sampleP with builtin := fun f => if f = 99 then some (fun _ => .ok (.list [])) else none }

/-- **C102 fails.**  `Let xs be a new Seq. Repeat for i in [1]: Push i to xs. If length of xs
equals 0: Show 1.` prints nothing; after the pass it prints 1: pushes in loops are not counted. -/
theorem C102_push_in_loop_fails :
    let p : List Stmt := [.letS 1 false true (.call 99 []),
      .repeatS 2 (.list [num 1]) [.push 1 (.var 2)],
      .ifS (.bin .eq (.length (.var 1)) (num 0)) [.showS (num 1)] []]
    (run newP 20 p).output = [] ∧ (run newP 20 (intervalProgram 99 p)).output = [['I']] := by
  decide +kernel

/-- **C102 fails.**  `Let xs be a new Seq. Set xs to [7]. If length of xs equals 0: Show 1.` prints
nothing; after the pass it prints 1: an assignment does not change the length. -/
theorem C102_set_length_fails :
    let p : List Stmt := [.letS 1 false true (.call 99 []), .set 1 (.list [num 7]),
      .ifS (.bin .eq (.length (.var 1)) (num 0)) [.showS (num 1)] []]
    (run newP 20 p).output = [] ∧ (run newP 20 (intervalProgram 99 p)).output = [['I']] := by
  decide +kernel

/-- Primitives whose floats are halves: `flt k` is `k / 2`. -/
def halfP : Prims :=
  { sampleP with
    fcmp := fun a b => some (compare a b)
    ofInt := fun n => 2 * n.natAbs
    cmpIF := fun n f => some (compare (2 * n) (f : Int)) }

/-- **C102 fails.**  `Let f be 5.5. If f > 5: If f < 6: Show 1.` prints 1; after the pass it prints
nothing: from `f > 5` the pass concludes `f >= 6`. -/
theorem C102_float_fails :
    let p : List Stmt := [.letS 1 false false (.lit (.flt 11)),
      .ifS (.bin .gt (.var 1) (num 5)) [.ifS (.bin .lt (.var 1) (num 6)) [.showS (num 1)] []] []]
    (run halfP 20 p).output = [['I']] ∧ (run halfP 20 (intervalProgram 99 p)).output = [] := by
  decide +kernel

/-- **C102 fails.**  `To f: Show 1. Return 3.  If f() % 6 < 6: Show 2.` prints 1 and 2; after the
pass it prints only 2: the decided condition is dropped with its call. -/
theorem C102_call_dropped_fails :
    let p : List Stmt := [.funDef 9 [] [.showS (num 1), .ret (some (num 3))],
      .ifS (.bin .lt (.bin .mod (.call 9 []) (num 6)) (num 6)) [.showS (num 2)] []]
    (run sampleP 20 p).output = [['I'], ['I', 'I']] ∧
      (run sampleP 20 (intervalProgram 99 p)).output = [['I', 'I']] := by
  decide +kernel

/-- **C102 fails.**  `If length of 5 >= 0: Show 1.` is an error; after the pass it prints 1. -/
theorem C102_error_dropped_fails :
    let p : List Stmt := [.ifS (.bin .ge (.length (num 5)) (num 0)) [.showS (num 1)] []]
    (run sampleP 20 p).error = some .type ∧ (run sampleP 20 (intervalProgram 99 p)).error = none ∧
      (run sampleP 20 (intervalProgram 99 p)).output = [['I']] := by
  decide +kernel

/-- **C102 fails.**  With `m` the largest 64-bit integer, `If m + 1 - 2 > m: Show 1.` prints
nothing; after the pass it prints 1: the overflowing sum counts as infinite. -/
theorem C102_overflow_fails :
    let p : List Stmt := [.ifS (.bin .gt (.bin .sub (.bin .add (num (2 ^ 63 - 1)) (num 1)) (num 2))
      (num (2 ^ 63 - 1))) [.showS (num 1)] []]
    (run sampleP 20 p).output = [] ∧ (run sampleP 20 (intervalProgram 99 p)).output = [['I']] := by
  decide +kernel

/-- **C102 fails.**  `Let x be 1. If true: Let x be 2. If x equals 2: Show 1.` prints nothing; after
the pass it prints 1: the declaration inside the block changes what the pass believes of the outer
name. -/
theorem C102_shadow_fails :
    let p : List Stmt := [.letS 1 false false (num 1),
      .ifS (.lit (.bool true)) [.letS 1 false false (num 2)] [],
      .ifS (.bin .eq (.var 1) (num 2)) [.showS (num 1)] []]
    (run sampleP 20 p).output = [] ∧ (run sampleP 20 (intervalProgram 99 p)).output = [['I']] := by
  decide +kernel

/-- **C102 fails.**  `Let x be 1. To f: Set x to 2. Call f. If x equals 1: Show 1.` prints nothing;
after the pass it prints 1. -/
theorem C102_function_sets_global_fails :
    let p : List Stmt := [.letS 1 false true (num 1), .funDef 9 [] [.set 1 (num 2)], .callS 9 [],
      .ifS (.bin .eq (.var 1) (num 1)) [.showS (num 1)] []]
    (run sampleP 20 p).output = [] ∧ (run sampleP 20 (intervalProgram 99 p)).output = [['I']] := by
  decide +kernel

/-- **C102 fails.**  With `m` the smallest 64-bit integer, `Let x be 0. Let y be m. If x - y < 0:
Show 1.` prints nothing, for the difference is 2^63; after the pass it prints 1: it takes the
overflow of `0 - m` for minus infinity. -/
theorem C102_difference_fails :
    let m : Int := -(2 ^ 63)
    let p : List Stmt := [.letS 1 false false (num 0), .letS 2 false false (num m),
      .ifS (.bin .lt (.bin .sub (.var 1) (.var 2)) (num 0)) [.showS (num 1)] []]
    (run sampleP 20 p).output = [] ∧ (run sampleP 20 (intervalProgram 99 p)).output = [['I']] := by
  decide +kernel

/-- **C102 fails.**  With `m` the smallest 64-bit integer, the remainder of the largest integer by
`m` is the largest integer; the pass believes that it is smaller.  `To f: Return 2^63 - 1.
If f() % m < 2^63 - 1: Show 1.` prints nothing; after the pass it prints 1. -/
theorem C102_remainder_fails :
    let p : List Stmt := [.funDef 9 [] [.ret (some (num (2 ^ 63 - 1)))],
      .ifS (.bin .lt (.bin .mod (.call 9 []) (num (-(2 ^ 63)))) (num (2 ^ 63 - 1)))
        [.showS (num 1)] []]
    (run sampleP 20 p).output = [] ∧ (run sampleP 20 (intervalProgram 99 p)).output = [['I']] := by
  decide +kernel

/-- **C102 fails.**  The compiler itself can stop: with `m` the smallest 64-bit integer, inside
`If x >= m:` the lower bound of `x` is `m`, and for `x / -1` the pass divides that bound by −1 without
a check; the quotient does not fit in 64 bits. -/
theorem C102_panic_fails :
    let i : Interval := narrowBy .ge (-(2 ^ 63)) .top
    i.isExact = none ∧ i.lo.divPanics (-1) = true := by
  decide +kernel

/-- The property in full is false. -/
theorem C102_full_fails : ¬ IntervalsInvisible := by
  intro h
  have h1 := h sampleP 99 20 [.letS 1 false true (num 0),
    .whileS (.bin .lt (.var 1) (num 10)) [.set 1 (.bin .add (.var 1) (num 1))],
    .ifS (.bin .lt (.var 1) (num 5)) [.showS (num 1)] []]
  have h2 := C102_loop_variable_fails
  have h3 := congrArg Outcome.output h1
  rw [h2.1, h2.2] at h3
  cases h3

end Verif.Props
