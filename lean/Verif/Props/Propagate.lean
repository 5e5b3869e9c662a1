import Verif.Lang.PropSim
import Verif.Props.Fold

/-!
# C84: constant propagation does not change what a program does

Specification: `run` (the interpreter) before and after `propagateProgram`; for the part that is
true, the checked interpreter of `Lang/Checked.lean` and the discipline `freshSs` ("every
declaration is of a new name") of `Lang/PropSim.lean`.
-/
namespace Verif.Props
open Verif.Lang

/-- The property in full: however the abstract operations behave, the program ends as before and
prints the same. -/
def PropagationInvisible : Prop :=
  ∀ (P : Prims) (n : Nat) (p : List Stmt), run P n (propagateProgram P p) = run P n p

/-- **C84 (partial).**  Let floats obey their laws.  A program in which every `Let` and every
`Repeat` declares a name that is not in scope in the same function already, no function assigns a
name that the main program declares at its top level, and whose checked run trips no check of
constant folding, ends in the same way and prints the same after constant propagation: for every
such program, with functions, recursion, closures and loops, and every amount of fuel.
Missing: programs that redeclare a name, loop variables that shadow, functions that assign
globals; the theorems below show that these do change. -/
theorem C84_propagate_partial (P : Prims) (nz : Nat) (hl : Lawful P nz) (n : Nat) (p : List Stmt)
    (hfresh : freshSs [] p) (hfun : ∀ x ∈ topLets p, x ∉ funSetsSs p)
    (h : ¬ Tripped (checkedRun P nz [] n p).error) :
    run P n (propagateProgram P p) = run P n p :=
  propagate_run hl hfresh hfun h

/-! ## A concrete case

`Let k be 3. To f (a): If a < k: Let k be 4. Return f(a + 1) + k. Return a.`
`Let mutable m be 0. While m < k: Let j be m. Set m to j + 1. Repeat for i in [m]: Show i + k.`
`Show f(m).` -/

/-- The program above. -/
def constProgram : List Stmt :=
  [.letS 0 false false (num 3),
   .funDef 9 [(1, false)] [.ifS (.bin .lt (.var 1) (.var 0))
     [.letS 0 false false (num 4),
      .ret (some (.bin .add (.call 9 [.bin .add (.var 1) (num 1)]) (.var 0)))] [],
     .ret (some (.var 1))],
   .letS 2 false true (num 0),
   .whileS (.bin .lt (.var 2) (.var 0))
     [.letS 3 false false (.var 2), .set 2 (.bin .add (.var 3) (num 1)),
      .repeatS 4 (.list [.var 2]) [.showS (.bin .add (.var 4) (.var 0))]],
   .showS (.call 9 [num 1])]

example : freshSs [] constProgram ∧ (∀ x ∈ topLets constProgram, x ∉ funSetsSs constProgram) ∧
    ¬ Tripped (checkedRun sampleP 2 [] 20 constProgram).error ∧
    (run sampleP 20 constProgram).output.length = 4 := by
  refine ⟨?_, ?_, ?_, ?_⟩
  · simp [constProgram, freshSs, freshS, declS]
  · simp [constProgram, topLets, declS, funSetsSs, funSetsS, allSetsSs, allSetsS]
  · have : (checkedRun sampleP 2 [] 20 constProgram).error = none := by decide +kernel
    rw [this]; simp [Tripped]
  · decide +kernel

/-! ## Where it fails -/

/-- **C84 fails.**  `Let ys be [7]. Let x be 5. Let x be length of ys. Show x.` prints 1; after
propagation it prints 5: the second declaration is not forgotten. -/
theorem C84_redeclare_fails :
    let p : List Stmt := [.letS 0 false false (.list [num 7]), .letS 1 false false (num 5),
      .letS 1 false false (.length (.var 0)), .showS (.var 1)]
    (run sampleP 5 p).output = [['I']] ∧
      (run sampleP 5 (propagateProgram sampleP p)).output = [['I', 'I', 'I', 'I', 'I']] := by
  decide +kernel

/-- **C84 fails.**  `Let i be 5. Repeat for i in [1]: Show i.` prints 1; after propagation it
prints 5. -/
theorem C84_loop_variable_fails :
    let p : List Stmt := [.letS 1 false false (num 5),
      .repeatS 1 (.list [num 1]) [.showS (.var 1)]]
    (run sampleP 5 p).output = [['I']] ∧
      (run sampleP 5 (propagateProgram sampleP p)).output = [['I', 'I', 'I', 'I', 'I']] := by
  decide +kernel

/-- **C84 fails.**  `Let x be 1. To f: Set x to 2. Call f. Show x.` prints 2; after propagation
it prints 1. -/
theorem C84_function_sets_global_fails :
    let p : List Stmt := [.letS 1 false false (num 1), .funDef 9 [] [.set 1 (num 2)],
      .callS 9 [], .showS (.var 1)]
    (run sampleP 5 p).output = [['I', 'I']] ∧
      (run sampleP 5 (propagateProgram sampleP p)).output = [['I']] := by
  decide +kernel

/-- The property in full is false. -/
theorem C84_full_fails : ¬ PropagationInvisible := by
  intro h
  have h1 := h sampleP 5 [.letS 1 false false (num 5), .repeatS 1 (.list [num 1]) [.showS (.var 1)]]
  have h2 := C84_loop_variable_fails
  have h3 := congrArg Outcome.output h1
  rw [h2.1, h2.2] at h3
  cases h3

end Verif.Props
