import Verif.Lang.DceRun
import Verif.Props.Fold

/-!
# C85: dead code elimination does not change what a program does

Specification: `run` (the interpreter) before and after `dceBlock`; for the part that is true, the
discipline `Tidy` of `Lang/DceSpec.lean`.
-/
namespace Verif.Props
open Verif.Lang

/-- The property in full: however the abstract operations behave, the program ends as before and
prints the same. -/
def DceInvisible : Prop :=
  ∀ (P : Prims) (n : Nat) (p : List Stmt), run P n (dceBlock p) = run P n p

/-- **C85 (partial).**  A program in which no branch that is always taken declares a variable, and
in which, whenever a block assigns a name twice, either something between needs the first value or
everything between passes it by, and which ends without an error, ends in the same way and prints
the same after dead code elimination: for every such program, with functions, recursion, closures
and loops, whatever the abstract operations do, and every amount of fuel.
Missing: runs that end in an error, and programs that are not tidy; the theorems below show that
these do change. -/
theorem C85_dce_partial (P : Prims) (n : Nat) (p : List Stmt) (ht : Tidy p)
    (h : (run P n p).error = none) : run P n (dceBlock p) = run P n p :=
  dce_run ht h

/-- Cutting a block after its first `Return` changes no run at all, failing ones included. -/
theorem C85_after_return (P : Prims) (n : Nat) (p : List Stmt) :
    run P n (truncRet p) = run P n p := by
  unfold run
  rw [truncRet_execs]

/-! ## A concrete case

`Let x be 1. Set x to 2. Let y be 5. Show y. Set x to y + 1.`
`To f (a): Set x to 7. Set x to a. While false: Show a. Return x. Show a.`
`If true: Show f(x). Set y to 1. Call f (y). Set y to 2. Show y. Repeat for i in [1, 2]: If x < 9: Set y to i.
Set y to i + x. Show y.` -/

/-- The program above. -/
def deadProgram : List Stmt :=
  [.letS 0 false true (num 1), .set 0 (num 2), .letS 1 false true (num 5), .showS (.var 1),
   .set 0 (.bin .add (.var 1) (num 1)),
   .funDef 9 [(2, false)] [.set 0 (num 7), .set 0 (.var 2),
     .whileS (.lit (.bool false)) [.showS (.var 2)], .ret (some (.var 0)), .showS (.var 2)],
   .ifS (.lit (.bool true)) [.showS (.call 9 [.var 0])] [],
   .set 1 (num 1), .callS 9 [.var 1], .set 1 (num 2), .showS (.var 1),
   .repeatS 3 (.list [num 1, num 2])
     [.ifS (.bin .lt (.var 0) (num 9)) [.set 1 (.var 3), .set 1 (.bin .add (.var 3) (.var 0))] [],
      .showS (.var 1)]]

/-- A test for `settled` after an assignment of `x`, given whether something needed it (`nd`) and
whether everything passed it by (`ps`) so far. -/
def settledAfter (x : Sym) (nd ps : Bool) : List Stmt → Bool
  | [] => true
  | st :: ss =>
    (match st with
      | .set y _ => y != x || nd || ps
      | _ => true) && settledAfter x (nd || needs x st) (ps && passes x st) ss

/-- A test for `settled`. -/
def settledTest : List Stmt → Bool
  | [] => true
  | st :: ss => (match st with
      | .set x _ => settledAfter x false true ss
      | _ => true) && settledTest ss

theorem settledAfter_sound {x : Sym} {e' : Expr} {post : List Stmt} : ∀ (mid : List Stmt)
    (nd ps : Bool), settledAfter x nd ps (mid ++ .set x e' :: post) = true →
    (nd = true ∨ ∃ st ∈ mid, needs x st = true) ∨ (ps = true ∧ ∀ st ∈ mid, passes x st = true)
  | [], nd, ps, h => by
    simp only [List.nil_append, settledAfter, bne_self_eq_false, Bool.false_or, Bool.and_eq_true,
      Bool.or_eq_true] at h
    rcases h.1 with h | h
    · exact .inl (.inl h)
    · exact .inr ⟨h, by simp⟩
  | st :: mid, nd, ps, h => by
    simp only [List.cons_append, settledAfter, Bool.and_eq_true] at h
    rcases settledAfter_sound mid _ _ h.2 with (h | ⟨st', h1, h2⟩) | ⟨h1, h2⟩
    · simp only [Bool.or_eq_true] at h
      rcases h with h | h
      · exact .inl (.inl h)
      · exact .inl (.inr ⟨st, by simp, h⟩)
    · exact .inl (.inr ⟨st', by simp [h1], h2⟩)
    · simp only [Bool.and_eq_true] at h1
      refine .inr ⟨h1.1, ?_⟩
      intro st' hst'
      rcases List.mem_cons.1 hst' with rfl | hm
      · exact h1.2
      · exact h2 st' hm

theorem settledTest_sound : ∀ {ss : List Stmt}, settledTest ss = true → settled ss
  | [], _ => by
    intro pre x e mid e' post h
    cases pre <;> cases h
  | st :: ss, h => by
    simp only [settledTest, Bool.and_eq_true] at h
    intro pre x e mid e' post heq
    cases pre with
    | nil =>
      simp only [List.nil_append, List.cons.injEq] at heq
      obtain ⟨rfl, rfl⟩ := heq
      rcases settledAfter_sound mid _ _ h.1 with (h | h) | h
      · cases h
      · exact .inl h
      · exact .inr h.2
    | cons st' pre =>
      simp only [List.cons_append, List.cons.injEq] at heq
      exact settledTest_sound h.2 pre x e mid e' post heq.2

example : Tidy deadProgram ∧ (run sampleP 20 deadProgram).error = none ∧
    (run sampleP 20 deadProgram).output.length = 5 ∧
    deadProgram.length = 12 ∧ (dceBlock deadProgram).length = 11 := by
  refine ⟨⟨?_, settledTest_sound (by decide +kernel)⟩, by decide +kernel, by decide +kernel,
    by decide +kernel, by decide +kernel⟩
  simp only [deadProgram, tidySs, tidyS, and_true, true_and]
  refine ⟨⟨settledTest_sound (by decide +kernel), settledTest_sound (by decide +kernel)⟩, ?_, ?_⟩
  · exact ⟨settledTest_sound (by decide +kernel), settledTest_sound (by decide +kernel),
      by simp [topLets, declS], by simp [topLets]⟩
  · refine ⟨⟨settledTest_sound (by decide +kernel), settledTest_sound (by decide +kernel),
      by simp, by simp⟩, settledTest_sound (by decide +kernel)⟩

/-! ## Where it fails -/

/-- **C85 fails.**  `Let x be 0. Set x to 1 / 0. Set x to 2. Show x.` ends in an error; after the
pass it prints 2. -/
theorem C85_error_erased_fails :
    let p : List Stmt := [.letS 0 false true (num 0), .set 0 (.bin .div (num 1) (num 0)),
      .set 0 (num 2), .showS (.var 0)]
    (run sampleP 5 p).error = some .divZero ∧ (run sampleP 5 (dceBlock p)).error = none ∧
      (run sampleP 5 (dceBlock p)).output = [['I', 'I']] := by
  refine ⟨?_, ?_, ?_⟩ <;> rfl

/-- **C85 fails.**  `Let x be 0. While true: Set x to 1. Break. Set x to 2.` then `Show x.` prints
1; after the pass it prints 0. -/
theorem C85_break_fails :
    let p : List Stmt := [.letS 0 false true (num 0),
      .whileS (.lit (.bool true)) [.set 0 (num 1), .brk, .set 0 (num 2)], .showS (.var 0)]
    (run sampleP 5 p).output = [['I']] ∧ (run sampleP 5 (dceBlock p)).output = [['0']] := by
  decide +kernel

/-- **C85 fails.**  `Let x be 0. To f: Set x to 1. Return. Set x to 2.` then `Call f. Show x.`
prints 1; after the pass it prints 0. -/
theorem C85_return_fails :
    let p : List Stmt := [.letS 0 false true (num 0),
      .funDef 9 [] [.set 0 (num 1), .ret none, .set 0 (num 2)], .callS 9 [], .showS (.var 0)]
    (run sampleP 5 p).output = [['I']] ∧ (run sampleP 5 (dceBlock p)).output = [['0']] := by
  decide +kernel

/-- **C85 fails.**  `Let x be 0. To f: Return x.` then `Set x to 1. Show f(). Set x to 2.` prints
1; after the pass it prints 0: a call inside `Show` counts as reading its arguments only. -/
theorem C85_call_reads_fails :
    let p : List Stmt := [.letS 0 false true (num 0), .funDef 9 [] [.ret (some (.var 0))],
      .set 0 (num 1), .showS (.call 9 []), .set 0 (num 2)]
    (run sampleP 5 p).output = [['I']] ∧ (run sampleP 5 (dceBlock p)).output = [['0']] := by
  decide +kernel

/-- **C85 fails.**  `Let x be 0. Set x to 1. Let g be () -> x. Set x to 2. Show g().` prints 1;
after the pass it prints 0: a closure does not count as reading what it captures. -/
theorem C85_closure_fails :
    let p : List Stmt := [.letS 0 false true (num 0), .set 0 (num 1),
      .letS 1 false false (.closure [] (.var 0)), .set 0 (num 2), .showS (.callv (.var 1) [])]
    (run sampleP 5 p).output = [['I']] ∧ (run sampleP 5 (dceBlock p)).output = [['0']] := by
  decide +kernel

/-- **C85 fails.**  `Let x be 0. If 1 < 2: Set x to 1. Let x be 5. Set x to 2.` then `Show x.`
prints 1; after the pass it prints 0: the second assignment is of another variable. -/
theorem C85_shadow_fails :
    let p : List Stmt := [.letS 0 false true (num 0),
      .ifS (.bin .lt (num 1) (num 2)) [.set 0 (num 1), .letS 0 false true (num 5), .set 0 (num 2)] [],
      .showS (.var 0)]
    (run sampleP 5 p).output = [['I']] ∧ (run sampleP 5 (dceBlock p)).output = [['0']] := by
  decide +kernel

/-- **C85 fails.**  `Let y be 0. If true: Let y be 1.` then `Show y.` prints 0; after the pass it
prints 1: the branch loses its scope. -/
theorem C85_branch_scope_fails :
    let p : List Stmt := [.letS 0 false false (num 0),
      .ifS (.lit (.bool true)) [.letS 0 false false (num 1)] [], .showS (.var 0)]
    (run sampleP 5 p).output = [['0']] ∧ (run sampleP 5 (dceBlock p)).output = [['I']] := by
  decide +kernel

/-- The property in full is false. -/
theorem C85_full_fails : ¬ DceInvisible := by
  intro h
  have h1 := h sampleP 5 [.letS 0 false false (num 0),
      .ifS (.lit (.bool true)) [.letS 0 false false (num 1)] [], .showS (.var 0)]
  have h2 := C85_branch_scope_fails
  have h3 := congrArg Outcome.output h1
  rw [h2.1, h2.2] at h3
  cases h3

end Verif.Props
