import Verif.Lang.InlineSound
import Verif.Props.Fold

/-!
# C110: inlining one-expression functions does not change what a program does

Specification: `run` (the interpreter) before and after `inlineProgram`; for the part that is true,
the conditions `Orderly` and `Def.closed` of `Lang/CallSpec.lean`.
-/
namespace Verif.Props
open Verif.Lang Verif.Lang.Inline Verif.Lang.CallSpec

/-- The property in full: however the abstract operations behave, a program that ends within the
given fuel ends as before and prints the same. -/
def InlineInvisible : Prop :=
  ∀ (P : Prims) (n : Nat) (p : List Stmt), (run P n p).error ≠ some .fuel →
    run P n (inlineProgram p) = run P n p

/-- **C110 (partial).**  If every function is defined once, before the other statements, not inside
another one and not under the name of a builtin, and those that are one returned expression read
only their parameters, then a program that ends within the fuel, and not because a name has no
value, ends in the same way after the pass, with the same error if any, and prints the same lines.
Missing: programs outside these conditions, which do change (below), and that a program that never
ends still never ends. -/
theorem C110_closed_partial (P : Prims) (n : Nat) (defs : List Def) (main : List Stmt)
    (ho : Orderly P defs main) (hc : ∀ d ∈ defs, d.closed)
    (hf : (run P n (program defs main)).error ≠ some .fuel)
    (hu : ∀ x, (run P n (program defs main)).error ≠ some (.unbound x)) :
    run P n (inlineProgram (program defs main)) = run P n (program defs main) := by
  refine inline_run ho hc n ?_
  rintro e he (rfl | ⟨x, rfl⟩)
  · exact hf he
  · exact hu x he

/-! ## A concrete case -/

/-- A number in the examples. -/
def inNum (n : Int) : Expr := .lit (.num n)

/-- Two functions that are inlined, one of them called by the other, and one that is not. -/
def inDefs : List Def :=
  [ ⟨20, [(0, false), (1, false)], [.ret (some (.bin .sub (.var 0) (.var 1)))]⟩,
    ⟨21, [(1, false)], [.showS (.call 20 [.var 1, inNum 1]),
      .ret (some (.call 20 [inNum 7, .var 1]))]⟩,
    ⟨22, [(0, false)], [.ret (some (.bin .div (inNum 1) (.var 0)))]⟩ ]

def inMain : List Stmt :=
  [ .letS 1 false true (inNum 5), .letS 0 false true (inNum 2),
    .whileS (.bin .gt (.var 1) (inNum 3))
      [.showS (.call 20 [.var 1, .var 0]), .set 1 (.call 20 [.var 1, inNum 1])],
    .showS (.call 21 [.var 1]),
    .showS (.call 22 [inNum 0]) ]

theorem in_orderly : Orderly sampleP inDefs inMain :=
  ⟨by decide +kernel, by decide +kernel, by decide +kernel, fun _ _ => rfl⟩

theorem in_closed : ∀ d ∈ inDefs, d.closed := by
  simp [inDefs, Def.closed, Def.names, inNum]
  refine ⟨?_, ?_⟩ <;> (intro x hx; simpa [reads] using hx)

/-- The call is replaced by the body, with the arguments in place of the parameters. -/
example : inlineE (bodies (program inDefs inMain) fun _ => none) (.call 20 [.var 1, .var 0]) =
    .bin .sub (.var 1) (.var 0) := by
  simp [inlineE, inlineEs, bodies, program, inDefs, inMain, Def.stmt, inlinable, atomic, subst,
    bindArgs, inNum]

example : (run sampleP 20 (program inDefs inMain)).output =
      [List.replicate 3 'I', List.replicate 2 'I', List.replicate 2 'I', List.replicate 4 'I'] ∧
    (run sampleP 20 (program inDefs inMain)).error = some .divZero := by decide +kernel

example : run sampleP 20 (inlineProgram (program inDefs inMain)) =
    run sampleP 20 (program inDefs inMain) := by
  have h : (run sampleP 20 (program inDefs inMain)).error = some .divZero := by decide +kernel
  exact C110_closed_partial sampleP 20 inDefs inMain in_orderly in_closed (by rw [h]; simp)
    (by intro x; rw [h]; simp)

/-! ## Programs that change -/

/-- `To f (y): Return g + y.` called in a block that declares its own `g`: the inlined body reads
that one. -/
theorem C110_capture_fails : let p : List Stmt := [.letS 0 false false (inNum 2),
      .funDef 9 [(1, false)] [.ret (some (.bin .add (.var 0) (.var 1)))],
      .ifS (.lit (.bool true)) [.letS 0 false false (inNum 5), .showS (.call 9 [inNum 1])] []]
    (run sampleP 20 p).output = [List.replicate 3 'I'] ∧ (run sampleP 20 p).error = none ∧
      (run sampleP 20 (inlineProgram p)).output = [List.replicate 6 'I'] := by
  decide +kernel

/-- An argument without a value that the body does not use: the error disappears. -/
theorem C110_unbound_fails : let p : List Stmt := [.funDef 9 [(1, false)] [.ret (some (inNum 3))],
      .showS (.call 9 [.var 7])]
    (run sampleP 20 p).output = [] ∧ (run sampleP 20 p).error = some (.unbound 7) ∧
      (run sampleP 20 (inlineProgram p)).output = [List.replicate 3 'I'] ∧
      (run sampleP 20 (inlineProgram p)).error = none := by
  decide +kernel

/-- A function is defined again after a call: the call gets the later definition. -/
theorem C110_later_fails : let p : List Stmt := [.funDef 9 [] [.ret (some (inNum 1))],
      .showS (.call 9 []), .funDef 9 [] [.ret (some (inNum 2))]]
    (run sampleP 20 p).output = [['I']] ∧ (run sampleP 20 p).error = none ∧
      (run sampleP 20 (inlineProgram p)).output = [['I', 'I']] := by
  decide +kernel

/-- A function is defined again before the call, with a longer body: the call gets the earlier
definition. -/
theorem C110_earlier_fails : let p : List Stmt := [.funDef 9 [] [.ret (some (inNum 1))],
      .funDef 9 [] [.showS (inNum 5), .ret (some (inNum 2))], .showS (.call 9 [])]
    (run sampleP 20 p).output = [List.replicate 5 'I', ['I', 'I']] ∧
      (run sampleP 20 p).error = none ∧ (run sampleP 20 (inlineProgram p)).output = [['I']] := by
  decide +kernel

/-- A call before the definition is an error, and becomes a value. -/
theorem C110_early_fails : let p : List Stmt := [.showS (.call 9 []),
      .funDef 9 [] [.ret (some (inNum 1))]]
    (run sampleP 20 p).error = some (.unknownFn 9) ∧
      (run sampleP 20 (inlineProgram p)).output = [['I']] ∧
      (run sampleP 20 (inlineProgram p)).error = none := by
  decide +kernel

/-- The property in full is false. -/
theorem C110_fails : ¬ InlineInvisible := by
  intro h
  have hp := C110_capture_fails
  simp only at hp
  obtain ⟨h1, h2, h3⟩ := hp
  rw [h sampleP 20 _ (by rw [h2]; simp), h1] at h3
  exact absurd h3 (by decide)

end Verif.Props
