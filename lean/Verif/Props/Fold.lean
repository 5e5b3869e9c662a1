import Verif.Lang.FoldSim

/-!
# C83: constant folding does not change what a program does

Specification: `run` (the interpreter) before and after `foldProgram`; for the part that is true,
the checked interpreter of `Lang/Checked.lean`.
-/
namespace Verif.Props
open Verif.Lang

/-- The property in full: however the abstract operations behave, whatever order the hash set of
candidates is visited in, the folded program ends as the program does and prints the same. -/
def FoldInvisible : Prop :=
  ∀ (P : Prims) (ord : List Sym → List Sym) (n : Nat) (p : List Stmt),
    run P n (foldProgram P ord p) = run P n p

/-- **C83 (partial).**  Let floats obey their laws, and let `B` contain every name the pass takes
to be Boolean in some scope.  Unless the program's checked run trips a check (an operand kind the
pass takes for granted is violated, a name in `B` is read with another value, an operator other
than a division fails) or reads an undefined name, the folded program ends in the same way, with
the same error if any, and prints the same lines, for every program and every amount of fuel.
Missing: programs that trip a check; the theorems below show that these do change. -/
theorem C83_fold_partial (P : Prims) (nz : Nat) (hl : Lawful P nz) (ord : List Sym → List Sym)
    (B : List Sym) (n : Nat) (p : List Stmt)
    (hB : ∀ x ∈ collectBools ord [] p ++ boolNamesSs ord p, x ∈ B)
    (h : ¬ Tripped (checkedRun P nz B n p).error) :
    run P n (foldProgram P ord p) = run P n p :=
  fold_run hl hB h

/-- A program whose checked run does not trip shows what it shows unchecked. -/
theorem C83_checked_plain (P : Prims) (nz : Nat) (B : List Sym) (n : Nat) (p : List Stmt)
    (h : ¬ Tripped (checkedRun P nz B n p).error) : checkedRun P nz B n p = run P n p :=
  checkedRun_plain h

/-! ## A concrete case -/

/-- Operations for examples: floats are codes with 0 for `0.0`, 1 for `1.0` and 2 for `-0.0`. -/
def sampleP : Prims where
  fadd a b := a + b
  fsub x z := if z = 0 ∨ z = 2 then (if x = 2 ∧ z = 2 then 0 else x) else x + z
  fmul x z := if z = 1 then x else if x = 1 then z else x * z + 3
  fdiv x z := if z = 1 then x else x + z
  ffloor x z := x + z
  fcmp a b := if (a = 0 ∨ a = 2) ∧ (b = 0 ∨ b = 2) then some .eq else some (compare a b)
  f0 := 0
  f1 := 1
  ofInt n := if n = 0 then 0 else if n = 1 then 1 else n.natAbs + 3
  cmpIF _ _ := none
  listEq _ _ := false
  display v := match v with
    | .int n => if n = 0 then ['0'] else List.replicate n.natAbs 'I'
    | .bool b => if b then ['t'] else ['f']
    | _ => ['?']
  other _ _ _ := .error (.prim 0)
  index _ _ := .error (.prim 1)
  length v := match v with
    | .list xs => .ok (.int xs.length)
    | _ => .error .type
  items v := match v with
    | .list xs => .ok xs
    | _ => .error .type
  builtin _ := none

theorem sampleP_lawful : Lawful sampleP 2 where
  zero_eq := rfl
  zero_ne := by decide
  one_eq := rfl
  one_ne z h := by
    have : z = 1 := by
      by_cases h2 : (z = 0 ∨ z = 2) ∧ ((1 : Nat) = 0 ∨ (1 : Nat) = 2)
      · omega
      · simp only [sampleP, h2, if_false, Option.some.injEq] at h
        exact Nat.compare_eq_eq.1 h
    subst this; decide
  int_zero := rfl
  int_one := rfl
  sub_zero x z h hx := by
    have hz : z = 0 ∨ z = 2 := by
      by_contra hz
      simp [sampleP, hz] at h
      exact hz (.inl h)
    simp only [sampleP, hz, if_true]
    split
    · omega
    · rfl
  mul_one x z h := by
    have : z = 1 := by
      by_cases h2 : (z = 0 ∨ z = 2) ∧ ((1 : Nat) = 0 ∨ (1 : Nat) = 2)
      · omega
      · simp only [sampleP, h2, if_false, Option.some.injEq] at h
        exact Nat.compare_eq_eq.1 h
    subst this; rfl
  one_mul x z h := by
    have : z = 1 := by
      by_cases h2 : (z = 0 ∨ z = 2) ∧ ((1 : Nat) = 0 ∨ (1 : Nat) = 2)
      · omega
      · simp only [sampleP, h2, if_false, Option.some.injEq] at h
        exact Nat.compare_eq_eq.1 h
    subst this
    simp only [sampleP, if_true]
    split <;> simp_all
  div_one x z h := by
    have : z = 1 := by
      by_cases h2 : (z = 0 ∨ z = 2) ∧ ((1 : Nat) = 0 ∨ (1 : Nat) = 2)
      · omega
      · simp only [sampleP, h2, if_false, Option.some.injEq] at h
        exact Nat.compare_eq_eq.1 h
    subst this; rfl
  approx a b v h := by simp [sampleP] at h

/-- `x`. -/
private abbrev v (x : Sym) : Expr := .var x

/-- A program with a function, a loop, and most of the rewrites: it prints the numbers below 6
that are multiples of 2, then a Boolean, then divides by zero. -/
def sampleProgram : List Stmt :=
  [ .funDef 9 [(0, false)]
      [.ret (some (.bin .add (.bin .mul (v 0) (num 1)) (.bin .mul (v 0) (num 0))))],
    .letS 1 false true (num 0),
    .letS 2 false true (boolE true),
    .whileS (.bin .and (.bin .lt (v 1) (.bin .add (num 2) (num 4))) (v 2))
      [ .ifS (.bin .eq (.bin .mod (v 1) (num 2)) (num 0))
          [.showS (.call 9 [.bin .add (v 1) (num 0)])] [],
        .set 1 (.bin .add (v 1) (num 1)) ],
    .showS (.bin .and (v 2) (boolE true)),
    .showS (.bin .div (v 1) (.bin .sub (num 1) (num 1))) ]

example : (checkedRun sampleP 2 [2] 10 sampleProgram).error = some .divZero := by decide +kernel
example : (run sampleP 10 sampleProgram).output = [['0'], ['I', 'I'], ['I', 'I', 'I', 'I'], ['t']] := by
  decide +kernel
example : ∀ x ∈ collectBools id [] sampleProgram ++ boolNamesSs id sampleProgram, x ∈ [2] := by
  decide +kernel
example : run sampleP 10 (foldProgram sampleP id sampleProgram) = run sampleP 10 sampleProgram :=
  C83_fold_partial sampleP 2 sampleP_lawful id [2] 10 sampleProgram (by decide +kernel)
    (by
      have h : (checkedRun sampleP 2 [2] 10 sampleProgram).error = some .divZero := by
        decide +kernel
      rw [h]; exact id)

/-! ## Where folding changes the program -/

/-- **C83 fails.**  `Show "a" + 0.` prints `a0`; folded it prints `a`. -/
theorem C83_text_plus_zero_fails (P : Prims) (hd : P.display (.int 0) = ['0'])
    (ord : List Sym → List Sym) (n : Nat) :
    let p : List Stmt := [.showS (.bin .add (.lit (.text ['a'])) (num 0))]
    (run P n p).output = [['a', '0']] ∧ (run P n (foldProgram P ord p)).output = [['a']] := by
  constructor
  · simp [run, outcome, execs, exec, evalE, evBin, num, litVal, lift, plain, inst, applyOp, addVals,
      disp, hd, doShow, Res.bind]
  · simp [run, outcome, foldProgram, foldSs, foldS, foldE, foldBin, tryFold, simplify, simpAdd,
      isNum, execs, exec, evalE, num, litVal, disp, doShow, Res.bind]

/-- **C83 fails.**  `Show (7 * 1.0) % 2.` is a type error (`7 * 1.0` is a float); folded it prints
1.  Likewise `7 * 1.0 / 2` is 3.5 and folded it is 3. -/
theorem C83_float_one_fails (P : Prims) (nz : Nat) (hl : Lawful P nz) (ord : List Sym → List Sym)
    (n : Nat) :
    let p : List Stmt := [.letS 0 false false (num 7),
      .showS (.bin .mod (.bin .mul (.var 0) (.lit (.flt P.f1))) (num 2))]
    (run P n p).error = some .type ∧ (run P n (foldProgram P ord p)).error = none := by
  constructor
  · simp [run, outcome, execs, exec, evalE, evBin, evVar, num, litVal, lift, plain, inst, applyOp,
      mulVals, modVals, doDefine, State.withEnv, Env.define, Env.lookup, VMap.put, Res.bind]
  · simp [run, outcome, foldProgram, foldSs, foldS, foldE, foldBin, tryFold, simplify, simpMul,
      isNum, isFlt, hl.one_eq, execs, exec, evalE, evBin, evVar, num, litVal, lift, plain, inst,
      applyOp, modVals, doDefine, doShow, State.withEnv, Env.define, Env.lookup, VMap.put, Res.bind]

/-- **C83 fails.**  `Show (1 // 0) * 0.` is a division by zero; folded it prints 0. -/
theorem C83_floor_division_fails (P : Prims) (ord : List Sym → List Sym) (n : Nat) :
    let p : List Stmt := [.showS (.bin .mul (.bin .floorDiv (num 1) (num 0)) (num 0))]
    (run P n p).error = some .divZero ∧ (run P n (foldProgram P ord p)).error = none := by
  constructor
  · simp [run, outcome, execs, exec, evalE, evBin, num, litVal, lift, plain, inst, applyOp,
      floorVals, Res.bind]
  · simp [run, outcome, foldProgram, foldSs, foldS, foldE, foldBin, tryFold, foldInt, simplify,
      simpMul, isNum, isFlt, total, execs, exec, evalE, num, litVal, doShow, Res.bind]

/-- **C83 fails.**  With `xs` a list, `Show (xs * 0) + 1.` is a type error (`xs * 0` is the empty
list); folded it prints 1. -/
theorem C83_list_times_zero_fails (P : Prims) (ord : List Sym → List Sym) (n : Nat) :
    let p : List Stmt := [.letS 0 false false (.list [num 5]),
      .showS (.bin .add (.bin .mul (.var 0) (num 0)) (num 1))]
    (run P n p).error = some .type ∧ (run P n (foldProgram P ord p)).error = none := by
  constructor
  · simp [run, outcome, execs, exec, evalE, evalEs, evBin, evVar, num, litVal, lift, plain, inst,
      applyOp, mulVals, repeatVals, narrow, addVals, doDefine, State.withEnv, Env.define, Env.lookup,
      VMap.put, Res.bind]
  · simp [run, outcome, foldProgram, foldSs, foldS, foldE, foldEs, foldBin, tryFold, foldInt,
      simplify, simpMul, isNum, isFlt, total, execs, exec, evalE, evalEs, num, litVal,
      doDefine, doShow, State.withEnv, Env.define, VMap.put, Res.bind, numIfFits, narrow]

/-- **C83 fails.**  `Show (9223372036854775807 + 1) % 2 == 0.` prints `true` (the sum is a wide
integer); folded, the test becomes a bitwise `and`, which refuses wide integers. -/
theorem C83_wide_mask_fails (P : Prims) (ord : List Sym → List Sym) (n : Nat) :
    let p : List Stmt := [.showS (.bin .eq
      (.bin .mod (.bin .add (num 9223372036854775807) (num 1)) (num 2)) (num 0))]
    (run P n p).error = none ∧ (run P n (foldProgram P ord p)).error = some .type := by
  have h2 : isPow2 2 = true := by decide +kernel
  constructor
  · simp [run, outcome, execs, exec, evalE, evBin, num, litVal, lift, plain, inst, applyOp, addVals,
      modVals, doShow, Res.bind]
  · simp [run, outcome, foldProgram, foldSs, foldS, foldE, foldBin, tryFold, foldInt, numIfFits,
      narrow, simplify, simpAdd, isNum, maskLeft, maskOf, h2, execs, exec, evalE, evBin, num, litVal,
      lift, plain, inst, applyOp, addVals, bitVals, Res.bind]

/-- **C83 fails.**  A closure parameter that shares its name with a Boolean variable is taken for
a Boolean: `Let ok be true. Let g be (ok) -> (ok and true) & true. Show g(5).` prints `true`
(`5 and true` is `true`); folded, `ok and true` becomes `ok` and `5 & true` is a type error. -/
theorem C83_bool_name_fails :
    let p : List Stmt := [.letS 0 false false (boolE true),
      .letS 1 false false (.closure [0]
        (.bin .bitAnd (.bin .and (.var 0) (boolE true)) (boolE true))),
      .showS (.callv (.var 1) [num 5])]
    (run sampleP 5 p).error = none ∧ (run sampleP 5 p).output = [['t']] ∧
      (run sampleP 5 (foldProgram sampleP id p)).error = some .type := by
  decide +kernel

/-- The property in full is false. -/
theorem C83_full_fails : ¬ FoldInvisible := by
  intro h
  have h1 := h sampleP id 1 [.showS (.bin .add (.lit (.text ['a'])) (num 0))]
  have h2 := C83_text_plus_zero_fails sampleP rfl id 1
  have h3 := congrArg Outcome.output h1
  rw [h2.1, h2.2] at h3
  cases h3

end Verif.Props
