import Verif.Lang.GvnHoist
import Verif.Props.Fold

/-!
# C108: sharing common subexpressions does not change what a program does

Specification: `run` (the interpreter) before and after `cseProgram`; for the part that is true, the
conditions of `Lang/GvnSpec.lean`.
-/
namespace Verif.Props
open Verif.Lang Verif.Lang.Gvn

/-- The property in full: however the abstract operations behave and whatever distinct symbols the
names `__cse_0`, `__cse_1`, … have, the program ends as before and prints the same. -/
def CseInvisible : Prop :=
  ∀ (P : Prims) (tmp : Nat → Sym) (n : Nat) (p : List Stmt), (∀ i j, tmp i = tmp j → i = j) →
    run P n (cseProgram tmp p) = run P n p

/-- **C108 (partial).**  If every `Let` declares a name not used before in its function, no value
contains the same computation twice, the names given to computations are not assigned afterwards,
loops do not assign what computations named before them read, and functions do not assign what
computations named outside them read, then the program after the pass ends in the same way, with
the same error if any, and prints the same lines, for every program and every amount of fuel.
Missing: programs outside these conditions; the theorems below show that these do change. -/
theorem C108_shared_partial (P : Prims) (tmp : Nat → Sym) (n : Nat) (p : List Stmt)
    (h : safeProgram p) : run P n (cseProgram tmp p) = run P n p :=
  cse_run h

/-- **C108 (partial), computations repeated in one value.**  In any state the interpreter can be in
(no block variables are left at the top level), with nothing remembered from before, a `Let` whose
value repeats computations but has no `and` or `or` is replaced by statements that give the name the
same value, leave every other name of the program, the functions, the closures and the output
alone, and fail exactly when the `Let` fails.  Missing: the rest of the pass on such programs, and
which error is reported, which can change (`C108_order_fails`). -/
theorem C108_hoist_partial (P : Prims) (tmp : Nat → Sym) (hinj : ∀ i j, tmp i = tmp j → i = j)
    (n k : Nat) (x : Sym) (b m : Bool) (e : Expr) (hs : simple e = true) (ht : strict e = true)
    (hn : ∀ z ∈ names e, ∀ i, z ≠ tmp i) (s : State)
    (hat : s.env.frames = [] → s.env.saves = [] → ∀ y, s.env.mainBlock y = none) :
    (∀ v, (evalE (plain P n) e s).1 = .ok v →
      ∃ s', execs (plain P n) n (cseS tmp { counter := k } (.letS x b m e)).1 s = (.ok .cont, s') ∧
        s'.env.lookup x = some v ∧
        (∀ y, y ≠ x → (∀ i, y ≠ tmp i) → s'.env.lookup y = s.env.lookup y) ∧
        s'.out = s.out ∧ s'.funs = s.funs ∧ s'.clos = s.clos) ∧
    (∀ err, (evalE (plain P n) e s).1 = .error err → ∃ err' s',
      execs (plain P n) n (cseS tmp { counter := k } (.letS x b m e)).1 s = (.error err', s') ∧
        s'.out = s.out) := by
  by_cases h1 : s.env.frames = []
  · by_cases h2 : s.env.saves = []
    · exact hoist_let (top := true) (fun _ _ => rfl) hinj b m k hs ht hn ⟨h1, h2, hat h1 h2⟩
    · exact hoist_let (top := false) (fun _ _ => rfl) hinj b m k hs ht hn (.inl h2)
  · exact hoist_let (top := false) (fun _ _ => rfl) hinj b m k hs ht hn (.inr h1)

/-- Each repeated computation is evaluated once: the pass does hoist. -/
theorem C108_hoists (tmp : Nat → Sym) (k : Nat) (x : Sym) (b m : Bool) (op op' : BinOp)
    (y z : Sym) :
    (cseS tmp { counter := k }
      (.letS x b m (.bin op (.bin op' (.var y) (.var z)) (.bin op' (.var y) (.var z))))).1 =
      [.letS (tmp k) false false (.bin op' (.var y) (.var z)),
       .letS x b m (.bin op (.var (tmp k)) (.var (tmp k)))] := by
  simp [cseS, hasDupes, occs, keyOf, rewriteE, Rw.known, Rw.hoist, nonTrivial, Cse.lookup,
    Cse.insert, Key.syms, List.count_cons]

/-! ## A concrete case -/

/-- The symbols of the names `__cse_N` in the examples. -/
def cseTmp (n : Nat) : Sym := 1000 + n

theorem cseTmp_inj (i j : Nat) (h : cseTmp i = cseTmp j) : i = j :=
  Nat.add_left_cancel (n := 1000) h

/-- A number in the examples. -/
def cseNum (n : Int) : Expr := .lit (.num n)

/-- A program with a function, a list that grows, a condition and a loop, all reusing
computations. -/
def cseSample : List Stmt :=
  [ .funDef 9 [(5, false)]
      [.letS 6 false false (.bin .mul (.var 5) (cseNum 2)),
       .letS 7 false false (.bin .mul (.var 5) (cseNum 2)), .ret (some (.var 7))],
    .letS 0 false true (cseNum 4),
    .letS 1 false true (.list [cseNum 1]),
    .letS 2 false false (.length (.var 1)),
    .push 1 (cseNum 7),
    .letS 3 false false (.length (.var 1)),
    .letS 4 false false (.length (.var 1)),
    .showS (.var 4),
    .ifS (.lit (.bool true)) [.set 0 (.call 9 [.var 4])] [],
    .letS 8 false true (cseNum 0),
    .whileS (.bin .lt (.var 8) (cseNum 2))
      [.letS 10 false false (.bin .add (.var 8) (cseNum 1)),
       .letS 11 false false (.bin .add (.var 8) (cseNum 1)),
       .set 8 (.var 11),
       .letS 12 false false (.bin .add (.var 8) (cseNum 1)),
       .showS (.var 12)] ]

theorem cseSample_safe : safeProgram cseSample := by
  simp [safeProgram, cseSample, safeSs, safeS, funWritesSs, funWritesS, allWritesSs, allWritesS,
    Before.after, parts, reusable, simple, compound, names, Gvn.writesSs, Gvn.writesS, cseNum]

/-- The pass reuses the length taken after the push, and the first sum of the loop body. -/
example : (cseProgram cseTmp cseSample)[6]? = some (.letS 4 false false (.var 3)) ∧
    (cseProgram cseTmp cseSample)[5]? = some (.letS 3 false false (.length (.var 1))) := by
  refine ⟨?_, ?_⟩ <;>
  simp [cseProgram, cseSample, cseSs, cseS, hasDupes, occs, keyOf, nonTrivial, crossE, Cse.remember,
    Cse.insert, Cse.lookup, Cse.invalidate, Key.syms, cseNum, invalidateSs, invalidateS]

example : (run sampleP 20 cseSample).output = [['I', 'I'], ['I', 'I'], ['I', 'I', 'I']] ∧
    (run sampleP 20 cseSample).error = none := by decide +kernel

example : run sampleP 20 (cseProgram cseTmp cseSample) = run sampleP 20 cseSample :=
  C108_shared_partial sampleP cseTmp 20 cseSample cseSample_safe

/-- The hypotheses of `C108_hoist_partial` hold of `(3 * x) + (3 * x)` in a state with `x = 2`. -/
example : let e : Expr := .bin .add (.bin .mul (cseNum 3) (.var 0)) (.bin .mul (cseNum 3) (.var 0))
    let s : State := { env := { globals := fun y => if y = 0 then some (.int 2) else none } }
    simple e = true ∧ strict e = true ∧ (∀ z ∈ names e, ∀ i, z ≠ cseTmp i) ∧
      (s.env.frames = [] → s.env.saves = [] → ∀ y, s.env.mainBlock y = none) ∧
      (evalE (plain sampleP 5) e s).1.toOption.isSome = true := by
  refine ⟨rfl, rfl, ?_, fun _ _ _ => rfl, rfl⟩
  intro z hz i
  simp [names, cseNum] at hz
  subst hz
  exact fun h => absurd (show (0 : Nat) = 1000 + i from h) (by omega)

/-! ## Programs that change -/

/-- `Let mutable x be a + 2. Set x to 5. Let y be a + 2. Show y.` shows 5: assigning the name that
holds a computation does not make the pass forget it. -/
theorem C108_holder_fails : let p : List Stmt := [.letS 0 false false (cseNum 1),
      .letS 1 false true (.bin .add (.var 0) (cseNum 2)), .set 1 (cseNum 5),
      .letS 2 false false (.bin .add (.var 0) (cseNum 2)), .showS (.var 2)]
    (run sampleP 20 p).output = [List.replicate 3 'I'] ∧
      (run sampleP 20 (cseProgram cseTmp p)).output = [List.replicate 5 'I'] := by
  decide +kernel

/-- Declaring `a` anew in a block does not make the pass forget what it knows of the outer `a`. -/
theorem C108_shadow_fails : let p : List Stmt := [.letS 0 false false (cseNum 1),
      .letS 1 false false (.bin .add (.var 0) (cseNum 2)),
      .ifS (.lit (.bool true)) [.letS 0 false false (cseNum 5),
        .letS 2 false false (.bin .add (.var 0) (cseNum 2)), .showS (.var 2)] []]
    (run sampleP 20 p).output = [List.replicate 7 'I'] ∧
      (run sampleP 20 (cseProgram cseTmp p)).output = [List.replicate 3 'I'] := by
  decide +kernel

/-- `Let x be x + 2. Let y be x + 2.` in a block: the first is remembered as the value of `x + 2`
although `x` is no longer the `x` that was read. -/
theorem C108_self_fails : let p : List Stmt := [.letS 0 false false (cseNum 1),
      .ifS (.lit (.bool true)) [.letS 0 false false (.bin .add (.var 0) (cseNum 2)),
        .letS 2 false false (.bin .add (.var 0) (cseNum 2)), .showS (.var 2)] []]
    (run sampleP 20 p).output = [List.replicate 5 'I'] ∧
      (run sampleP 20 (cseProgram cseTmp p)).output = [List.replicate 3 'I'] := by
  decide +kernel

/-- A loop body reuses a computation made before the loop although the body changes what it reads:
a program that shows 1, 2 and 3 shows 1 until the fuel is used up. -/
theorem C108_loop_fails : let p : List Stmt := [.letS 0 false true (cseNum 0),
      .letS 1 false false (.bin .add (.var 0) (cseNum 1)),
      .whileS (.bin .lt (.var 0) (cseNum 3)) [.letS 2 false false (.bin .add (.var 0) (cseNum 1)),
        .showS (.var 2), .set 0 (.var 2)]]
    (run sampleP 20 p).output = [['I'], ['I', 'I'], ['I', 'I', 'I']] ∧
      (run sampleP 20 p).error = none ∧
      (run sampleP 20 (cseProgram cseTmp p)).output = List.replicate 20 ['I'] ∧
      (run sampleP 20 (cseProgram cseTmp p)).error = some .fuel := by
  decide +kernel

/-- `x is not 0 and 6 / x + 6 / x > 1` with `x = 0`: the division is hoisted in front of the test
that protects it, and the program fails. -/
theorem C108_guard_fails : let p : List Stmt := [.letS 0 false false (cseNum 0),
      .letS 1 false false (.bin .and (.bin .ne (.var 0) (cseNum 0)) (.bin .gt (.bin .add
        (.bin .div (cseNum 6) (.var 0)) (.bin .div (cseNum 6) (.var 0))) (cseNum 1))),
      .showS (.var 1)]
    (run sampleP 20 p).output = [['f']] ∧ (run sampleP 20 p).error = none ∧
      (run sampleP 20 (cseProgram cseTmp p)).output = [] ∧
      (run sampleP 20 (cseProgram cseTmp p)).error = some .divZero := by
  decide +kernel

/-- A function that assigns the global `a` between two computations of `a + 1`. -/
theorem C108_call_fails : let p : List Stmt := [.letS 0 false true (cseNum 1),
      .funDef 9 [] [.set 0 (cseNum 7)], .letS 1 false false (.bin .add (.var 0) (cseNum 1)),
      .callS 9 [], .letS 2 false false (.bin .add (.var 0) (cseNum 1)), .showS (.var 2)]
    (run sampleP 20 p).output = [List.replicate 8 'I'] ∧
      (run sampleP 20 (cseProgram cseTmp p)).output = [List.replicate 2 'I'] := by
  decide +kernel

/-- The same inside one expression: `(a + 1) + f() + (a + 1)`. -/
theorem C108_between_fails : let p : List Stmt := [.letS 0 false true (cseNum 1),
      .funDef 9 [] [.set 0 (cseNum 7), .ret (some (cseNum 0))],
      .letS 1 false false (.bin .add (.bin .add (.bin .add (.var 0) (cseNum 1)) (.call 9 []))
        (.bin .add (.var 0) (cseNum 1))), .showS (.var 1)]
    (run sampleP 20 p).output = [List.replicate 10 'I'] ∧
      (run sampleP 20 (cseProgram cseTmp p)).output = [List.replicate 4 'I'] := by
  decide +kernel

/-- A program that itself uses the name `__cse_0`. -/
theorem C108_name_fails : let p : List Stmt := [.letS (cseTmp 0) false false (cseNum 1),
      .letS 1 false false (.bin .add (.bin .mul (cseNum 2) (cseNum 3)) (.bin .mul (cseNum 2) (cseNum 3))),
      .showS (.var (cseTmp 0))]
    (run sampleP 20 p).output = [['I']] ∧
      (run sampleP 20 (cseProgram cseTmp p)).output = [List.replicate 6 'I'] := by
  decide +kernel

/-- Which error a failing value reports can change: `(1 / 0) + (true * 2 + true * 2)`. -/
theorem C108_order_fails : let p : List Stmt := [.letS 0 false false (.bin .add
      (.bin .div (cseNum 1) (cseNum 0)) (.bin .add (.bin .mul (.lit (.bool true)) (cseNum 2))
        (.bin .mul (.lit (.bool true)) (cseNum 2))))]
    (run sampleP 20 p).error = some .divZero ∧
      (run sampleP 20 (cseProgram cseTmp p)).error = some .type := by
  decide +kernel

/-- The property in full does not hold. -/
theorem C108_fails : ¬ CseInvisible := by
  intro h
  have h1 := h sampleP cseTmp 20 [.letS 0 false false (cseNum 1),
      .letS 1 false true (.bin .add (.var 0) (cseNum 2)), .set 1 (cseNum 5),
      .letS 2 false false (.bin .add (.var 0) (cseNum 2)), .showS (.var 2)] cseTmp_inj
  have h2 := C108_holder_fails
  have h3 := congrArg Outcome.output h1
  rw [h2.1, h2.2] at h3
  exact absurd h3 (by decide)

end Verif.Props
