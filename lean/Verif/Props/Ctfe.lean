import Verif.Lang.CtfeSound
import Verif.Props.Fold

/-!
# C109: evaluating calls at compile time does not change what a program does

Specification: `run` (the interpreter) before and after `ctfeProgram`; for the part that is true, the
conditions `Orderly` and `Def.scoped` of `Lang/CallSpec.lean`.
-/
namespace Verif.Props
open Verif.Lang Verif.Lang.Ctfe Verif.Lang.CallSpec

/-- The property in full: however the abstract operations behave, a program that ends within the
given fuel ends as before and prints the same. -/
def CtfeInvisible : Prop :=
  ∀ (P : Prims) (n : Nat) (p : List Stmt), (run P n p).error ≠ some .fuel →
    run P n (ctfeProgram p) = run P n p

/-- **C109 (partial).**  If every function is defined once, before the other statements, not inside
another one and not under the name of a builtin, and reads and assigns its own names only in their
scope, assigns no others and declares no name of an enclosing block again, then a program that ends
within the fuel ends in the same way after the pass, with the same error if any, and prints the same
lines.  Nothing is asked of the calls: those that overflow, fail, print, recurse too deep or run too
long are left alone.  Missing: programs outside these conditions, which do change (below), and that
a program that never ends still never ends. -/
theorem C109_scoped_partial (P : Prims) (n : Nat) (defs : List Def) (main : List Stmt)
    (ho : Orderly P defs main) (hs : ∀ d ∈ defs, d.scoped)
    (hf : (run P n (program defs main)).error ≠ some .fuel) :
    run P n (ctfeProgram (program defs main)) = run P n (program defs main) :=
  ctfe_run ho hs n hf

/-- **C109 (partial), one call.**  When the pass replaces a call by a literal, calling the function
in any state, at the top level or in any frame or block, gives that literal and leaves the variables,
the functions, the closures and the output as they were, or does not end within the fuel. -/
theorem C109_call_partial (P : Prims) (n : Nat) (defs : List Def) (main : List Stmt)
    (ho : Orderly P defs main) (hs : ∀ d ∈ defs, d.scoped) (f : Sym) (as : List Expr) (l : Lit)
    (h : tryE (collect (program defs main) fun _ => none) (.call f as) = some (.lit l))
    (s : State) (hF : ∀ g, s.funs g =
      (defs.find? (·.name == g)).map fun d => ⟨d.names, d.body⟩) :
    Lang.evalE (plain P n) (.call f as) s = (.ok (litVal l), s) ∨
      (Lang.evalE (plain P n) (.call f as) s).1 = .error .fuel := by
  have hfuns : s.funs = Fixed.table defs := by
    funext g
    exact hF g
  simp only [tryE] at h
  split at h
  · cases h
  · rename_i vs hvs
    simp only [Option.map_eq_some_iff, Expr.lit.injEq] at h
    obtain ⟨p, h1, rfl⟩ := h
    have has := litsOf_some hvs
    subst has
    obtain ⟨fd, hFd, hb, hlen, hinv⟩ := callN_ok ho hs _ f vs 0 p.1 p.2 h1
    have hP : (plain P n).P = P := rfl
    simp only [Lang.evalE, evCall, hP, hb, hfuns, hFd]
    rw [if_pos (by rw [← hlen]; simp), lits_eval]
    exact hinv n s hfuns

/-! ## A concrete case -/

/-- A number in the examples. -/
def ctNum (n : Int) : Expr := .lit (.num n)

/-- A loop that counts, a recursive function, and one that overflows. -/
def ctDefs : List Def :=
  [ ⟨20, [(0, false)],
      [.letS 1 false true (ctNum 0), .letS 2 false true (ctNum 0),
       .whileS (.bin .lt (.var 1) (.var 0))
         [.letS 3 false false (.bin .add (.var 1) (ctNum 1)), .set 1 (.var 3),
          .set 2 (.bin .add (.var 2) (.var 1))],
       .ret (some (.var 2))]⟩,
    ⟨21, [(0, false)],
      [.ifS (.bin .le (.var 0) (ctNum 1)) [.ret (some (ctNum 1))] [],
       .ret (some (.bin .mul (.var 0) (.call 21 [.bin .sub (.var 0) (ctNum 1)])))]⟩,
    ⟨22, [(0, false)], [.ret (some (.bin .add (.var 0) (ctNum (2 ^ 63 - 1))))]⟩ ]

def ctMain : List Stmt :=
  [ .letS 5 false false (.call 20 [ctNum 2]), .showS (.var 5),
    .showS (.call 20 [.call 21 [ctNum 2]]),
    .showS (.call 21 [.var 5]),
    .showS (.bin .gt (.call 22 [ctNum 1]) (ctNum 0)) ]

theorem ct_orderly : Orderly sampleP ctDefs ctMain :=
  ⟨by decide +kernel, by decide +kernel, by decide +kernel, fun _ _ => rfl⟩

theorem ct_scoped : ∀ d ∈ ctDefs, d.scoped := by
  simp [ctDefs, Def.scoped, scopedSs, scopedS, inScopeE, Def.names, declsSs, declsS, reads, readss,
    ctNum]

/-- The literal in a result of the pass. -/
def litsIn : Option Expr → Option Lit
  | some (.lit l) => some l
  | _ => none

theorem litsIn_some {o : Option Expr} {l : Lit} (h : litsIn o = some l) : o = some (.lit l) := by
  unfold litsIn at h
  split at h
  · cases h; rfl
  · cases h

/-- The pass computes the calls it can and leaves the one with an unknown argument and the one that
overflows. -/
example : (tryE (collect (program ctDefs ctMain) fun _ => none) (.call 20 [ctNum 2])).isSome = true ∧
    (tryE (collect (program ctDefs ctMain) fun _ => none) (.call 21 [ctNum 2])).isSome = true ∧
    (tryE (collect (program ctDefs ctMain) fun _ => none) (.call 22 [ctNum 0])).isSome = true ∧
    (tryE (collect (program ctDefs ctMain) fun _ => none) (.call 22 [ctNum 1])).isSome = false := by
  decide +kernel

/-- Such a call in a frame with a variable of its own. -/
example : let s : State := { env := { locals := fun y => if y = 0 then some (.int 9) else none,
                                      frames := [(fun _ => none, [])] },
                             funs := fun g => (ctDefs.find? (·.name == g)).map fun d => ⟨d.names, d.body⟩ }
    Lang.evalE (plain sampleP 30) (.call 20 [ctNum 2]) s = (.ok (.int 3), s) ∨
      (Lang.evalE (plain sampleP 30) (.call 20 [ctNum 2]) s).1 = .error .fuel :=
  C109_call_partial sampleP 30 ctDefs ctMain ct_orderly ct_scoped 20 [ctNum 2] (.num 3)
    (by
      have h : litsIn (tryE (collect (program ctDefs ctMain) fun _ => none) (.call 20 [ctNum 2])) =
          some (.num 3) := by decide +kernel
      exact litsIn_some h) _ (fun _ => rfl)

example : (run sampleP 20 (program ctDefs ctMain)).output =
      [List.replicate 3 'I', List.replicate 3 'I', List.replicate 6 'I', ['t']] ∧
    (run sampleP 20 (program ctDefs ctMain)).error = none := by decide +kernel

example : run sampleP 20 (ctfeProgram (program ctDefs ctMain)) =
    run sampleP 20 (program ctDefs ctMain) :=
  C109_scoped_partial sampleP 20 ctDefs ctMain ct_orderly ct_scoped (by decide +kernel)

/-! ## Programs that change -/

/-- `Let x be 1. If true: Let x be 2. Return x.` gives 2: the evaluator has one table of variables
for the whole function. -/
theorem C109_block_fails : let p : List Stmt := [
      .funDef 9 [] [.letS 1 false false (ctNum 1),
        .ifS (.lit (.bool true)) [.letS 1 false false (ctNum 2)] [], .ret (some (.var 1))],
      .showS (.call 9 [])]
    (run sampleP 20 p).output = [['I']] ∧ (run sampleP 20 p).error = none ∧
      (run sampleP 20 (ctfeProgram p)).output = [['I', 'I']] := by
  decide +kernel

/-- A function that sets a global counts as pure; the assignment disappears with the call. -/
theorem C109_global_fails : let p : List Stmt := [.letS 0 false true (ctNum 1),
      .funDef 9 [] [.set 0 (ctNum 7), .ret (some (ctNum 3))],
      .letS 1 false false (.call 9 []), .showS (.var 0)]
    (run sampleP 20 p).output = [List.replicate 7 'I'] ∧ (run sampleP 20 p).error = none ∧
      (run sampleP 20 (ctfeProgram p)).output = [['I']] := by
  decide +kernel

/-- A function is defined again after a call: the call gets the later definition. -/
theorem C109_later_fails : let p : List Stmt := [.funDef 9 [] [.ret (some (ctNum 1))],
      .showS (.call 9 []), .funDef 9 [] [.ret (some (ctNum 2))]]
    (run sampleP 20 p).output = [['I']] ∧ (run sampleP 20 p).error = none ∧
      (run sampleP 20 (ctfeProgram p)).output = [['I', 'I']] := by
  decide +kernel

/-- A function is defined again before the call, and prints: the call gets the earlier definition. -/
theorem C109_impure_fails : let p : List Stmt := [.funDef 9 [] [.ret (some (ctNum 1))],
      .funDef 9 [] [.showS (ctNum 5), .ret (some (ctNum 2))], .showS (.call 9 [])]
    (run sampleP 20 p).output = [List.replicate 5 'I', ['I', 'I']] ∧
      (run sampleP 20 p).error = none ∧ (run sampleP 20 (ctfeProgram p)).output = [['I']] := by
  decide +kernel

/-- A call before the definition is an error, and becomes a value. -/
theorem C109_early_fails : let p : List Stmt := [.showS (.call 9 []),
      .funDef 9 [] [.ret (some (ctNum 1))]]
    (run sampleP 20 p).error = some (.unknownFn 9) ∧
      (run sampleP 20 (ctfeProgram p)).output = [['I']] ∧
      (run sampleP 20 (ctfeProgram p)).error = none := by
  decide +kernel

/-- A name declared in a block hides the global of that name after the block. -/
theorem C109_leak_fails : let p : List Stmt := [.letS 0 false false (ctNum 4),
      .funDef 9 [] [.ifS (.lit (.bool true)) [.letS 0 false false (ctNum 2)] [],
        .ret (some (.var 0))], .showS (.call 9 [])]
    (run sampleP 20 p).output = [List.replicate 4 'I'] ∧ (run sampleP 20 p).error = none ∧
      (run sampleP 20 (ctfeProgram p)).output = [['I', 'I']] := by
  decide +kernel

/-- The property in full is false. -/
theorem C109_fails : ¬ CtfeInvisible := by
  intro h
  have hp := C109_block_fails
  simp only at hp
  obtain ⟨h1, h2, h3⟩ := hp
  rw [h sampleP 20 _ (by rw [h2]; simp), h1] at h3
  exact absurd h3 (by decide)

end Verif.Props
