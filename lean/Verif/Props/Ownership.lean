import Verif.Lang.OwnershipProof
/-!
# C99: a program that passes the ownership check uses nothing after giving it away

The runs of a program and what "used after being given away" means are the section *Specification* of
`Verif/Lang/Ownership.lean` (`Run`, with `Outcome.bad`).
-/

namespace Verif.Props
open Verif.Lang.Own

/-- The full claim of `OwnershipChecker`: no run of an accepted program uses a variable, or gives it away again, after
having given it away. -/
def OwnershipSafe (p : List OStmt) : Prop := ¬ Run (.block p) [] .bad

/-- **C99 (partial).** The claim holds of every accepted program that binds no name again in an inner block, gives
away inside a loop only what the body of the loop has bound, gives nothing away inside an expression, and reads none of
the names it gives away in a condition, an iterable, a closure block or a statement the checker passes over. Missing:
the other programs, of which the claim is false (below). -/
theorem C99_accepted_partial (p : List OStmt) (G : List Verif.Lang.Sym) (hf : FitsBlock G [] [] none p)
    (h : checkProgram p = true) : OwnershipSafe p := by
  intro hr
  unfold checkProgram at h
  cases hk : Checker.new.block p with
  | none => rw [hk] at h; cases h
  | some k =>
    exact (run_good hr G [] [] none Checker.new k hk hf (by intro x hx; cases hx) (by intro x hx; cases hx) rfl).1 rfl

/-- Let x; Let c; If c { Show x } else { Give x }; Repeat y in c { Let z; Show z; Give z }; Show c. -/
def ownedProgram : List OStmt :=
  [.letS 0 (.lit false), .letS 1 (.lit true), .ifElse (.var 1) [.showS (.var 0)] [.giveS (.var 0)],
   .repeatS 2 (.var 1) [.letS 3 (.call [.var 2]), .showS (.var 3), .ifS (.var 1) [.brk], .giveS (.var 3)],
   .showS (.var 1)]

theorem ownedProgram_fits : FitsBlock [0, 3] [] [] none ownedProgram := by
  simp [ownedProgram, FitsBlock, Fits, clean, cleanAll, Quiet, events, eventsAll, declares]

example : OwnershipSafe ownedProgram := C99_accepted_partial _ _ ownedProgram_fits (by decide +kernel)

/-- Using the variable after the conditional give is rejected. -/
example : checkProgram (ownedProgram ++ [.showS (.var 0)]) = false := by decide +kernel

/-- **C99, full claim refuted: loops.** `Let x. While c { Give x. }` is accepted; its second iteration gives `x` away
again. -/
theorem C99_while_fails : ∃ p, checkProgram p = true ∧ ¬ OwnershipSafe p :=
  ⟨[.letS 0 (.lit false), .whileS (.lit true) [.giveS (.var 0)]], by decide +kernel, fun h => h
    (.step rfl rfl (.loopBad rfl rfl
      (.iter rfl (.step rfl rfl (.done _)) (.iterBad rfl (.stepBad rfl rfl)))))⟩

/-- … and likewise `Repeat for y in e { Give x. }`. -/
theorem C99_repeat_fails : ∃ p, checkProgram p = true ∧ ¬ OwnershipSafe p ∧ ∃ x y e, OStmt.repeatS y e [.giveS (.var x)] ∈ p :=
  ⟨[.letS 0 (.lit false), .repeatS 1 (.lit true) [.giveS (.var 0)]], by decide +kernel, fun h => h
    (.step rfl rfl (.loopBad rfl rfl
      (.iter rfl (.step rfl rfl (.done _)) (.iterBad rfl (.stepBad rfl rfl))))),
    0, 1, .lit true, .tail _ (.head _)⟩

/-- **C99, refuted: conditions.** `Let x. Give x. If x { }` is accepted. -/
theorem C99_condition_fails : ∃ p, checkProgram p = true ∧ ¬ OwnershipSafe p ∧
    p = [.letS 0 (.lit false), .giveS (.var 0), .ifS (.var 0) []] :=
  ⟨_, by decide +kernel, fun h => h (.step rfl rfl (.step rfl rfl (.condBad rfl rfl))), rfl⟩

/-- **C99, refuted: the statements the checker passes over.** `Let x. Let ys. Give x. Push x to ys.` is accepted. -/
theorem C99_statement_fails : ∃ p, checkProgram p = true ∧ ¬ OwnershipSafe p ∧
    p = [.letS 0 (.lit false), .letS 1 (.parts false []), .giveS (.var 0), .other [.var 0, .var 1]] :=
  ⟨_, by decide +kernel, fun h => h (.step rfl rfl (.step rfl rfl (.step rfl rfl (.stepBad rfl rfl)))), rfl⟩

/-- **C99, refuted: giving inside an expression.** `Let x. Let y be f(Give x). Show x.` is accepted. -/
theorem C99_expression_fails : ∃ p, checkProgram p = true ∧ ¬ OwnershipSafe p ∧
    p = [.letS 0 (.lit false), .letS 1 (.call [.give (.var 0)]), .showS (.var 0)] :=
  ⟨_, by decide +kernel, fun h => h (.step rfl rfl (.step rfl rfl (.stepBad rfl rfl))), rfl⟩

/-- **C99, refuted: a name bound again in an inner block.** `Let x. Give x. Zone { Let x. } Show x.` is accepted: the
checker forgets that the outer `x` is gone. -/
theorem C99_inner_block_fails : ∃ p, checkProgram p = true ∧ ¬ OwnershipSafe p ∧
    p = [.letS 0 (.lit false), .giveS (.var 0), .zone [.letS 0 (.lit true)], .showS (.var 0)] :=
  ⟨_, by decide +kernel, fun h => h
    (.step rfl rfl (.step rfl rfl (.branch rfl rfl (.head _) (.step rfl rfl (.done _)) (.stepBad rfl rfl)))), rfl⟩

end Verif.Props
