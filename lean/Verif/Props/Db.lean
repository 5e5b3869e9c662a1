import Verif.Kernel.DbLemmas
/-!
# C81: the re-checker sees the same terms

Specification: `nameless` (`Kernel/Term.lean`), the de Bruijn form of a named term in a scope; `Db.nl`
(`Kernel/Db.lean`), the re-checker's terms read as nameless terms; `Db.Below`, "no dangling index";
`Db.NoFix`, `NoHole`.
-/
namespace Verif.Props
open Verif.Core

/-- **C81.** The re-checker's form of a term is its de Bruijn form: every variable points to the nearest binder
of its name. -/
theorem C81_lower (Γ : List String) (t : Term) (A : Db) :
    toDb Γ t = .ok A ↔ nameless Γ t = Db.nl A :=
  toDb_iff t Γ A

/-- **C81.** Two terms get the same form exactly when they differ in the names of bound variables only. -/
theorem C81_same (Γ Δ : List String) (t u : Term) (A B : Db) (ht : toDb Γ t = .ok A) (hu : toDb Δ u = .ok B) :
    A = B ↔ nameless Γ t = nameless Δ u := by
  rw [(toDb_iff t Γ A).1 ht, (toDb_iff u Δ B).1 hu]
  exact ⟨fun h => by rw [h], nl_inj A B⟩

/-- Two names, shadowed differently. -/
example : toDb [] (.lam "x" (.sort .prop) (.lam "x" (.var "x") (.var "x"))) =
    .ok (.lam (.sort .prop) (.lam (.var 0) (.var 0))) ∧
    toDb [] (.lam "y" (.sort .prop) (.lam "z" (.var "y") (.var "y"))) =
    .ok (.lam (.sort .prop) (.lam (.var 0) (.var 1))) := by
  constructor <;> rw [toDb_iff] <;> simp [nameless, Db.nl, place]

/-- **C81.** Exactly the terms without holes and without variables from outside the scope have such a form; no
other term is ever re-checked. -/
theorem C81_accepts (Γ : List String) (t : Term) :
    (∃ A, toDb Γ t = .ok A) ↔ NoHole t ∧ ∀ y, occursFree y t = true → y ∈ Γ :=
  toDb_exists t Γ

/-- **C81.** β-reduction on the re-checker's terms is substitution on named terms: the two kernels reduce
`(λx. b) s` to the same term. -/
theorem C81_beta_partial (Γ : List String) (x : String) (b s : Term) (B S : Db) (h : Blocks b)
    (hb : toDb (x :: Γ) b = .ok B) (hs : toDb Γ s = .ok S) :
    toDb Γ (substitute b x s) = .ok (betaOpen B S) :=
  toDb_betaOpen h hb hs

/-- An open argument below a binder of the same name. -/
example : toDb ["x", "y"] (.lam "y" (.var "x") (.app (.var "x") (.var "y"))) =
      .ok (.lam (.var 0) (.app (.var 1) (.var 0))) ∧
    toDb ["y"] (.var "y") = .ok (.var 0) ∧
    Blocks (.lam "y" (.var "x") (.app (.var "x") (.var "y"))) := by
  refine ⟨?_, ?_, by simp [Blocks]⟩ <;> rw [toDb_iff] <;> simp [nameless, Db.nl, place]

/-- **C81.** Unfolding one function of a mutual block gives the same term in both kernels.  (Partial: the bodies
of the block must not mention variables from outside, see `C81_mutual_fails`.) -/
theorem C81_mutual_partial (Γ : List String) (ds : List (String × Term)) (DS : List Db) (i : Nat)
    (hn : (ds.map Prod.fst).Nodup) (hb : ∀ c ∈ ds, Blocks c.2) (hi : i < ds.length)
    (hd : toDb Γ (.mfix ds i) = .ok (.mfix DS i)) (hc : Db.Below 0 (.mfix DS i)) :
    toDb Γ (unfoldMutual ds i) = .ok (openMutual DS i) :=
  toDb_unfold hn (by simp only [Blocks, blocksD_iff]; exact ⟨hn, hb⟩) hi hd hc

/-- A block of two functions that call each other. -/
example : toDb [] (.mfix [("f", .lam "x" (.sort .prop) (.app (.var "g") (.var "x"))),
      ("g", .lam "x" (.sort .prop) (.app (.var "f") (.var "x")))] 0) =
      .ok (.mfix [.lam (.sort .prop) (.app (.var 1) (.var 0)), .lam (.sort .prop) (.app (.var 2) (.var 0))] 0) ∧
    Db.Below 0 (.mfix [.lam (.sort .prop) (.app (.var 1) (.var 0)),
      .lam (.sort .prop) (.app (.var 2) (.var 0))] 0) := by
  refine ⟨?_, by simp [Db.Below, Db.BelowL]⟩
  rw [toDb_iff]; simp [nameless, namelessD, names, Db.nl, Db.nlL, place]

/-- **C81 fails for open mutual blocks.** In a block of two functions whose bodies mention a variable `x` from
outside, the re-checker's unfolding replaces `x` by a function of the block: the unfolded term differs from the
main kernel's. -/
theorem C81_mutual_fails : ∃ (Γ : List String) (ds : List (String × Term)) (DS : List Db) (i : Nat),
    (ds.map Prod.fst).Nodup ∧ (∀ c ∈ ds, Blocks c.2) ∧ i < ds.length ∧
    toDb Γ (.mfix ds i) = .ok (.mfix DS i) ∧
    toDb Γ (unfoldMutual ds i) ≠ .ok (openMutual DS i) := by
  refine ⟨["x"], [("f", .lam "n" (.sort .prop) (.app (.var "g") (.var "n"))),
    ("g", .lam "n" (.sort .prop) (.var "x"))],
    [.lam (.sort .prop) (.app (.var 1) (.var 0)), .lam (.sort .prop) (.var 3)], 0, by decide,
    by simp [Blocks], by decide, ?_, fun h => ?_⟩
  · rw [toDb_iff]; simp [nameless, namelessD, names, Db.nl, Db.nlL, place]
  · let deep : Except ReErr Db → Option Nat := fun t => match t with
      | .ok (.lam _ (.app (.mfix [_, .lam _ (.var k)] _) _)) => some k
      | .ok (.lam _ (.app (.mfix [_, .lam _ (.mfix _ j)] _) _)) => some (100 + j)
      | _ => none
    exact absurd (congrArg deep h) (by decide +kernel)

/-- **C81.** A type that the re-checker reports lowers to the re-checker's own term again.  (Partial: it must
not contain a fixpoint, see `C81_raise_fails`.) -/
theorem C81_raise_partial (A : Db) (h : Db.Below 0 A) (hn : Db.NoFix A) : toDb [] (fromDb 0 A) = .ok A :=
  toDb_fromDb A 0 h hn

example : Db.Below 0 (.pi (.sort .prop) (.lam (.var 0) (.app (.var 1) (.var 0)))) ∧
    Db.NoFix (.pi (.sort .prop) (.lam (.var 0) (.app (.var 1) (.var 0)))) := by
  simp [Db.Below, Db.NoFix]

/-- **C81 fails for fixpoints.** A closed term of the re-checker with a fixpoint is reported as a term with an
unbound variable: the binder is called `rec0`, its occurrences `v0`. -/
theorem C81_raise_fails : ∃ A : Db, Db.Below 0 A ∧ (∃ t, toDb [] t = .ok A) ∧
    toDb [] (fromDb 0 A) = .error .ill := by
  refine ⟨.fix (.lam (.sort .prop) (.app (.var 1) (.var 0))), by simp [Db.Below],
    ⟨.fix "f" (.lam "x" (.sort .prop) (.app (.var "f") (.var "x"))), ?_⟩, ?_⟩
  · rw [toDb_iff]; simp [nameless, Db.nl, place]
  · let bad : Except ReErr Db → Bool := fun t => match t with
      | .error .ill => true
      | _ => false
    have h : bad (toDb [] (fromDb 0 (.fix (.lam (.sort .prop) (.app (.var 1) (.var 0)))))) = true := by
      decide +kernel
    revert h
    cases toDb [] (fromDb 0 (.fix (.lam (.sort .prop) (.app (.var 1) (.var 0))))) with
    | ok a => intro h; cases h
    | error e => cases e with
      | ill => intro _; rfl
      | unsupported => intro h; cases h

end Verif.Props
