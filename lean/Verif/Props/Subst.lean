import Verif.Kernel.AlphaLemmas
/-!
# C79: substitution does not capture

Specification (`Kernel/Term.lean`): `nameless`, the de Bruijn form of a term, in which bound names are gone;
`NL.subst`, the replacement of a free variable there; `Blocks`, "the names of every mutual block differ".
-/
namespace Verif.Props
open Verif.Core

/-- **C79.** Substituting a term for a variable replaces exactly the free occurrences of that variable, and no
free variable of the term is captured, whatever names the two terms bind.  (Partial: in every mutual block
the names must differ, see `C79_duplicate_fails`.) -/
theorem C79_substitute_partial (b : Term) (x : String) (s : Term) (h : Blocks b) :
    nameless [] (substitute b x s) = NL.subst x (nameless [] s) (nameless [] b) :=
  nameless_substitute h x s

/-- The variable being replaced occurs below a binder of a name that is free in the replacement; both the name
and its first fresh variant are taken. -/
example : Blocks (.lam "y" (.sort .prop) (.app (.app (.var "x") (.var "y")) (.var "y'"))) ∧
    occursFree "x" (.lam "y" (.sort .prop) (.app (.app (.var "x") (.var "y")) (.var "y'"))) = true ∧
    (match substitute (.lam "y" (.sort .prop) (.app (.app (.var "x") (.var "y")) (.var "y'"))) "x" (.var "y") with
      | .lam n _ _ => n
      | _ => "") = "y'1" :=
  ⟨by simp [Blocks], by decide +kernel, by decide +kernel⟩

/-- **C79.** Substitution respects renaming of bound variables, on both sides. -/
theorem C79_substitute_renaming_partial (b b' : Term) (x : String) (s s' : Term) (h : Blocks b)
    (h' : Blocks b') (hb : nameless [] b = nameless [] b') (hs : nameless [] s = nameless [] s') :
    nameless [] (substitute b x s) = nameless [] (substitute b' x s') := by
  rw [nameless_substitute h, nameless_substitute h', hb, hs]

example : nameless [] (.lam "y" (.sort .prop) (.app (.var "x") (.var "y"))) =
    nameless [] (.lam "z" (.sort .prop) (.app (.var "x") (.var "z"))) := by
  simp [nameless, place]

/-- **C79.** After a substitution the variable is gone, unless the replacement has it; every other free
variable is from one of the two terms. -/
theorem C79_free_variables_partial (b : Term) (x : String) (s : Term) (h : Blocks b) (y : String)
    (hy : occursFree y (substitute b x s) = true) :
    (occursFree y b = true ∧ y ≠ x) ∨ occursFree y s = true := by
  have h' := (mem_fvars_nameless (substitute b x s) (y := y) (Γ := [])).2 ⟨hy, by simp⟩
  rw [nameless_substitute h] at h'
  rcases mem_fvars_subst _ h' with h' | h'
  · exact .inl ⟨((mem_fvars_nameless b).1 h'.1).1, h'.2⟩
  · exact .inr ((mem_fvars_nameless s).1 h').1

/-- **C79.** A name that is made up to avoid others differs from all of them. -/
theorem C79_fresh_name (base : String) (avoid : List String) : freshName base avoid ∉ avoid :=
  search_fresh base avoid

/-- **C79 fails for repeated names.** In a mutual block that declares a name twice, where the name is free in
the replacement, references to the later declaration become references to the earlier one. -/
theorem C79_duplicate_fails : ∃ (b : Term) (x : String) (s : Term),
    nameless [] (substitute b x s) ≠ NL.subst x (nameless [] s) (nameless [] b) := by
  refine ⟨.mfix [("f", .var "x"), ("f", .app (.var "f") (.var "x"))] 0, "x", .var "f", fun h => ?_⟩
  let second : NL → Option Nat := fun t => match t with
    | .mfix [_, .app (.bvar k) _] _ => some k
    | _ => none
  exact absurd (congrArg second h) (by decide +kernel)

end Verif.Props
