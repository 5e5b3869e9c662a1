import Verif.Kernel.Infer
import Verif.Kernel.InferLemmas
/-!
# C82: what the main kernel accepts

`recheckCert` is the check of a proof certificate.  `lib` stands for the standard library, of which only the
declarations named in each theorem matter; `R` stands for what the model leaves out (normalisation, the
comparison after it, and the rules for `Match`, `Fix`, `MutualFix` and `Const`): the failures do not depend on
it.
-/
namespace Verif.Props
open Verif.Core
open Verif.Level (Universe)

/-- **C82.** The term of an accepted certificate has no free variable.  (Partial: that it proves its claim is
false, see the theorems below.  The rules that the model leaves out must have the same property.) -/
theorem C82_closed_partial (R : Rest) (hR : ∀ (c : Ctx) t T, R.other c t = .ok T → ∀ y, occursFree y t = true →
      (c.locals y).isSome = true)
    (f : Nat) (lib : String → Option Term) (proof claim : Term) (hb : Blocks proof)
    (h : recheckCert R f lib proof claim = .ok ()) (y : String) : occursFree y proof = false := by
  rw [Bool.eq_false_iff]
  intro hy
  unfold recheckCert at h
  rw [ok_bind'] at h
  obtain ⟨T, hT, _⟩ := h
  have := (scoped_both hR f).1 _ _ _ hb hT y hy
  simp at this

/-- **C82.** Inference accepts a variable, and a global name, exactly with the type it was declared with. -/
theorem C82_declared (R : Rest) (f : Nat) (c : Ctx) (x : String) (T : Term) :
    (inferType R (f + 1) c (.var x) = .ok T ↔ c.locals x = some T) ∧
    (inferType R (f + 1) c (.glob x) = .ok T ↔ c.globals x = some T) := by
  simp only [inferType]
  constructor
  · cases c.locals x <;> simp [orUnbound]
  · cases c.globals x <;> simp [orUnbound]

theorem okBind {ε α β : Type} (a : α) (f : α → Except ε β) : (Except.ok a >>= f) = f a := rfl

theorem prop_equiv : Universe.equiv .prop .prop = true := by decide +kernel
theorem type_equiv : Universe.equiv (.type 0) (.type 0) = true := by decide +kernel

/-- The hypotheses of `C82_closed_partial` hold of the identity on proofs of `True`, whatever is left out:
its certificate is accepted, it has a bound variable and no free one. -/
example (R : Rest) (lib : String → Option Term) (hT : lib "True" = some (.sort .prop)) :
    Blocks (.lam "x" (.glob "True") (.var "x")) ∧
    recheckCert R 8 lib (.lam "x" (.glob "True") (.var "x")) (.pi "x" (.glob "True") (.glob "True")) = .ok () := by
  refine ⟨by simp [Blocks], ?_⟩
  simp [recheckCert, inferType, hT, okBind, asSort, orUnbound, Ctx.extend, compareTypes, isSubtype,
    typesEqual, substitute, occursFree]

/-- What is left out has the property asked of it when, for example, it accepts only global constants. -/
example (R : Rest) (h : ∀ c t T, R.other c t = .ok T → ∃ n us, t = .const n us) (c : Ctx) (t T : Term)
    (ht : R.other c t = .ok T) (y : String) (hy : occursFree y t = true) : (c.locals y).isSome = true := by
  obtain ⟨n, us, rfl⟩ := h c t T ht
  simp [occursFree] at hy

/-- Both directions of `C82_declared`: a declared name has its type, an undeclared one is refused. -/
example (R : Rest) (lib : String → Option Term) (hI : lib "I" = some (.glob "True")) (hx : lib "J" = none) :
    inferType R 1 ⟨fun _ => none, lib⟩ (.glob "I") = .ok (.glob "True") ∧
    ∀ T, inferType R 1 ⟨fun _ => none, lib⟩ (.glob "J") ≠ .ok T := by
  simp [inferType, orUnbound, hI, hx]

/-- **C82 fails: shadowed names.** A certificate for `False` is accepted: the type of `x` mentions the outer
`A`, but under the inner binder of the same name it is read as the inner one, so that
`λA. λ(x : A). λA. x` gets the type `ΠA. Π(x : A). ΠA. A`. -/
theorem C82_shadow_fails (R : Rest) (lib : String → Option Term) (hT : lib "True" = some (.sort .prop))
    (hI : lib "I" = some (.glob "True")) (hF : lib "False" = some (.sort .prop)) :
    recheckCert R 8 lib
      (.app (.app (.app (.lam "A" (.sort .prop) (.lam "x" (.var "A") (.lam "A" (.sort .prop) (.var "x"))))
        (.glob "True")) (.glob "I")) (.glob "False")) (.glob "False") = .ok () := by
  simp [recheckCert, inferType, hT, hI, hF, okBind, asSort, orUnbound, Ctx.extend, exposePi, checkType,
    compareTypes, isSubtype, typesEqual, substitute, occursFree, substAvoid, underBinder, height, freeVars,
    freeVarsIn, prop_equiv]

/-- **C82 fails: holes.** A certificate for `False` is accepted: a hole is accepted where a type is expected,
anything is accepted where a hole is expected, and a hole equals every type. -/
theorem C82_hole_fails (R : Rest) (lib : String → Option Term) (hI : lib "I" = some (.glob "True")) :
    recheckCert R 8 lib
      (.app (.app (.lam "A" (.sort .prop) (.lam "x" (.var "A") (.var "x"))) .hole) (.glob "I"))
      (.glob "False") = .ok () := by
  simp [recheckCert, inferType, hI, okBind, asSort, orUnbound, Ctx.extend, exposePi, checkType,
    compareTypes, isSubtype, typesEqual, substitute, occursFree, substAvoid, underBinder, height, freeVars,
    freeVarsIn]

/-- **C82 fails: equality of functions.** A certificate for the equation of the two projections
`λx. λx. x` and `λy. λz. y` on numbers is accepted. -/
theorem C82_projections_fails (R : Rest) (lib : String → Option Term) (hN : lib "Nat" = some (.sort (.type 0)))
    (hr : lib "refl" = some (.pi "A" (.sort (.type 0)) (.pi "x" (.var "A")
      (.app (.app (.app (.glob "Eq") (.var "A")) (.var "x")) (.var "x"))))) :
    recheckCert R 12 lib
      (.app (.app (.glob "refl") (.pi "_" (.glob "Nat") (.pi "_" (.glob "Nat") (.glob "Nat"))))
        (.lam "x" (.glob "Nat") (.lam "x" (.glob "Nat") (.var "x"))))
      (.app (.app (.app (.glob "Eq") (.pi "_" (.glob "Nat") (.pi "_" (.glob "Nat") (.glob "Nat"))))
        (.lam "x" (.glob "Nat") (.lam "x" (.glob "Nat") (.var "x"))))
        (.lam "y" (.glob "Nat") (.lam "z" (.glob "Nat") (.var "y")))) = .ok () := by
  simp [recheckCert, inferType, hN, hr, okBind, asSort, orUnbound, Ctx.extend, exposePi, checkType,
    compareTypes, isSubtype, typesEqual, substitute, occursFree, substAvoid, underBinder, height, freeVars,
    freeVarsIn, type_equiv, Universe.mkIMax, Universe.mkMax]

end Verif.Props
