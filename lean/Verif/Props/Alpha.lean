import Verif.Kernel.AlphaLemmas
/-!
# C80: the kernel's test for equal types

Specification (`Kernel/TypesEqual.lean`): `Alpha`, "the same nameless term, but for levels written differently";
`Solid` (no hole, no floating-point literal), `Simple` (no `let`, constant with levels or mutual block),
`NoShadow` (a bound name is not bound again in its scope), `binders` (the names a term binds).
-/
namespace Verif.Props
open Verif.Core

/-- **C80, acceptance.** Two types that the kernel takes for equal without reducing them differ at most in
their bound names.  (Partial: the types have no holes or floating-point literals, and the names that the first
one binds are not bound again inside, nor free in the second; the theorems below show that each of these
conditions is needed.) -/
theorem C80_accepts_partial (a b : Term) (ha : Everywhere Solid a) (hb : Everywhere Solid b)
    (hs : Everywhere NoShadow a) (hk : Blocks b) (hf : ∀ x ∈ binders a, ¬ occursFree x b = true)
    (h : typesEqual a b = true) : Alpha (nameless [] a) (nameless [] b) :=
  typesEqual_sound a b [] ha hs (holes_nameless b hb) hk hf h

example : typesEqual (.pi "x" (.sort .prop) (.lam "y" (.var "x") (.app (.var "f") (.var "y"))))
    (.pi "y" (.sort .prop) (.lam "z" (.var "y") (.app (.var "f") (.var "z")))) = true ∧
    Everywhere NoShadow (.pi "x" (.sort .prop) (.lam "y" (.var "x") (.app (.var "f") (.var "y")))) :=
  ⟨by decide +kernel, by simp [Everywhere, NoShadow, binders]⟩

/-- **C80, completeness.** Two types that differ only in their bound names are taken for equal.  (Partial: no
floating-point literals, no `let`, constants with levels or mutual blocks in the first one, see
`C80_reflexive_fails`.) -/
theorem C80_complete_partial (a b : Term) (ha : Everywhere Solid a) (hm : Everywhere Simple a)
    (hka : Blocks a) (hkb : Blocks b) (h : Alpha (nameless [] a) (nameless [] b)) :
    typesEqual a b = true :=
  typesEqual_complete a b ha hm hka hkb h

/-- A shadowed name on one side only. -/
example : Alpha (nameless [] (.lam "x" (.sort .prop) (.lam "x" (.sort .prop) (.var "x"))))
    (nameless [] (.lam "x" (.sort .prop) (.lam "y" (.sort .prop) (.var "y")))) := by
  simp only [nameless, place, Alpha]
  exact ⟨by decide +kernel, by decide +kernel, by simp [Alpha]⟩

/-- **C80 fails for names that are free on one side and bound on the other.** `λ(y : Prop). y`, the identity,
and `λ(x : Prop). y`, a constant function, are taken for equal. -/
theorem C80_capture_fails : ∃ a b : Term, Everywhere Solid a ∧ Everywhere Solid b ∧ Everywhere NoShadow a ∧
    typesEqual a b = true ∧ ¬ Alpha (nameless [] a) (nameless [] b) :=
  ⟨.lam "y" (.sort .prop) (.var "y"), .lam "x" (.sort .prop) (.var "y"),
    by simp [Everywhere, Solid], by simp [Everywhere, Solid], by simp [Everywhere, NoShadow, binders],
    by decide +kernel, by simp [nameless, place, Alpha]⟩

/-- **C80 fails for names that are bound twice.** Two closed types, `λ(x). λ(x). x` and `λ(y). λ(z). y`. -/
theorem C80_shadow_fails : ∃ a b : Term, Everywhere Solid a ∧ Everywhere Solid b ∧ freeVars a = [] ∧
    freeVars b = [] ∧ typesEqual a b = true ∧ ¬ Alpha (nameless [] a) (nameless [] b) :=
  ⟨.lam "x" (.sort .prop) (.lam "x" (.sort .prop) (.var "x")),
    .lam "y" (.sort .prop) (.lam "z" (.sort .prop) (.var "y")),
    by simp [Everywhere, Solid], by simp [Everywhere, Solid], by decide +kernel, by decide +kernel,
    by decide +kernel, by simp [nameless, place, Alpha]⟩

/-- **C80 fails for equality in both directions**: the test is not symmetric. -/
theorem C80_symmetric_fails : ∃ a b : Term, typesEqual a b = true ∧ typesEqual b a = false :=
  ⟨.lam "y" (.sort .prop) (.var "y"), .lam "x" (.sort .prop) (.var "y"), by decide +kernel, by decide +kernel⟩

/-- **C80 fails for mutual blocks, constants with levels and the float that is not a number**: such a type is
not equal to itself. -/
theorem C80_reflexive_fails : (∃ ds i, typesEqual (.mfix ds i) (.mfix ds i) = false) ∧
    (∃ n ls, typesEqual (.const n ls) (.const n ls) = false) ∧
    ∃ bits, typesEqual (.lit (.float bits)) (.lit (.float bits)) = false :=
  ⟨⟨[("f", .var "f")], 0, by decide +kernel⟩, ⟨"List", [.type 0], by decide +kernel⟩,
    ⟨0x7ff8000000000000, by decide +kernel⟩⟩

/-- **C80 fails for holes**: a hole is equal to every type, so equality is not transitive. -/
theorem C80_hole_fails (a b : Term) : typesEqual a .hole = true ∧ typesEqual .hole b = true := by
  refine ⟨?_, by simp [typesEqual]⟩
  cases a <;> simp [typesEqual]

/-- **C80 fails for the two zeros**: the floats 0 and -0 are taken for equal. -/
theorem C80_zero_fails : typesEqual (.lit (.float 0)) (.lit (.float (2 ^ 63))) = true ∧
    ¬ Alpha (nameless [] (.lit (.float 0))) (nameless [] (.lit (.float (2 ^ 63)))) :=
  ⟨by decide +kernel, by simp [nameless, Alpha]⟩

end Verif.Props
