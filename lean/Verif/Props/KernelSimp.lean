import Verif.Kernel.SimpLemmas
/-!
# C77: the simplifier

Specification (`Kernel/Simp.lean`): `Arithmetic` (a structure whose literals are the integers, with the
five operations), `TypedMeaning` (what goals mean), `Evaluates` (the value of an arithmetic term that
neither overflows nor divides by zero), `valueGoal` (`v₁ = n₁ → … → l = r`).
-/
namespace Verif.Props
open Verif.Kernel

/-- An accepted goal is true in every structure with integer arithmetic, under every meaning of goals that
reads equations and implications as such, whatever it makes of the other hypotheses. -/
theorem C77_sound {goal : Term} (h : simpAccepts goal = true) {α : Type} {A : AppStructure α}
    (hA : Arithmetic A) {T : Term → Prop} (hT : TypedMeaning A T) : T goal :=
  simpDecompose_true hA hT goal [] (by intro e he; cases he) h

/-- An equation between arithmetic terms, under hypotheses that give variables integer values, is accepted
exactly when the two sides have the same value, for terms up to height 499 that neither overflow nor
divide by zero. -/
theorem C77_computes {hs : List (Int × Int)} {a b : Term} {x y : Int} {d : Nat} (hd : d < 500)
    (ha : Evaluates (given hs) d a x) (hb : Evaluates (given hs) d b y) :
    simpAccepts (valueGoal hs (a, b)) = true ↔ x = y := simpAccepts_evaluates hd ha hb

/-- **Disagreement.**  The fuel does not bound the number of simplification steps: the documentation says
1000, and under the hypothesis `x = x + x` the goal's `x` alone takes more than `2^333` calls.  (The
fuel bounds the depth of the recursion, and each application recurses twice.) -/
theorem C77_calls_fails :
    simpDecompose [] (sBin "implies" (sBin "Eq" (sVar 0) (sBin "add" (sVar 0) (sVar 0)))
      (sBin "Eq" (sVar 0) (sLit 0))) = (doubling, sBin "Eq" (sVar 0) (sLit 0)) ∧
    toSTerm (sVar 0) = some (.var 0) ∧
    2 ^ 333 ≤ simplifyCalls 1000 doubling (.var 0) :=
  ⟨by decide +kernel, rfl, calls_exponential 333 1000 (by omega)⟩

/-- Goals that need more than 64 bits on the way are rejected: `(2^63-1) + 1 = 1 + (2^63-1)`. -/
theorem C77_overflow_rejected :
    simpAccepts (sBin "Eq" (sBin "add" (sLit (2 ^ 63 - 1)) (sLit 1))
      (sBin "add" (sLit 1) (sLit (2 ^ 63 - 1)))) = false := by decide +kernel

/-! ### The hypotheses can be met -/

/-- Values: numbers, operations, and operations with their first argument. -/
inductive SVal
  | num (n : Int)
  | op (s : String)
  | part (s : String) (x : Int)
  | other

/-- A structure with arithmetic. -/
def numbers : AppStructure SVal where
  lit := .num
  var _ := .num 0
  name := .op
  app f a :=
    match f, a with
    | .op s, .num x => .part s x
    | .part s x, .num y =>
      if s = "add" then .num (x + y) else if s = "sub" then .num (x - y)
      else if s = "mul" then .num (x * y) else if s = "div" then .num (Int.tdiv x y)
      else if s = "mod" then .num (Int.tmod x y) else .other
    | _, _ => .other

example : Arithmetic numbers := by constructor <;> intros <;> rfl

/-- A meaning of goals. -/
def simpTruth {α : Type} (A : AppStructure α) : Term → Prop
  | .app (.app (.global c) (.app (.app (.global c2) name) a)) b =>
    if c = "SApp" ∧ c2 = "SApp" ∧ extractSname name = some "implies" then (simpTruth A a → simpTruth A b)
    else ∃ x, Value A a x ∧ Value A b x
  | _ => False

theorem simpTruth_meaning {α : Type} (A : AppStructure α) : TypedMeaning A (simpTruth A) := by
  have key : ∀ (name a b : Term) (x y : α), extractSname name ≠ some "implies" → Value A a x → Value A b y →
      (simpTruth A (sApp (sApp name a) b) ↔ x = y) := by
    intro name a b x y hs ha hb
    simp only [sApp]
    rw [simpTruth, if_neg (by rintro ⟨_, _, h⟩; exact hs h)]
    constructor
    · rintro ⟨z, h1, h2⟩; rw [ha.unique h1, hb.unique h2]
    · rintro rfl; exact ⟨x, ha, hb⟩
  refine ⟨⟨?_, ?_⟩, ?_⟩
  · intro s a b x y hs ha hb
    exact key _ a b x y (by rcases hs with rfl | rfl <;> simp) ha hb
  · intro a b
    simp only [sBin, sApp]
    rw [simpTruth, if_pos ⟨rfl, rfl, by simp⟩]
  · intro ty a b x y ha hb
    exact key (sApp (sName "Eq") ty) a b x y (by simp [extractSname, sApp]) ha hb

/-- `x = 7 → y = 3 → (x * 2) mod (y + 1) = x - 5`. -/
example : Evaluates (given [(0, 7), (1, 3)]) 2
    (sBin "mod" (sBin "mul" (sVar 0) (sLit 2)) (sBin "add" (sVar 1) (sLit 1))) 2 ∧
    Evaluates (given [(0, 7), (1, 3)]) 2 (sBin "sub" (sVar 0) (sLit 5)) 2 := by
  have h0 : given [(0, 7), (1, 3)] 0 = some 7 := by decide
  have h1 : given [(0, 7), (1, 3)] 1 = some 3 := by decide
  constructor
  · exact .mod (x := 7 * 2) (y := 3 + 1) (.mul (.var 0 h0) (.lit 0 2) ⟨by decide, by decide⟩)
      (.add (.var 0 h1) (.lit 0 1) ⟨by decide, by decide⟩) (by decide) ⟨by decide, by decide⟩
  · exact .sub (x := 7) (.var 1 h0) (.lit 1 5) ⟨by decide, by decide⟩

example : simpAccepts (valueGoal [(0, 7), (1, 3)]
    (sBin "mod" (sBin "mul" (sVar 0) (sLit 2)) (sBin "add" (sVar 1) (sLit 1)),
      sBin "sub" (sVar 0) (sLit 5))) = true := by decide +kernel

example : simpAccepts (typedEq (sName "Int") (sBin "div" (sLit (-7)) (sLit 2)) (sLit (-3))) = true := by
  decide +kernel

end Verif.Props
