import Verif.Kernel.Cc
/-!
# The simplifier

`/repo/crates/logicaffeine_kernel/src/simp.rs`.
-/
namespace Verif.Kernel

/-- `STerm` (`simp.rs` 50-60). -/
inductive STerm
  | lit (n : Int)
  | var (i : Int)
  | name (s : String)
  | app (f a : STerm)
  deriving DecidableEq

/-- `term_to_sterm` (`simp.rs` 73-97). -/
def toSTerm : Term → Option STerm
  | .app (.global c) x =>
    match extractSlit (.app (.global c) x) with
    | some n => some (.lit n)
    | none =>
      match extractSvar (.app (.global c) x) with
      | some i => some (.var i)
      | none =>
        match extractSname (.app (.global c) x) with
        | some s => some (.name s)
        | none => none
  | .app (.app (.global c) f) a =>
    if c = "SApp" then
      match toSTerm f with
      | none => none
      | some f =>
        match toSTerm a with
        | none => none
        | some a => some (.app f a)
    else none
  | _ => none

/-- `Substitution` (`simp.rs` 67): a hash map, here the list of insertions with the newest first. -/
abbrev Subst := List (Int × STerm)

/-- `subst.get(i)`. -/
def Subst.get (s : Subst) (i : Int) : Option STerm :=
  (s.find? (fun e => decide (e.1 = i))).map Prod.snd

/-- The result of a checked `i64` operation. -/
def i64 (n : Int) : Option Int := if -2 ^ 63 ≤ n ∧ n < 2 ^ 63 then some n else none

/-- The checked operation (`simp.rs` 174-181).  `checked_div` and `checked_rem` are undefined on division
by zero and when the quotient overflows. -/
def checkedOp (op : String) (x y : Int) : Option Int :=
  if op = "add" then i64 (x + y)
  else if op = "sub" then i64 (x - y)
  else if op = "mul" then i64 (x * y)
  else if op = "div" ∧ y ≠ 0 then i64 (Int.tdiv x y)
  else if op = "mod" ∧ y ≠ 0 then (i64 (Int.tdiv x y)).map (fun _ => Int.tmod x y)
  else none

/-- `try_arithmetic` (`simp.rs` 167-187). -/
def tryArithmetic : STerm → STerm → Option STerm
  | .app (.name op) (.lit x), .lit y => (checkedOp op x y).map STerm.lit
  | _, _ => none

/-- `simplify_sterm` (`simp.rs` 130-164). -/
def simplify : Nat → Subst → STerm → STerm
  | 0, _, t => t
  | f + 1, s, .var i =>
    match s.get i with
    | some r => simplify f s r
    | none => .var i
  | f + 1, s, .app g a =>
    match tryArithmetic (simplify f s g) (simplify f s a) with
    | some r => simplify f s r
    | none => .app (simplify f s g) (simplify f s a)
  | _ + 1, _, t => t

/-- The number of calls `simplify_sterm` makes, itself included. -/
def simplifyCalls : Nat → Subst → STerm → Nat
  | 0, _, _ => 1
  | f + 1, s, .var i =>
    match s.get i with
    | some r => 1 + simplifyCalls f s r
    | none => 1
  | f + 1, s, .app g a =>
    match tryArithmetic (simplify f s g) (simplify f s a) with
    | some r => 1 + simplifyCalls f s g + simplifyCalls f s a + simplifyCalls f s r
    | none => 1 + simplifyCalls f s g + simplifyCalls f s a
  | _ + 1, _, _ => 1

/-- `extract_ternary_eq` (`simp.rs` 353-370). -/
def ternaryEq : Term → Option (Term × Term)
  | .app (.app (.global c) (.app (.app (.global c2) (.app (.app (.global c3) name) _)) a)) b =>
    if c = "SApp" ∧ c2 = "SApp" ∧ c3 = "SApp" ∧ extractSname name = some "Eq" then some (a, b)
    else none
  | _ => none

/-- `extract_equality` (`simp.rs` 336-350). -/
def simpEquality (t : Term) : Option (Term × Term) :=
  match ccEquality t with
  | some e => some e
  | none => ternaryEq t

/-- The rewrite a hypothesis gives (`simp.rs` 202-214): only when its left side is a variable. -/
def rewriteOf (h : Term) : Option (Int × STerm) :=
  match simpEquality h with
  | none => none
  | some (l, r) =>
    match toSTerm l with
    | some (.var i) => (toSTerm r).map (fun t => (i, t))
    | _ => none

/-- `decompose_goal` (`simp.rs` 196-219). -/
def simpDecompose : Subst → Term → Subst × Term
  | s, .app (.app (.global c) (.app (.app (.global c2) name) a)) b =>
    if c = "SApp" ∧ c2 = "SApp" ∧ extractSname name = some "implies" then
      simpDecompose ((rewriteOf a).toList ++ s) b
    else (s, .app (.app (.global c) (.app (.app (.global c2) name) a)) b)
  | s, t => (s, t)

/-- The comparison (`simp.rs` 255-261). -/
def simpSame (s : Subst) (l r : STerm) : Bool := decide (simplify 1000 s l = simplify 1000 s r)

/-- The end of `check_goal` (`simp.rs` 238-262), with the substitution and the conclusion. -/
def simpConclude (s : Subst) (concl : Term) : Bool :=
  match simpEquality concl with
  | none => false
  | some (l, r) =>
    match toSTerm l with
    | none => false
    | some l =>
      match toSTerm r with
      | none => false
      | some r => simpSame s l r

/-- `check_goal` (`simp.rs` 235-262), the test shared by `try_try_simp_reduce` (`reduction.rs` 2501-2520)
and `try_dsimp_solve_conclude` (`reduction.rs` 2525-2534). -/
def simpAccepts (goal : Term) : Bool :=
  simpConclude (simpDecompose [] goal).1 (simpDecompose [] goal).2

/-! ## Specification -/

/-- An equation that carries its type. -/
def typedEq (ty a b : Term) : Term := sApp (sApp (sApp (sName "Eq") ty) a) b

/-- The value of an operation applied to two arguments. -/
def AppStructure.op {α : Type} (A : AppStructure α) (s : String) (x y : α) : α :=
  A.app (A.app (A.name s) x) y

/-- A structure in which the literals are the integers and the five operations compute on them;
division truncates and nothing is said about division by zero. -/
structure Arithmetic {α : Type} (A : AppStructure α) : Prop where
  add : ∀ x y, A.op "add" (A.lit x) (A.lit y) = A.lit (x + y)
  sub : ∀ x y, A.op "sub" (A.lit x) (A.lit y) = A.lit (x - y)
  mul : ∀ x y, A.op "mul" (A.lit x) (A.lit y) = A.lit (x * y)
  div : ∀ x y, y ≠ 0 → A.op "div" (A.lit x) (A.lit y) = A.lit (Int.tdiv x y)
  mod : ∀ x y, y ≠ 0 → A.op "mod" (A.lit x) (A.lit y) = A.lit (Int.tmod x y)

/-- A meaning of goals, with equations that carry a type as well. -/
structure TypedMeaning {α : Type} (A : AppStructure α) (T : Term → Prop) : Prop extends EqMeaning A T where
  typed : ∀ ty a b x y, Value A a x → Value A b y → (T (typedEq ty a b) ↔ x = y)

/-- An integer fits 64 bits. -/
def Fits (n : Int) : Prop := -2 ^ 63 ≤ n ∧ n < 2 ^ 63

/-- The value of an arithmetic term whose operations neither overflow nor divide by zero, with the values
`ρ` of some variables; the number bounds its height. -/
inductive Evaluates (ρ : Int → Option Int) : Nat → Term → Int → Prop
  | lit (d : Nat) (n : Int) : Evaluates ρ d (sLit n) n
  | var (d : Nat) {i n : Int} : ρ i = some n → Evaluates ρ d (sVar i) n
  | add {d : Nat} {a b : Term} {x y : Int} : Evaluates ρ d a x → Evaluates ρ d b y → Fits (x + y) →
      Evaluates ρ (d + 1) (sBin "add" a b) (x + y)
  | sub {d : Nat} {a b : Term} {x y : Int} : Evaluates ρ d a x → Evaluates ρ d b y → Fits (x - y) →
      Evaluates ρ (d + 1) (sBin "sub" a b) (x - y)
  | mul {d : Nat} {a b : Term} {x y : Int} : Evaluates ρ d a x → Evaluates ρ d b y → Fits (x * y) →
      Evaluates ρ (d + 1) (sBin "mul" a b) (x * y)
  | div {d : Nat} {a b : Term} {x y : Int} : Evaluates ρ d a x → Evaluates ρ d b y → y ≠ 0 →
      Fits (Int.tdiv x y) → Evaluates ρ (d + 1) (sBin "div" a b) (Int.tdiv x y)
  | mod {d : Nat} {a b : Term} {x y : Int} : Evaluates ρ d a x → Evaluates ρ d b y → y ≠ 0 →
      Fits (Int.tdiv x y) → Evaluates ρ (d + 1) (sBin "mod" a b) (Int.tmod x y)

/-- The goal `v₁ = n₁ → … → l = r`. -/
def valueGoal : List (Int × Int) → Term × Term → Term
  | [], e => sBin "Eq" e.1 e.2
  | h :: hs, e => sBin "implies" (sBin "Eq" (sVar h.1) (sLit h.2)) (valueGoal hs e)

/-- What the hypotheses say about a variable; the last one counts. -/
def given (hs : List (Int × Int)) (i : Int) : Option Int :=
  (hs.reverse.find? (fun h => decide (h.1 = i))).map Prod.snd

end Verif.Kernel
