import Mathlib.Algebra.Ring.Basic
import Mathlib.Data.Int.Cast.Basic
/-!
# The kernel's deep embedding of terms, and how the arithmetic procedures read it

`/repo/crates/logicaffeine_kernel/src/reify.rs`, and the parts of `ring.rs`, `lia.rs`, `omega.rs` and
`reduction.rs` that take a goal apart.  Everything starts from a goal that has already been normalised
(`normalize(ctx, goal)` in `reduction.rs` is not modelled).
-/
namespace Verif.Kernel

/-- `Literal` (`term.rs` 13-44).  Only integers and texts are looked at by the code modelled here; the
other literals are one constructor with a tag.  An `i64` is an unbounded integer here, which only makes
the theorems stronger. -/
inductive Lit
  | int (n : Int)
  | text (s : String)
  | other (tag : Nat)
  deriving DecidableEq

/-- `Term` (`term.rs` 445-…).  The constructors the modelled code never looks into are `other`. -/
inductive Term
  | global (s : String)
  | lit (l : Lit)
  | app (f x : Term)
  | other (tag : Nat)
  deriving DecidableEq

/-- `SLit n`. -/
def sLit (n : Int) : Term := .app (.global "SLit") (.lit (.int n))
/-- `SVar i`. -/
def sVar (i : Int) : Term := .app (.global "SVar") (.lit (.int i))
/-- `SName "s"`. -/
def sName (s : String) : Term := .app (.global "SName") (.lit (.text s))
/-- `SApp f x`. -/
def sApp (f x : Term) : Term := .app (.app (.global "SApp") f) x
/-- `SApp (SApp (SName op) a) b`. -/
def sBin (op : String) (a b : Term) : Term := sApp (sApp (sName op) a) b

/-- `VarInterner` (`reify.rs` 22-31).  The index is an `i64` in the code: running out of it would need
`2^63` names. -/
structure Interner where
  map : List (String × Int)
  next : Int

/-- `VarInterner::new` (`reify.rs` 34-39). -/
def Interner.new : Interner := ⟨[], -1000000⟩

/-- `self.map.get(name)`. -/
def Interner.find (v : Interner) (s : String) : Option Int :=
  (v.map.find? (fun e => decide (e.1 = s))).map Prod.snd

/-- `VarInterner::intern` (`reify.rs` 42-50). -/
def Interner.intern (v : Interner) (s : String) : Int × Interner :=
  match v.find s with
  | some i => (i, v)
  | none => (v.next, ⟨(s, v.next) :: v.map, v.next - 1⟩)

/-- `extract_slit` (`reify.rs` 54-65). -/
def extractSlit : Term → Option Int
  | .app (.global c) (.lit (.int n)) => if c = "SLit" then some n else none
  | _ => none

/-- `extract_svar` (`reify.rs` 68-79). -/
def extractSvar : Term → Option Int
  | .app (.global c) (.lit (.int n)) => if c = "SVar" then some n else none
  | _ => none

/-- `extract_sname` (`reify.rs` 82-93), also `extract_sname_from_syntax` (`reduction.rs` 2360-2371). -/
def extractSname : Term → Option String
  | .app (.global c) (.lit (.text s)) => if c = "SName" then some s else none
  | _ => none

/-- `extract_binary_app` (`reify.rs` 96-121). -/
def extractBinaryApp : Term → Option (String × Term × Term)
  | .app (.app (.global c) (.app (.app (.global c2) op) a)) b =>
    if c = "SApp" ∧ c2 = "SApp" then (extractSname op).map (fun s => (s, a, b)) else none
  | _ => none

/-- The algebra a procedure reads terms into. -/
structure Algebra (α : Type) where
  lit : Int → α
  var : Int → α
  add : α → α → α
  sub : α → α → α
  /-- `none` where the procedure rejects the product. -/
  mul : α → α → Option α

/-- What follows once the first operand is read: the `?` of the second, then the operation. -/
def bothThen {α : Type} (f : α → α → Option α) (x : α) : Option α × Interner → Option α × Interner
  | (none, v) => (none, v)
  | (some y, v) => (f x y, v)

/-- `ring::reify` (`ring.rs` 214-268), `lia::reify_linear` (`lia.rs` 190-242) and
`omega::reify_int_linear` (`omega.rs` 210-257), which differ only in the algebra.  The interner is
threaded through, also when reading fails half way.  `none` is every error. -/
def reify {α : Type} (o : Algebra α) : Term → Interner → Option α × Interner
  | .app (.global c) x, v =>
    match extractSlit (.app (.global c) x) with
    | some n => (some (o.lit n), v)
    | none =>
      match extractSvar (.app (.global c) x) with
      | some i => (some (o.var i), v)
      | none =>
        match extractSname (.app (.global c) x) with
        | some s => (some (o.var (v.intern s).1), (v.intern s).2)
        | none => (none, v)
  | .app (.app (.global c) (.app (.app (.global c2) op) a)) b, v =>
    if c = "SApp" ∧ c2 = "SApp" then
      match extractSname op with
      | none => (none, v)
      | some s =>
        if s = "add" then
          match reify o a v with
          | (none, v) => (none, v)
          | (some x, v) => bothThen (fun x y => some (o.add x y)) x (reify o b v)
        else if s = "sub" then
          match reify o a v with
          | (none, v) => (none, v)
          | (some x, v) => bothThen (fun x y => some (o.sub x y)) x (reify o b v)
        else if s = "mul" then
          match reify o a v with
          | (none, v) => (none, v)
          | (some x, v) => bothThen o.mul x (reify o b v)
        else (none, v)
    else (none, v)
  | _, v => (none, v)

/-- `extract_eq` (`reduction.rs` 2172-2221). -/
def extractEq : Term → Option (Term × Term × Term)
  | .app (.app (.global c) (.app (.app (.global c2) (.app (.app (.global c3) name) t)) a)) b =>
    if c = "SApp" ∧ c2 = "SApp" ∧ c3 = "SApp" ∧ extractSname name = some "Eq" then some (t, a, b)
    else none
  | _ => none

/-- `is_ring_type` (`reduction.rs` 2352-2357). -/
def isRingType (t : Term) : Bool :=
  decide (extractSname t = some "Int") || decide (extractSname t = some "Nat")

/-- The four relations. -/
inductive Rel
  | lt | le | gt | ge
  deriving DecidableEq

/-- The spellings `extract_comparison` and `goal_to_negated_constraint` know. -/
def relOf (s : String) : Option Rel :=
  if s = "Lt" ∨ s = "lt" then some .lt
  else if s = "Le" ∨ s = "le" then some .le
  else if s = "Gt" ∨ s = "gt" then some .gt
  else if s = "Ge" ∨ s = "ge" then some .ge
  else none

/-- `extract_comparison` (`lia.rs` 245-255, `omega.rs` 260-270). -/
def extractComparison (t : Term) : Option (Rel × Term × Term) :=
  match extractBinaryApp t with
  | none => none
  | some (s, a, b) => (relOf s).map (fun r => (r, a, b))

/-- `extract_implication` (`reduction.rs` 1766-1802). -/
def extractImplication : Term → Option (Term × Term)
  | .app (.app (.global c) (.app (.app (.global c2) name) a)) b =>
    if c = "SApp" ∧ c2 = "SApp" ∧
        (extractSname name = some "Implies" ∨ extractSname name = some "implies") then some (a, b)
    else none
  | _ => none

/-- `extract_implications` (`reduction.rs` 1808-1827): the hypotheses in order, and what is left.  The
caller's test for "no hypothesis" is on the empty list. -/
def extractImplications : Term → List Term × Term
  | .app (.app (.global c) (.app (.app (.global c2) name) a)) b =>
    if c = "SApp" ∧ c2 = "SApp" ∧
        (extractSname name = some "Implies" ∨ extractSname name = some "implies") then
      (a :: (extractImplications b).1, (extractImplications b).2)
    else ([], .app (.app (.global c) (.app (.app (.global c2) name) a)) b)
  | t => ([], t)

/-! ## Specification -/

/-- The value of an arithmetic term: `ρ` gives the numbered variables, `σ` the named ones. -/
inductive Denotes {R : Type} [Ring R] (ρ : Int → R) (σ : String → R) : Term → R → Prop
  | lit (n : Int) : Denotes ρ σ (sLit n) (n : R)
  | var (i : Int) : Denotes ρ σ (sVar i) (ρ i)
  | name (s : String) : Denotes ρ σ (sName s) (σ s)
  | add {a b : Term} {x y : R} : Denotes ρ σ a x → Denotes ρ σ b y → Denotes ρ σ (sBin "add" a b) (x + y)
  | sub {a b : Term} {x y : R} : Denotes ρ σ a x → Denotes ρ σ b y → Denotes ρ σ (sBin "sub" a b) (x - y)
  | mul {a b : Term} {x y : R} : Denotes ρ σ a x → Denotes ρ σ b y → Denotes ρ σ (sBin "mul" a b) (x * y)

/-- `s` occurs in `t`. -/
inductive Occurs (s : Term) : Term → Prop
  | here : Occurs s s
  | left {f x : Term} : Occurs s f → Occurs s (.app f x)
  | right {f x : Term} : Occurs s x → Occurs s (.app f x)

/-- Every numbered variable of the term is a de Bruijn index, which is not negative. -/
def DeBruijn (t : Term) : Prop := ∀ i, Occurs (sVar i) t → 0 ≤ i

/-- The relation itself. -/
def Rel.Holds {R : Type} [LT R] [LE R] : Rel → R → R → Prop
  | .lt, a, b => a < b
  | .le, a, b => a ≤ b
  | .gt, a, b => b < a
  | .ge, a, b => b ≤ a

/-- How the relations are written. -/
inductive RelName : String → Rel → Prop
  | Lt : RelName "Lt" .lt
  | lt : RelName "lt" .lt
  | Le : RelName "Le" .le
  | le : RelName "le" .le
  | Gt : RelName "Gt" .gt
  | gt : RelName "gt" .gt
  | Ge : RelName "Ge" .ge
  | ge : RelName "ge" .ge

/-- A term without variables. -/
inductive Closed : Term → Prop
  | lit (n : Int) : Closed (sLit n)
  | add {a b : Term} : Closed a → Closed b → Closed (sBin "add" a b)
  | sub {a b : Term} : Closed a → Closed b → Closed (sBin "sub" a b)
  | mul {a b : Term} : Closed a → Closed b → Closed (sBin "mul" a b)

/-- A linear term: in every product one factor has no variables. -/
inductive Linear : Term → Prop
  | lit (n : Int) : Linear (sLit n)
  | var (i : Int) : Linear (sVar i)
  | name (s : String) : Linear (sName s)
  | add {a b : Term} : Linear a → Linear b → Linear (sBin "add" a b)
  | sub {a b : Term} : Linear a → Linear b → Linear (sBin "sub" a b)
  | mulLeft {a b : Term} : Closed a → Linear b → Linear (sBin "mul" a b)
  | mulRight {a b : Term} : Linear a → Closed b → Linear (sBin "mul" a b)

/-- A meaning of goals: comparisons of arithmetic terms mean the comparison of their values, and
implications mean implications.  Nothing is said about any other term. -/
structure Meaning {R : Type} [Ring R] [LT R] [LE R] (ρ : Int → R) (σ : String → R)
    (T : Term → Prop) : Prop where
  comparison : ∀ s r a b x y, RelName s r → Denotes ρ σ a x → Denotes ρ σ b y →
    (T (sBin s a b) ↔ r.Holds x y)
  implication : ∀ s a b, s = "Implies" ∨ s = "implies" → (T (sBin s a b) ↔ (T a → T b))

end Verif.Kernel
