import Verif.Lang.EGraph

/-!
# E-graph: what is assumed of an expression and of the facts about it

Independent of the graph: only expressions, their evaluation and the facts the analysis hands to
the converter.
-/
namespace Verif.Lang.EGraph

/-- A result without error. -/
def IsOk (r : Except Err Value) : Prop := ∃ v, r = .ok v

/-- The value is of the kind. -/
def KindOf : Kind → Value → Prop
  | .int, v => ∃ n, v = .int n
  | .float, v => ∃ f, v = .flt f
  | .bool, v => ∃ b, v = .bool b
  | .text, v => ∃ t, v = .text t

/-- The value is a list or text. -/
def IsColl (v : Value) : Prop := (∃ xs, v = .list xs) ∨ ∃ t, v = .text t

/-- The value is an integer within the (64-bit) interval. -/
def InRange64 (r : Int × Int) (v : Value) : Prop :=
  ∃ n, v = .int n ∧ r.1 ≤ n ∧ n ≤ r.2 ∧ -(2 ^ 63) ≤ n ∧ n < 2 ^ 63

/-- The occurrences in an expression, itself included. -/
def occs : XE → List XE
  | .bin s op a b => .bin s op a b :: (occs a ++ occs b)
  | .not s a => .not s a :: occs a
  | .index s a b => .index s a b :: (occs a ++ occs b)
  | .length s a => .length s a :: occs a
  | .copy s a => .copy s a :: occs a
  | .slice s a b c => .slice s a b c :: (occs a ++ (occs b ++ occs c))
  | .contains s a b => .contains s a b :: (occs a ++ occs b)
  | e => [e]

/-- Only literals, variables and operators the graph knows, and none of the variables `sup`: the
expressions whose facts do not go stale. -/
def Steady (sup : List Sym) : XE → Prop
  | .num _ _ | .bool _ _ | .flt _ _ => True
  | .var _ x => x ∉ sup
  | .bin _ op a b => op ∉ [BinOp.exactDiv, .seqConcat, .approxEq, .bitAnd, .bitOr, .pow, .floorDiv] ∧
      Steady sup a ∧ Steady sup b
  | .not _ a => Steady sup a
  | _ => False

/-- None of the variables `sup` occurs. -/
def Untouched (sup : List Sym) (e : XE) : Prop := ∀ s x, .var s x ∈ occs e → x ∉ sup

/-- The facts about an occurrence are true of its result.  Nothing is asked of facts that may be
stale because the variables `sup` change (they are assigned in an enclosing loop). -/
structure FactsTrue (W : World) (sup : List Sym) (f : SiteFact) (e : XE) : Prop where
  scalar : Steady sup e → ∀ k v, f.scalar = some k → evalX W e = .ok v → KindOf k v
  range : Steady sup e → ∀ r v, f.range = some r → evalX W e = .ok v → InRange64 r v
  tracked : ∀ s x v, e = .var s x → f.tracked = true → evalX W e = .ok v → IsColl v
  len : Untouched sup e → ∀ r v w, f.len = some r → evalX W e = .ok v → lenV v = .ok w →
    InRange64 r w

/-- The analysis is right about every occurrence. -/
def Truthful (W : World) (sup : List Sym) (F : Nat → SiteFact) (e : XE) : Prop :=
  ∀ o ∈ occs e, FactsTrue W sup (F o.site) o

/-- What type checking is expected to guarantee of one occurrence: literals are 64-bit, variables
are defined, a list literal is a list, and no operator other than division and modulo raises an
error of its own. -/
def KindSafe (W : World) : XE → Prop
  | .num _ k => -(2 ^ 63) ≤ k ∧ k < 2 ^ 63
  | .var _ x => IsOk (W.vars x)
  | .bin s op a b => op ≠ .div → op ≠ .mod → IsOk (evalX W a) → IsOk (evalX W b) →
      IsOk (evalX W (.bin s op a b))
  | .contains s c a => ∀ v, evalX W c = .ok v → IsColl v → IsOk (evalX W a) →
      IsOk (evalX W (.contains s c a))
  | .other _ i true => ∀ v, W.others i = .ok v → ∃ xs, v = .list xs
  | _ => True

/-- Every occurrence is. -/
def KindsSafe (W : World) (e : XE) : Prop := ∀ o ∈ occs e, KindSafe W o

/-- A slice whose list has a value does not raise an error. -/
def SlicesSafe (W : World) (e : XE) : Prop :=
  ∀ s c a b, .slice s c a b ∈ occs e → IsOk (evalX W c) → IsOk (evalX W (.slice s c a b))

end Verif.Lang.EGraph
