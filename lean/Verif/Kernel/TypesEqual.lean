import Verif.Kernel.Term
/-!
# The test for equality up to bound names

`/repo/crates/logicaffeine_kernel/src/type_checker.rs` 1587-1680 (`types_equal`).
-/
namespace Verif.Core
open Verif.Level (Universe)

/-- `f64`'s `==` on bit patterns: a NaN equals nothing, the two zeros are equal. -/
def floatSame (a b : Nat) : Bool :=
  let nan := fun x : Nat => x / 2 ^ 52 % 2 ^ 11 == 2 ^ 11 - 1 && x % 2 ^ 52 != 0
  !nan a && !nan b && (a == b || (a % 2 ^ 63 == 0 && b % 2 ^ 63 == 0))

/-- The derived `==` of `Literal` (`term.rs` 11). -/
def Literal.same : Literal → Literal → Bool
  | .float a, .float b => floatSame a b
  | a, b => decide (a = b)

mutual
/-- `types_equal` (`type_checker.rs` 1593-1680). -/
def typesEqual : Term → Term → Bool
  | .hole, _ => true
  | .sort u, t => match t with
    | .hole => true
    | .sort w => Universe.equiv u w
    | _ => false
  | .lit l, t => match t with
    | .hole => true
    | .lit m => Literal.same l m
    | _ => false
  | .var x, t => match t with
    | .hole => true
    | .var y => x == y
    | _ => false
  | .glob x, t => match t with
    | .hole => true
    | .glob y => x == y
    | _ => false
  | .pi x a b, t => match t with
    | .hole => true
    | .pi y c d => typesEqual a c && typesEqual b (substitute d y (.var x))
    | _ => false
  | .lam x a b, t => match t with
    | .hole => true
    | .lam y c d => typesEqual a c && typesEqual b (substitute d y (.var x))
    | _ => false
  | .app f a, t => match t with
    | .hole => true
    | .app g b => typesEqual f g && typesEqual a b
    | _ => false
  | .mtch d m cs, t => match t with
    | .hole => true
    | .mtch e n ks => typesEqual d e && (typesEqual m n && typesEqualL cs ks)
    | _ => false
  | .fix x b, t => match t with
    | .hole => true
    | .fix y d => typesEqual b (substitute d y (.var x))
    | _ => false
  | .letE _ _ _ _, t => match t with
    | .hole => true
    | _ => false
  | .const _ _, t => match t with
    | .hole => true
    | _ => false
  | .mfix _ _, t => match t with
    | .hole => true
    | _ => false
/-- The cases: equally many, and equal in pairs (1655-1656). -/
def typesEqualL : List Term → List Term → Bool
  | [], [] => true
  | c :: cs, k :: ks => typesEqual c k && typesEqualL cs ks
  | _, _ => false
end

/-! ## Specification -/

mutual
/-- Two nameless terms are the same, but for levels that are written differently. -/
def Alpha : NL → NL → Prop
  | .sort u, t => match t with
    | .sort w => Universe.equiv u w = true
    | _ => False
  | .pi a b, t => match t with
    | .pi c d => Alpha a c ∧ Alpha b d
    | _ => False
  | .lam a b, t => match t with
    | .lam c d => Alpha a c ∧ Alpha b d
    | _ => False
  | .app a b, t => match t with
    | .app c d => Alpha a c ∧ Alpha b d
    | _ => False
  | .mtch d m cs, t => match t with
    | .mtch e n ks => Alpha d e ∧ Alpha m n ∧ AlphaL cs ks
    | _ => False
  | .fix b, t => match t with
    | .fix d => Alpha b d
    | _ => False
  | .mfix ds i, t => match t with
    | .mfix es j => AlphaL ds es ∧ i = j
    | _ => False
  | .letE a b c, t => match t with
    | .letE a' b' c' => Alpha a a' ∧ Alpha b b' ∧ Alpha c c'
    | _ => False
  | .bvar k, t => t = .bvar k
  | .fvar x, t => t = .fvar x
  | .glob n, t => t = .glob n
  | .const n ls, t => t = .const n ls
  | .lit l, t => t = .lit l
  | .hole, t => t = .hole
/-- The same for lists. -/
def AlphaL : List NL → List NL → Prop
  | [], [] => True
  | c :: cs, k :: ks => Alpha c k ∧ AlphaL cs ks
  | _, _ => False
end

mutual
/-- Every subterm meets a condition. -/
def Everywhere (P : Term → Prop) : Term → Prop
  | .var x => P (.var x)
  | .sort u => P (.sort u)
  | .lit l => P (.lit l)
  | .hole => P .hole
  | .glob n => P (.glob n)
  | .const n ls => P (.const n ls)
  | .app f a => P (.app f a) ∧ Everywhere P f ∧ Everywhere P a
  | .pi x a b => P (.pi x a b) ∧ Everywhere P a ∧ Everywhere P b
  | .lam x a b => P (.lam x a b) ∧ Everywhere P a ∧ Everywhere P b
  | .fix x b => P (.fix x b) ∧ Everywhere P b
  | .mfix ds i => P (.mfix ds i) ∧ EverywhereD P ds
  | .letE x t w b => P (.letE x t w b) ∧ Everywhere P t ∧ Everywhere P w ∧ Everywhere P b
  | .mtch d m cs => P (.mtch d m cs) ∧ Everywhere P d ∧ Everywhere P m ∧ EverywhereL P cs
/-- The same for cases. -/
def EverywhereL (P : Term → Prop) : List Term → Prop
  | [] => True
  | c :: cs => Everywhere P c ∧ EverywhereL P cs
/-- The same for bodies. -/
def EverywhereD (P : Term → Prop) : List (String × Term) → Prop
  | [] => True
  | (_, b) :: ds => Everywhere P b ∧ EverywhereD P ds
end

/-- A term is not a hole, and not a floating-point literal. -/
def Solid : Term → Prop
  | .hole => False
  | .lit (.float _) => False
  | _ => True

/-- A term is not a `let`, a constant with levels or a mutual block. -/
def Simple : Term → Prop
  | .letE _ _ _ _ => False
  | .const _ _ => False
  | .mfix _ _ => False
  | _ => True


mutual
/-- The names that a term binds. -/
def binders : Term → List String
  | .var _ => []
  | .sort _ => []
  | .lit _ => []
  | .hole => []
  | .glob _ => []
  | .const _ _ => []
  | .app f a => binders f ++ binders a
  | .pi x a b => x :: (binders a ++ binders b)
  | .lam x a b => x :: (binders a ++ binders b)
  | .fix x b => x :: binders b
  | .mfix ds _ => ds.map Prod.fst ++ bindersD ds
  | .letE x t w b => x :: (binders t ++ (binders w ++ binders b))
  | .mtch d m cs => binders d ++ (binders m ++ bindersL cs)
/-- The same for cases. -/
def bindersL : List Term → List String
  | [] => []
  | c :: cs => binders c ++ bindersL cs
/-- The same for bodies. -/
def bindersD : List (String × Term) → List String
  | [] => []
  | (_, b) :: ds => binders b ++ bindersD ds
end

/-- A binder's name is not bound again in its scope. -/
def NoShadow : Term → Prop
  | .pi x _ b => x ∉ binders b
  | .lam x _ b => x ∉ binders b
  | .fix x b => x ∉ binders b
  | _ => True

end Verif.Core
