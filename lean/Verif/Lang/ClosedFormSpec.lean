import Verif.Lang.Interp
/-!
# What the closed forms of loops must keep: the vocabulary

Only the language and its interpreter are used here.
-/
namespace Verif.Lang.CF

/-- In `s`, and in every state in which at most the variables `x` and `y` have other values, the expression is the number `N` and
evaluating it changes nothing. -/
def Steady (I : Inst) (e : Expr) (N : Int) (s : State) (x y : Sym) : Prop :=
  ∀ t : State, t.funs = s.funs → t.clos = s.clos → (∀ z, z ≠ x → z ≠ y → t.env.lookup z = s.env.lookup z) →
    evalE I e t = (.ok (.int N), t)

/-- An expression made of literals, variables other than `x` and `y`, operators, elements and lengths: no call, no closure. -/
inductive Simple (x y : Sym) : Expr → Prop
  | lit (l : Lit) : Simple x y (.lit l)
  | var {z : Sym} : z ≠ x → z ≠ y → Simple x y (.var z)
  | bin (op : BinOp) {a b : Expr} : Simple x y a → Simple x y b → Simple x y (.bin op a b)
  | not {a : Expr} : Simple x y a → Simple x y (.not a)
  | index {a b : Expr} : Simple x y a → Simple x y b → Simple x y (.index a b)
  | length {a : Expr} : Simple x y a → Simple x y (.length a)

/-- An expression that calls nothing and makes no closure. -/
inductive Quiet : Expr → Prop
  | lit (l : Lit) : Quiet (.lit l)
  | var (z : Sym) : Quiet (.var z)
  | bin (op : BinOp) {a b : Expr} : Quiet a → Quiet b → Quiet (.bin op a b)
  | not {a : Expr} : Quiet a → Quiet (.not a)
  | index {a b : Expr} : Quiet a → Quiet b → Quiet (.index a b)
  | length {a : Expr} : Quiet a → Quiet (.length a)
  | list {es : List Expr} : (∀ e ∈ es, Quiet e) → Quiet (.list es)

/-- A statement whose expressions call nothing. -/
inductive QuietStmt : Stmt → Prop
  | letS (x : Sym) (b m : Bool) {e : Expr} : Quiet e → QuietStmt (.letS x b m e)
  | set (x : Sym) {e : Expr} : Quiet e → QuietStmt (.set x e)
  | showS {e : Expr} : Quiet e → QuietStmt (.showS e)
  | assertS {e : Expr} : Quiet e → QuietStmt (.assertS e)
  | push (x : Sym) {e : Expr} : Quiet e → QuietStmt (.push x e)
  | funDef (f : Sym) (ps : List Param) (b : List Stmt) : QuietStmt (.funDef f ps b)

end Verif.Lang.CF

namespace Verif.Lang.CF

/-- With the functions `F`, the function `f` of one parameter, called with the number `x`, returns the number `v` and changes nothing,
given enough steps. -/
def Answers (P : Prims) (F : Sym → Option Fun) (f : Sym) (x v : Int) : Prop :=
  ∃ fd, F f = some fd ∧ fd.params.length = 1 ∧ P.builtin f = none ∧
    ∃ m0, ∀ m, m0 ≤ m → ∀ st : State, st.funs = F → invokeN P (applyOp P) (fun _ _ => true) m (.fn fd) [.int x] st = (.ok (.int v), st)

/-- A number of 64 bits. -/
def Word (n : Int) : Prop := -(2 ^ 63) ≤ n ∧ n < 2 ^ 63

/-- The expression has the value `v` when `p` is `x`, and no step leaves the numbers of 64 bits. -/
inductive InWord (p : Sym) (x : Int) : Expr → Int → Prop
  | lit {n : Int} : Word n → InWord p x (.lit (.num n)) n
  | var : Word x → InWord p x (.var p) x
  | add {a b : Expr} {m n : Int} : InWord p x a m → InWord p x b n → Word (m + n) → InWord p x (.bin .add a b) (m + n)
  | sub {a b : Expr} {m n : Int} : InWord p x a m → InWord p x b n → Word (m - n) → InWord p x (.bin .sub a b) (m - n)
  | mul {a b : Expr} {m n : Int} : InWord p x a m → InWord p x b n → Word (m * n) → InWord p x (.bin .mul a b) (m * n)
  | shl {a b : Expr} {m : Int} {n : Nat} : InWord p x a m → InWord p x b n → n < 64 → Word (m * 2 ^ n) → InWord p x (.bin .shl a b) (m * 2 ^ n)

end Verif.Lang.CF
