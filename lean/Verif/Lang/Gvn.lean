import Verif.Lang.Syntax

/-!
# Common subexpression elimination (`crates/logicaffeine_compile/src/optimize/gvn.rs`)

The pass is run by `optimize_for_run_tiered` (`optimize/mod.rs` 416) and by the ahead-of-time
pipeline (630).  Within the modelled syntax all of it is modelled.  Not in the modelled syntax, so
left out: the keys `FieldAccess` and `Contains`, the statements `Pop`, `Add`, `Remove`, `SetIndex`,
`SetField` (they invalidate the collection like `Push`) and `Zone`.
-/
namespace Verif.Lang.Gvn

/-- `ExprKey` (`gvn.rs` 14–26). -/
inductive Key where
  | ident (x : Sym)
  | num (n : Int)
  | bool (b : Bool)
  | text (t : Text)
  | bin (op : BinOp) (a b : Key)
  | length (a : Key)
  | not (a : Key)
  | index (a b : Key)
deriving DecidableEq, Repr

/-- `compute_key` (`gvn.rs` 30–66). -/
def keyOf : Expr → Option Key
  | .var x => some (.ident x)
  | .lit (.num n) => some (.num n)
  | .lit (.bool b) => some (.bool b)
  | .lit (.text t) => some (.text t)
  | .bin op a b =>
    match keyOf a, keyOf b with
    | some j, some k => some (.bin op j k)
    | _, _ => none
  | .length c => (keyOf c).map .length
  | .not a => (keyOf a).map .not
  | .index c i =>
    match keyOf c, keyOf i with
    | some j, some k => some (.index j k)
    | _, _ => none
  | _ => none

/-- `is_non_trivial` (`gvn.rs` 70–72). -/
def nonTrivial : Expr → Bool
  | .var _ => false
  | .lit _ => false
  | _ => true

/-- `collect_key_symbols` (`gvn.rs` 75–90), as a list. -/
def Key.syms : Key → List Sym
  | .ident x => [x]
  | .num _ | .bool _ | .text _ => []
  | .bin _ a b => a.syms ++ b.syms
  | .index a b => a.syms ++ b.syms
  | .length a => a.syms
  | .not a => a.syms

/-- `CseState` (`gvn.rs` 93–100): the two maps as lists of pairs. -/
structure Cse where
  cache : List (Key × Sym) := []
  deps : List (Sym × Key) := []
  counter : Nat := 0

/-- `CseState::lookup` (`gvn.rs` 130–132). -/
def Cse.lookup (c : Cse) (k : Key) : Option Sym := (c.cache.find? (·.1 == k)).map (·.2)

/-- `CseState::insert` (`gvn.rs` 112–119). -/
def Cse.insert (c : Cse) (k : Key) (x : Sym) : Cse :=
  { c with cache := (k, x) :: c.cache.filter (·.1 != k), deps := k.syms.map (·, k) ++ c.deps }

/-- `CseState::invalidate` (`gvn.rs` 122–128). -/
def Cse.invalidate (c : Cse) (x : Sym) : Cse :=
  let keys := (c.deps.filter (·.1 == x)).map (·.2)
  { c with cache := c.cache.filter (fun p => !keys.contains p.1), deps := c.deps.filter (·.1 != x) }

/-- `count_subexpressions` (`gvn.rs` 136–163): every counted occurrence; the count of a key is the
number of times it is listed. -/
def occs : Expr → List Key
  | .bin op a b => (keyOf (.bin op a b)).toList ++ (occs a ++ occs b)
  | .length c => (keyOf (.length c)).toList ++ occs c
  | .not a => (keyOf (.not a)).toList ++ occs a
  | .index c i => (keyOf (.index c i)).toList ++ (occs c ++ occs i)
  | _ => []

/-- What `rewrite_expr` threads: the local cache, the state, and the hoisted statements. -/
structure Rw where
  loc : List (Key × Sym) := []
  st : Cse
  hoisted : List Stmt := []

/-- The head of `rewrite_expr` (`gvn.rs` 177–190): the name standing for an expression already
computed, if any. -/
def Rw.known (r : Rw) (e : Expr) : Option Sym :=
  match keyOf e with
  | none => none
  | some k =>
    match r.loc.find? (·.1 == k) with
    | some p => some p.2
    | none => if nonTrivial e then r.st.lookup k else none

/-- The tail of `rewrite_expr` (`gvn.rs` 231–257): hoist what occurs more than once.  `tmp` gives
the symbol of the name `__cse_N`. -/
def Rw.hoist (tmp : Nat → Sym) (counts : List Key) (k : Option Key) (e : Expr) (r : Rw) : Expr × Rw :=
  match k with
  | none => (e, r)
  | some k =>
    if nonTrivial e && decide (1 < counts.count k) then
      let x := tmp r.st.counter
      let st := { r.st with counter := r.st.counter + 1 }
      (.var x, ⟨(k, x) :: r.loc, st.insert k x, r.hoisted ++ [.letS x false false e]⟩)
    else (e, r)

/-- `rewrite_expr` (`gvn.rs` 167–258). -/
def rewriteE (tmp : Nat → Sym) (counts : List Key) (e : Expr) (r : Rw) : Expr × Rw :=
  match r.known e with
  | some x => (.var x, r)
  | none =>
    match e with
    | .bin op a b =>
      let (a', r1) := rewriteE tmp counts a r
      let (b', r2) := rewriteE tmp counts b r1
      r2.hoist tmp counts (keyOf (.bin op a b)) (.bin op a' b')
    | .length c =>
      let (c', r1) := rewriteE tmp counts c r
      r1.hoist tmp counts (keyOf (.length c)) (.length c')
    | .not a =>
      let (a', r1) := rewriteE tmp counts a r
      r1.hoist tmp counts (keyOf (.not a)) (.not a')
    | .index c i =>
      let (c', r1) := rewriteE tmp counts c r
      let (i', r2) := rewriteE tmp counts i r1
      r2.hoist tmp counts (keyOf (.index c i)) (.index c' i')
    | e => r.hoist tmp counts (keyOf e) e

/-- `cse_expr_cross_stmt` (`gvn.rs` 262–276). -/
def crossE (c : Cse) (e : Expr) : Expr :=
  match keyOf e with
  | some k => if nonTrivial e then (match c.lookup k with | some x => .var x | none => e) else e
  | none => e

/-- Record the value of a `Let` (`gvn.rs` 307–311 and 317–321). -/
def Cse.remember (c : Cse) (e : Expr) (x : Sym) : Cse :=
  match keyOf e with
  | some k => if nonTrivial e then c.insert k x else c
  | none => c

/-- `has_intra_dupes` (`gvn.rs` 294). -/
def hasDupes (e : Expr) : Bool := (occs e).any fun k => decide (1 < (occs e).count k)

mutual
/-- One statement of `invalidate_block_writes` (`gvn.rs` 436–469). -/
def invalidateS (c : Cse) : Stmt → Cse
  | .set x _ => c.invalidate x
  | .push x _ => c.invalidate x
  | .ifS _ t e => invalidateSs (invalidateSs c t) e
  | .whileS _ b => invalidateSs c b
  | .repeatS _ _ b => invalidateSs c b
  | _ => c

/-- `invalidate_block_writes` (`gvn.rs` 436–469). -/
def invalidateSs (c : Cse) : List Stmt → Cse
  | [] => c
  | s :: ss => invalidateSs (invalidateS c s) ss
end

mutual
/-- One statement of `cse_block` (`gvn.rs` 286–432). -/
def cseS (tmp : Nat → Sym) (c : Cse) : Stmt → List Stmt × Cse
  | .letS x b m e =>
    if hasDupes e then
      let (e', r) := rewriteE tmp (occs e) e { st := c }
      (r.hoisted ++ [.letS x b m e'], r.st.remember e' x)
    else ([.letS x b m (crossE c e)], c.remember e x)
  | .set x e => ([.set x e], c.invalidate x)
  | .push x e => ([.push x e], c.invalidate x)
  | .ifS cond t e =>
    let (t', c1) := cseSs tmp c t
    let (e', c2) := cseSs tmp { c with counter := c1.counter } e
    ([.ifS cond t' e'], invalidateSs (invalidateSs { c with counter := c2.counter } t) e)
  | .whileS cond b =>
    let (b', c1) := cseSs tmp c b
    ([.whileS cond b'], invalidateSs { c with counter := c1.counter } b)
  | .repeatS x e b =>
    let (b', c1) := cseSs tmp c b
    ([.repeatS x e b'], invalidateSs { c with counter := c1.counter } b)
  | .funDef f ps b =>
    let (b', c1) := cseSs tmp { counter := c.counter } b
    ([.funDef f ps b'], { c with counter := c1.counter })
  | .callS f args => ([.callS f args], c)
  | .ret e => ([.ret e], c)
  | .brk => ([.brk], c)
  | .showS e => ([.showS e], c)
  | .assertS e => ([.assertS e], c)

/-- `cse_block` (`gvn.rs` 279–433). -/
def cseSs (tmp : Nat → Sym) (c : Cse) : List Stmt → List Stmt × Cse
  | [] => ([], c)
  | s :: ss =>
    let (s', c1) := cseS tmp c s
    let (ss', c2) := cseSs tmp c1 ss
    (s' ++ ss', c2)
end

/-- `cse_stmts` (`gvn.rs` 474–482). -/
def cseProgram (tmp : Nat → Sym) (p : List Stmt) : List Stmt := (cseSs tmp {} p).1

end Verif.Lang.Gvn
