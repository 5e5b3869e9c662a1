import Verif.Lang.Propagate

/-!
# Deciding branches by intervals

Model of `optimize/abstract_interp.rs` 20–450 and 1072–1600 (`abstract_interp_stmts`, run by
`optimize/mod.rs` 493–497 and 665–669): the pass keeps an interval for every variable and a length
interval for every collection, replaces a condition it can decide by `true` or `false`, and drops
the branch not taken.

Simplifications: `Expr::New` is a call of a reserved builtin name `nw`; an `else` block is present
exactly when it is not empty; patterns of `Repeat` are single names; `Inspect`, `Zone`,
`Concurrent`, `Parallel` and the element intervals (never filled by this pass) are left out.
`Bound::div_by` panics on the smallest integer divided by −1; here it yields 2^63, and
`divPanics` says when that happens.
-/
namespace Verif.Lang

/-- `Bound` (`abstract_interp.rs` 20–25). -/
inductive Bound where
  | negInf
  | fin (n : Int)
  | posInf
deriving DecidableEq, Repr

/-- `Bound::cmp_bound` (`abstract_interp.rs` 122–132). -/
def Bound.cmp : Bound → Bound → Ordering
  | .negInf, .negInf => .eq
  | .negInf, _ => .lt
  | _, .negInf => .gt
  | .posInf, .posInf => .eq
  | .posInf, _ => .gt
  | _, .posInf => .lt
  | .fin a, .fin b => compare a b

/-- `Bound::min_bound` (`abstract_interp.rs` 134–136). -/
def Bound.min (a b : Bound) : Bound := if a.cmp b == .lt then a else b

/-- `Bound::max_bound` (`abstract_interp.rs` 138–140). -/
def Bound.max (a b : Bound) : Bound := if a.cmp b == .gt then a else b

/-- A 64-bit result, or the infinity on its side. -/
def Bound.wrap (n : Int) : Bound :=
  if narrow n then .fin n else if n > 0 then .posInf else .negInf

/-- `Bound::add` (`abstract_interp.rs` 28–40).  On overflow the code looks at the sign of the left
operand, which for two 64-bit integers is the sign of the sum (`add_overflow`). -/
def Bound.add : Bound → Bound → Bound
  | .fin a, .fin b => .wrap (a + b)
  | .posInf, .negInf | .negInf, .posInf => .negInf
  | .posInf, _ | _, .posInf => .posInf
  | .negInf, _ | _, .negInf => .negInf

/-- `Bound::sub` (`abstract_interp.rs` 42–54). -/
def Bound.sub : Bound → Bound → Bound
  | .fin a, .fin b =>
    if narrow (a - b) then .fin (a - b) else if a > 0 then .posInf else .negInf
  | .posInf, .posInf | .negInf, .negInf => .negInf
  | .posInf, _ | _, .negInf => .posInf
  | .negInf, _ | _, .posInf => .negInf

/-- The closure `positive` of `Bound::mul` (`abstract_interp.rs` 76–80). -/
def Bound.positive : Bound → Bool
  | .posInf => true
  | .negInf => false
  | .fin n => decide (n > 0)

/-- `Bound::mul` (`abstract_interp.rs` 56–86).  On overflow the code compares the signs of the
operands, which gives the sign of the product. -/
def Bound.mul (a b : Bound) : Bound :=
  if a == .fin 0 || b == .fin 0 then .fin 0
  else match a, b with
    | .fin x, .fin y => .wrap (x * y)
    | _, _ => if a.positive == b.positive then .posInf else .negInf

/-- `Bound::div_by` (`abstract_interp.rs` 91–109), without its panic. -/
def Bound.divBy (k : Int) : Bound → Bound
  | .fin a => .fin (a.tdiv k)
  | .negInf => if k > 0 then .negInf else .posInf
  | .posInf => if k > 0 then .posInf else .negInf

/-- When `Bound::div_by` panics (`a / k` of two 64-bit integers overflows). -/
def Bound.divPanics (k : Int) : Bound → Bool
  | .fin a => a == -(2 ^ 63) && k == -1
  | _ => false

/-- `Bound::shr_by` (`abstract_interp.rs` 114–120). -/
def Bound.shrBy (k : Int) : Bound → Bound
  | .fin a => .fin (a >>> k.toNat)
  | b => b

/-- `Interval` (`abstract_interp.rs` 165–169). -/
structure Interval where
  lo : Bound
  hi : Bound
deriving DecidableEq, Repr

namespace Interval

/-- `Interval::exact` (`abstract_interp.rs` 172–174). -/
def exact (n : Int) : Interval := ⟨.fin n, .fin n⟩

/-- `Interval::top` (`abstract_interp.rs` 176–178). -/
def top : Interval := ⟨.negInf, .posInf⟩

/-- `Interval::non_negative` (`abstract_interp.rs` 180–182). -/
def nonNegative : Interval := ⟨.fin 0, .posInf⟩

/-- `Interval::is_exact` (`abstract_interp.rs` 184–189). -/
def isExact (i : Interval) : Option Int :=
  match i.lo, i.hi with
  | .fin a, .fin b => if a = b then some a else none
  | _, _ => none

/-- `Interval::is_bottom` (`abstract_interp.rs` 197–199). -/
def isBottom (i : Interval) : Bool := i.lo.cmp i.hi == .gt

/-- `Interval::join` (`abstract_interp.rs` 201–208). -/
def join (i j : Interval) : Interval :=
  if i.isBottom then j else if j.isBottom then i else ⟨.min i.lo j.lo, .max i.hi j.hi⟩

/-- `Interval::add` (`abstract_interp.rs` 266–271). -/
def add (i j : Interval) : Interval := ⟨i.lo.add j.lo, i.hi.add j.hi⟩

/-- `Interval::sub` (`abstract_interp.rs` 273–278), over the subtraction `sb` of bounds. -/
def sub (sb : Bound → Bound → Bound) (i j : Interval) : Interval := ⟨sb i.lo j.hi, sb i.hi j.lo⟩

/-- `Interval::mul` (`abstract_interp.rs` 280–298). -/
def mul (i j : Interval) : Interval :=
  let c0 := i.lo.mul j.lo
  let c1 := i.lo.mul j.hi
  let c2 := i.hi.mul j.lo
  let c3 := i.hi.mul j.hi
  ⟨.min (.min (.min c0 c1) c2) c3, .max (.max (.max c0 c1) c2) c3⟩

/-- `i64::wrapping_div`: only the smallest integer by −1 wraps. -/
def wrapDiv (a b : Int) : Int := if a = -(2 ^ 63) ∧ b = -1 then a else a.tdiv b

/-- `Interval::div` (`abstract_interp.rs` 300–321). -/
def div (i j : Interval) : Interval :=
  match j.isExact with
  | none => top
  | some k =>
    if k = 0 then top
    else match i.isExact with
      | some a => exact (wrapDiv a k)
      | none => if k > 0 then ⟨i.lo.divBy k, i.hi.divBy k⟩ else ⟨i.hi.divBy k, i.lo.divBy k⟩

/-- The lower bound is a number and not negative. -/
def nonneg (i : Interval) : Bool :=
  match i.lo with
  | .fin v => decide (v ≥ 0)
  | _ => false

/-- The upper bound is a number and not positive. -/
def nonpos (i : Interval) : Bool :=
  match i.hi with
  | .fin v => decide (v ≤ 0)
  | _ => false

/-- `k.checked_abs().unwrap_or(i64::MAX).saturating_sub(1).max(0)`. -/
def modBound (k : Int) : Int := max ((if k = -(2 ^ 63) then 2 ^ 63 - 1 else k.natAbs) - 1) 0

/-- `Interval::modulo` (`abstract_interp.rs` 323–363). -/
def modulo (i j : Interval) : Interval :=
  let open' : Interval :=
    if i.nonneg then nonNegative else if i.nonpos then ⟨.negInf, .fin 0⟩ else top
  match j.isExact with
  | none => open'
  | some k =>
    if k = 0 then open'
    else match i.isExact with
      | some a => exact (a.tmod k)
      | none => ⟨if i.nonneg then .fin 0 else .fin (-modBound k),
          if i.nonpos then .fin 0 else .fin (modBound k)⟩

/-- `Interval::shr` (`abstract_interp.rs` 371–379). -/
def shr (i j : Interval) : Interval :=
  match j.isExact with
  | some k => if 0 ≤ k ∧ k < 64 then ⟨i.lo.shrBy k, i.hi.shrBy k⟩ else top
  | none => top

/-- `definitely_gt` (`abstract_interp.rs` 381–389). -/
def defGt (i j : Interval) : Option Bool :=
  if i.lo.cmp j.hi == .gt then some true
  else if i.hi.cmp j.lo != .gt then some false else none

/-- `definitely_lt` (`abstract_interp.rs` 391–399). -/
def defLt (i j : Interval) : Option Bool :=
  if i.hi.cmp j.lo == .lt then some true
  else if i.lo.cmp j.hi != .lt then some false else none

/-- `definitely_gteq` (`abstract_interp.rs` 401–409). -/
def defGe (i j : Interval) : Option Bool :=
  if i.lo.cmp j.hi != .lt then some true
  else if i.hi.cmp j.lo == .lt then some false else none

/-- `definitely_lteq` (`abstract_interp.rs` 411–419). -/
def defLe (i j : Interval) : Option Bool :=
  if i.hi.cmp j.lo != .gt then some true
  else if i.lo.cmp j.hi == .gt then some false else none

/-- `definitely_eq` (`abstract_interp.rs` 421–426). -/
def defEq (i j : Interval) : Option Bool :=
  match i.isExact, j.isExact with
  | some a, some b => some (a == b)
  | _, _ => none

/-- `definitely_neq` (`abstract_interp.rs` 428–438). -/
def defNe (i j : Interval) : Option Bool :=
  if i.hi.cmp j.lo == .lt || i.lo.cmp j.hi == .gt then some true
  else match i.isExact, j.isExact with
    | some a, some b => some (a != b)
    | _, _ => none

end Interval

/-- A map from names to intervals. -/
abbrev IMap := Sym → Option Interval

/-- `HashMap::insert`, or a removal. -/
def IMap.put (m : IMap) (x : Sym) (i : Option Interval) : IMap := fun y => if y = x then i else m y

/-- `AbstractState` (`abstract_interp.rs` 1072–1081). -/
structure AState where
  vars : IMap := fun _ => none
  lens : IMap := fun _ => none

/-- `get_var` (`abstract_interp.rs` 1092–1094). -/
def IMap.range (m : IMap) (x : Sym) : Interval := (m x).getD .top

/-- `get_length` (`abstract_interp.rs` 1100–1102). -/
def IMap.len (m : IMap) (x : Sym) : Interval := (m x).getD .nonNegative

/-- `set_var` (`abstract_interp.rs` 1096–1098). -/
def AState.setVar (A : AState) (x : Sym) (i : Interval) : AState :=
  { A with vars := A.vars.put x (some i) }

/-- `set_length` (`abstract_interp.rs` 1104–1106). -/
def AState.setLen (A : AState) (x : Sym) (i : Interval) : AState :=
  { A with lens := A.lens.put x (some i) }

/-- The interval of an operator (`abstract_interp.rs` 1140–1155). -/
def opRange (sb : Bound → Bound → Bound) (op : BinOp) (i j : Interval) : Interval :=
  match op with
  | .add => i.add j
  | .sub => i.sub sb j
  | .mul => i.mul j
  | .div => i.div j
  | .mod => i.modulo j
  | .shr => i.shr j
  | _ => .top

/-- `eval_expr` (`abstract_interp.rs` 1131–1176). -/
def rangeE (sb : Bound → Bound → Bound) (A : AState) : Expr → Interval
  | .lit (.num n) => .exact n
  | .var x => A.vars.range x
  | .bin op a b => opRange sb op (rangeE sb A a) (rangeE sb A b)
  | .length (.var x) => A.lens.len x
  | .length _ => .nonNegative
  | _ => .top

/-- The comparisons of `eval_condition` (`abstract_interp.rs` 1184–1192). -/
def decideOp (op : BinOp) (i j : Interval) : Option Bool :=
  match op with
  | .gt => i.defGt j
  | .lt => i.defLt j
  | .ge => i.defGe j
  | .le => i.defLe j
  | .eq => i.defEq j
  | .ne => i.defNe j
  | _ => none

/-- `eval_condition` (`abstract_interp.rs` 1178–1197). -/
def decideE (sb : Bound → Bound → Bound) (A : AState) : Expr → Option Bool
  | .lit (.bool b) => some b
  | .bin op a b => decideOp op (rangeE sb A a) (rangeE sb A b)
  | .not e => (decideE sb A e).map (!·)
  | _ => none

/-- The lower bound raised to `n` when `n` is a 64-bit integer (`checked_add`). -/
def Interval.raise (i : Interval) (n : Int) : Interval :=
  if narrow n then ⟨.max i.lo (.fin n), i.hi⟩ else i

/-- The upper bound lowered to `n` when `n` is a 64-bit integer (`checked_sub`). -/
def Interval.lower (i : Interval) (n : Int) : Interval :=
  if narrow n then ⟨i.lo, .min i.hi (.fin n)⟩ else i

/-- What `x op n` says of the interval of `x` when it holds (`narrow_state`,
`abstract_interp.rs` 1199–1255). -/
def narrowBy (op : BinOp) (n : Int) (i : Interval) : Interval :=
  match op with
  | .gt => i.raise (n + 1)
  | .lt => i.lower (n - 1)
  | .ge => i.raise n
  | .le => i.lower n
  | _ => i

/-- What it says when it does not hold (`narrow_state_negated`, `abstract_interp.rs`
1257–1313). -/
def narrowNot (op : BinOp) (n : Int) (i : Interval) : Interval :=
  match op with
  | .gt => i.lower n
  | .lt => i.raise n
  | .ge => i.lower (n - 1)
  | .le => i.raise (n + 1)
  | _ => i

/-- One of `<`, `≤`, `>`, `≥`. -/
def isOrder : BinOp → Bool
  | .lt | .gt | .le | .ge => true
  | _ => false

/-- `extract_bounded_var` (`abstract_interp.rs` 1589–1600). -/
def boundedVar : Expr → Option Sym
  | .bin op (.var x) _ => if isOrder op then some x else none
  | _ => none

/-- Narrow the variable on the left of a comparison whose right side is an exact number. -/
def narrowWith (f : BinOp → Int → Interval → Interval) (sb : Bound → Bound → Bound) (c : Expr)
    (A : AState) : AState :=
  match c with
  | .bin op (.var x) r =>
    if isOrder op then
      match (rangeE sb A r).isExact with
      | some n => A.setVar x (f op n (A.vars.range x))
      | none => A
    else A
  | _ => A

/-- `join_states` (`abstract_interp.rs` 1529–1559) on one map. -/
def IMap.join (out a b : IMap) (dflt : Interval) : IMap := fun x =>
  if (a x).isNone && (b x).isNone then out x
  else some (((a x).getD dflt).join ((b x).getD dflt))

/-- `join_states` (`abstract_interp.rs` 1529–1559). -/
def joinStates (out a b : AState) : AState :=
  ⟨out.vars.join a.vars b.vars .top, out.lens.join a.lens b.lens .nonNegative⟩

/-- Set variables to the whole range (the loops over `loop_writes`). -/
def AState.widen (A : AState) (xs : List Sym) : AState := xs.foldl (fun A x => A.setVar x .top) A

/-- The value is a newly created collection. -/
def isNew (nw : Sym) : Expr → Bool
  | .call f _ => f == nw
  | _ => false

/-- The effect of `Let` on the state (`abstract_interp.rs` 1334–1341). -/
def letState (sb : Bound → Bound → Bound) (nw x : Sym) (e : Expr) (A : AState) : AState :=
  let A' := A.setVar x (rangeE sb A e)
  if isNew nw e then A'.setLen x (.exact 0) else A'

mutual
/-- One statement of `interp_block` (`abstract_interp.rs` 1332–1512): the new statement and the
state after it.  The names written in a loop (`collect_writes`, 1561–1587) are those of
`setsSs`. -/
def ivS (nw : Sym) : Stmt → AState → Stmt × AState
  | .letS x b m e, A => (.letS x b m e, letState .sub nw x e A)
  | .set x e, A => (.set x e, A.setVar x (rangeE .sub A e))
  | .push x e, A => (.push x e, A.setLen x ((A.lens.len x).add (.exact 1)))
  | .ifS c t e, A =>
    match decideE .sub A c with
    | some true =>
      let r := ivSs nw t (narrowWith narrowBy .sub c A)
      (.ifS (.lit (.bool true)) r.1 [], r.2)
    | some false =>
      if e.isEmpty then (.ifS (.lit (.bool false)) [] [], A)
      else
        let r := ivSs nw e (narrowWith narrowNot .sub c A)
        (.ifS (.lit (.bool false)) [] r.1, r.2)
    | none =>
      let r := ivSs nw t (narrowWith narrowBy .sub c A)
      if e.isEmpty then (.ifS c r.1 [], joinStates A r.2 A)
      else
        let r' := ivSs nw e (narrowWith narrowNot .sub c A)
        (.ifS c r.1 r'.1, joinStates A r.2 r'.2)
  | .whileS c b, A =>
    let r := ivSs nw b (narrowWith narrowBy .sub c (A.widen (setsSs b)))
    (.whileS c r.1, (narrowWith narrowNot .sub c A).widen
      ((setsSs b).filter fun w => some w != boundedVar c))
  | .repeatS x e b, A =>
    let r := ivSs nw b ((A.setVar x .top).widen (setsSs b))
    (.repeatS x e r.1, A.widen (setsSs b))
  | .funDef f ps b, A => (.funDef f ps (ivSs nw b {}).1, A)
  | st, A => (st, A)

/-- `interp_block` and `interp_nested_block` (`abstract_interp.rs` 1324–1527). -/
def ivSs (nw : Sym) : List Stmt → AState → List Stmt × AState
  | [], A => ([], A)
  | st :: ss, A =>
    let r := ivS nw st A
    let r' := ivSs nw ss r.2
    (r.1 :: r'.1, r'.2)
end

/-- `abstract_interp_stmts` (`abstract_interp.rs` 1315–1322). -/
def intervalProgram (nw : Sym) (p : List Stmt) : List Stmt := (ivSs nw p {}).1

end Verif.Lang
