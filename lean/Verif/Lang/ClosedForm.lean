import Verif.Lang.Interp
/-!
# Closed forms of loops and recursions

`/repo/crates/logicaffeine_compile/src/optimize/closed_form.rs`.

Simplifications: an absent `else` block is an empty one; functions are neither native nor generic; which functions take one
`Int` and return an `Int` is a parameter (`Lang/Syntax.lean` keeps no types); the name `__defer_stop` is a parameter; the
marks that let the code generator leave out overflow checks are not modelled.
-/
namespace Verif.Lang.CF

/-- `AccumPattern` (`closed_form.rs` 12-17). -/
inductive Accum where
  | sumOfCounter | count | mulByTwo
deriving DecidableEq, Repr

/-- `mk_int` (`closed_form.rs` 157-159). -/
def int (n : Int) : Expr := .lit (.num n)

/-- The assignments of a body (`closed_form.rs` 26). -/
def sets : List Stmt → List (Sym × Expr)
  | [] => []
  | .set x e :: rest => (x, e) :: sets rest
  | _ :: rest => sets rest

/-- `Set` or `Let` (`closed_form.rs` 31-36). -/
def setOrLet : Stmt → Bool
  | .set .. | .letS .. => true
  | _ => false

/-- The counter: the left side of the condition (`closed_form.rs` 39-44, 247-253). -/
def condCounter : Expr → Option Sym
  | .bin _ (.var x) _ => some x
  | _ => none

/-- `is_counter_plus_one` (`closed_form.rs` 53-62, 226-233). -/
def isPlusOne : Expr → Sym → Bool
  | .bin .add (.var y) (.lit (.num n)), x => y == x && n == 1
  | _, _ => false

/-- The kind of accumulation (`closed_form.rs` 74-112). -/
def patternOf (acc : Sym) (value : Expr) (counter : Sym) : Option Accum :=
  match value with
  | .bin .add (.var l) (.var r) => if l = acc ∧ r = counter then some .sumOfCounter else none
  | .bin .add (.var l) (.lit (.num n)) => if l = acc ∧ n = 1 then some .count else none
  | .bin .mul (.var l) (.lit (.num n)) => if l = acc ∧ n = 2 then some .mulByTwo else none
  | .bin .mul (.lit (.num n)) (.var r) => if r = acc ∧ n = 2 then some .mulByTwo else none
  | .bin .shl (.var l) (.lit (.num n)) => if l = acc ∧ n = 1 then some .mulByTwo else none
  | _ => none

/-- `Candidate` (`closed_form.rs` 19-23). -/
structure Candidate where
  accum : Sym
  counter : Sym
  pattern : Accum

/-- `try_extract_candidate` (`closed_form.rs` 25-117). -/
def candidate (body : List Stmt) (cond : Expr) : Option Candidate :=
  let ss := sets body
  if ss.length ≠ 2 then none
  else if body.all setOrLet = false then none
  else match condCounter cond with
    | none => none
    | some k =>
      if ss.any (fun p => p.1 == k && !isPlusOne p.2 k) then none
      else if ss.any (fun p => p.1 == k) = false then none
      else match (ss.filter (fun p => p.1 != k)).getLast? with
        | none => none
        | some (acc, v) => (patternOf acc v k).map fun pat => ⟨acc, k, pat⟩

/-- `extract_while_limit` (`closed_form.rs` 119-135): the limit and whether it is included. -/
def whileLimit (cond : Expr) (counter : Sym) : Option (Expr × Bool) :=
  match cond with
  | .bin .lt (.var x) r => if x = counter then some (r, false) else none
  | .bin .le (.var x) r => if x = counter then some (r, true) else none
  | _ => none

/-- A number written out. -/
def number : Expr → Option Int
  | .lit (.num n) => some n
  | _ => none

/-- The loop of `find_init_value`, over the statements last first. -/
def initIn : List Stmt → Sym → Option Int
  | [], _ => none
  | .letS y _ _ e :: rest, x => if y = x then number e else initIn rest x
  | .set y e :: rest, x => if y = x then number e else initIn rest x
  | .ifS .. :: _, _ | .whileS .. :: _, _ | .repeatS .. :: _, _ | .callS .. :: _, _ => none
  | _ :: rest, x => initIn rest x

/-- `find_init_value` (`closed_form.rs` 137-155). -/
def findInit (stmts : List Stmt) (x : Sym) : Option Int := initIn stmts.reverse x

/-- The number of rounds, as an expression (`closed_form.rs` 178-186, 552-561). -/
def countExpr (start : Int) (lim : Expr) (incl : Bool) : Expr :=
  if incl then .bin .add (.bin .sub lim (int start)) (int 1) else .bin .sub lim (int start)

/-- Add to an initial value unless it is 0 (`closed_form.rs` 187-189, 216-218). -/
def plusInit (init : Int) (e : Expr) : Expr := if init = 0 then e else .bin .add (int init) e

/-- The sum of the counter (`closed_form.rs` 197-214). -/
def gaussExpr (start : Int) (lim : Expr) (incl : Bool) : Expr :=
  let eff : Expr := if incl then lim else .bin .sub lim (int 1)
  let top : Expr := .bin .div (.bin .mul eff (.bin .add eff (int 1))) (int 2)
  if start ≤ 1 then top
  else .bin .sub top (.bin .div (.bin .mul (int (start - 1)) (int start)) (int 2))

/-- The largest count for which `init << count` fits (`closed_form.rs` 503-509). -/
def shiftMax (init : Int) : Int :=
  ((List.range 63).takeWhile fun k => decide (init * 2 ^ k ≤ 2 ^ 63 - 1)).length - 1

/-- The counter after the loop (`closed_form.rs` 524-528, 568-572, 608-612). -/
def counterFinal (lim : Expr) (incl : Bool) : Expr := if incl then .bin .add lim (int 1) else lim

/-- The test that the loop runs at all (`closed_form.rs` 519-523, 594-606). -/
def runsAtAll (start : Int) (lim : Expr) (incl : Bool) : Expr := .bin (if incl then .ge else .gt) lim (int start)

/-- The two assignments behind a test (`closed_form.rs` 529-537, 614-625). -/
def guarded (c : Candidate) (start : Int) (lim : Expr) (incl : Bool) (value : Expr) : List Stmt :=
  [.ifS (runsAtAll start lim incl) [.set c.accum value, .set c.counter (counterFinal lim incl)] []]

/-- The doubling loop (`closed_form.rs` 498-588). -/
def doubling (cond : Expr) (body : List Stmt) (c : Candidate) (init start : Int) (lim : Expr) (incl : Bool) : Option (List Stmt) :=
  if init < 0 then none
  else if shiftMax init < 0 then none
  else match lim with
    | .lit (.num l) =>
      let count := l - start + if incl then 1 else 0
      if 0 ≤ count ∧ count ≤ shiftMax init then some (guarded c start lim incl (int (init * 2 ^ count.toNat))) else none
    | .var _ =>
      let vMax := shiftMax init + start - if incl then 1 else 0
      if narrow (shiftMax init + start) && narrow vMax then
        some [.ifS (.bin .and (.bin .ge lim (int start)) (.bin .le lim (int vMax)))
          [.set c.accum (.bin .shl (int init) (countExpr start lim incl)), .set c.counter (counterFinal lim incl)]
          [.whileS cond body]]
      else none
    | _ => none

/-- `try_replace_with_closed_form` (`closed_form.rs` 476-628) and `build_formula` (`closed_form.rs` 170-223). -/
def closeLoop (cond : Expr) (body before : List Stmt) : Option (List Stmt) :=
  match candidate body cond with
  | none => none
  | some c =>
    match whileLimit cond c.counter, findInit before c.accum, findInit before c.counter with
    | some (lim, incl), some init, some start =>
      match c.pattern with
      | .mulByTwo => if start < 0 then none else doubling cond body c init start lim incl
      | .count => if start < 1 then none else some (guarded c start lim incl (plusInit init (countExpr start lim incl)))
      | .sumOfCounter => if start < 1 then none else some (guarded c start lim incl (plusInit init (gaussExpr start lim incl)))
    | _, _, _ => none

/-- The sum taken modulo a number: the accumulator and the modulus (`closed_form.rs` 281-304). -/
def modSum (acc counter : Sym) : Expr → Option Int
  | .bin .mod (.bin .add (.var l) (.var r)) (.lit (.num p)) => if 1 ≤ p ∧ l = acc ∧ r = counter then some p else none
  | _ => none

/-- The accumulator and its value in a body of two assignments, one of which counts (`closed_form.rs` 256-279). -/
def deferBody (body : List Stmt) (counter : Sym) : Option (Sym × Expr) :=
  match body with
  | [.set x e, .set y f] =>
    if x = counter then
      if y = counter then none else if isPlusOne e counter then some (y, f) else none
    else if y = counter then if isPlusOne f counter then some (x, e) else none
    else none
  | _ => none

/-- The loops `try_defer_modulus` builds (`closed_form.rs` 315-402), 16 rounds between two reductions. -/
def deferred (stop : Sym) (cond : Expr) (acc counter : Sym) (value : Expr) (p : Int) (lim : Expr) (incl : Bool) : List Stmt :=
  let inc : Expr := .bin .add (.var counter) (int 1)
  let sum : Expr := .bin .add (.var acc) (.var counter)
  let inner : Stmt := .whileS (.bin .lt (.var counter) (.var stop)) [.set acc sum, .set counter inc]
  let chunk : List Stmt :=
    [.letS stop false false (.bin .add (.var counter) (int 16)), inner, .set acc (.bin .mod (.var acc) (int p))]
  let chunks : Stmt := .whileS (.bin (if incl then .le else .lt) (.var counter) (.bin .sub lim (int 15))) chunk
  [.ifS (.bin .and (.bin .ge lim (int (-(2 ^ 63) + 16))) (.bin .le lim (int ((2 ^ 63 - 1 - (p - 1)) / 16))))
    [chunks, .whileS cond [.set acc (.bin .mod sum (int p)), .set counter inc]]
    [.whileS cond [.set acc value, .set counter inc]]]

/-- `try_defer_modulus` (`closed_form.rs` 243-403). -/
def deferMod (stop : Sym) (cond : Expr) (body before : List Stmt) : Option (List Stmt) :=
  match condCounter cond with
  | none => none
  | some counter =>
    match whileLimit cond counter, deferBody body counter with
    | some (lim, incl), some (acc, value) =>
      match modSum acc counter value, findInit before acc, findInit before counter with
      | some p, some a, some c => if a < 0 ∨ c < 0 then none else some (deferred stop cond acc counter value p lim incl)
      | _, _, _ => none
    | _, _ => none

mutual
/-- One statement of `closed_form_block` (`closed_form.rs` 422-471), `done` being what the block has become so far. -/
def closeStmt (stop : Sym) (done : List Stmt) : Stmt → List Stmt
  | .whileS c b =>
    match closeLoop c b done with
    | some r => r
    | none =>
      match deferMod stop c b done with
      | some r => r
      | none => [.whileS c (closeBlock stop [] b)]
  | .funDef f ps b => [.funDef f ps (closeBlock stop [] b)]
  | .ifS c t e => [.ifS c (closeBlock stop [] t) (closeBlock stop [] e)]
  | s => [s]
/-- `closed_form_block` (`closed_form.rs` 414-474). -/
def closeBlock (stop : Sym) (done : List Stmt) : List Stmt → List Stmt
  | [] => done
  | s :: rest => closeBlock stop (done ++ closeStmt stop done s) rest
end

/-! ## Recursions (`closed_form.rs` 630-921) -/

/-- `SolvedForm` (`closed_form.rs` 635-641). -/
inductive Solved where
  | affine (a b : Int)
  | geo2 (scale t : Int)
deriving DecidableEq, Repr

/-- A 128-bit number, or nothing: the checked arithmetic of the solver. -/
def in128 (n : Int) : Option Int := if -(2 ^ 127) ≤ n ∧ n < 2 ^ 127 then some n else none

/-- `affine_of` (`closed_form.rs` 747-769). -/
def affineOf : Expr → Sym → Option (Int × Int)
  | .var x, p => if x = p then some (1, 0) else none
  | .lit (.num k), _ => some (0, k)
  | .bin op l r, p =>
    match affineOf l p, affineOf r p with
    | some (a1, b1), some (a2, b2) =>
      match op with
      | .add => do return (← in128 (a1 + a2), ← in128 (b1 + b2))
      | .sub => do return (← in128 (a1 - a2), ← in128 (b1 - b2))
      | .mul =>
        if a1 = 0 then do return (← in128 (b1 * a2), ← in128 (b1 * b2))
        else if a2 = 0 then do return (← in128 (a1 * b2), ← in128 (b1 * b2))
        else none
      | _ => none
    | _, _ => none
  | _, _ => none

/-- `direct_affine_form` (`closed_form.rs` 736-744). -/
def directForm (body : List Stmt) (p : Sym) : Option Solved :=
  match body with
  | [.ret (some e)] => (affineOf e p).map fun (a, b) => .affine a b
  | _ => none

/-- `is_eq_zero` (`closed_form.rs` 790-800). -/
def isEqZero (c : Expr) (p : Sym) : Bool :=
  match c with
  | .bin .eq (.var x) (.lit (.num n)) => x == p && n == 0
  | .bin .eq (.lit (.num n)) (.var x) => x == p && n == 0
  | _ => false

/-- `base_and_wrap` (`closed_form.rs` 772-788). -/
def baseAndWrap (body : List Stmt) (p : Sym) : Option (Int × Expr) :=
  match body with
  | [.ifS c [.ret (some (.lit (.num k)))] [], .ret (some wrap)] => if isEqZero c p then some (k, wrap) else none
  | _ => none

/-- `is_self_dec_call` (`closed_form.rs` 803-811). -/
def isSelfDec (e : Expr) (self p : Sym) : Bool :=
  match e with
  | .call f [.bin .sub (.var x) (.lit (.num n))] => f == self && x == p && n == 1
  | _ => false

/-- The solved functions (`HashMap<Symbol, SolvedForm>`). -/
abbrev Table := List (Sym × Solved)

/-- `HashMap::get`. -/
def Table.get (t : Table) (f : Sym) : Option Solved := (t.find? (·.1 == f)).map Prod.snd

/-- `wrap_as_affine_of_self` (`closed_form.rs` 815-832). -/
def wrapForm (wrap : Expr) (self p : Sym) (t : Table) : Option (Int × Int) :=
  if isSelfDec wrap self p then some (1, 0)
  else match wrap with
    | .call g [a] =>
      if isSelfDec a self p then
        match t.get g with
        | some (.affine a b) => some (a, b)
        | _ => none
      else none
    | _ => none

/-- `recursive_solved_form` (`closed_form.rs` 836-849). -/
def recursiveForm (body : List Stmt) (self p : Sym) (t : Table) : Option Solved :=
  match baseAndWrap body p with
  | none => none
  | some (c0, wrap) =>
    match wrapForm wrap self p t with
    | some (pc, q) =>
      if pc = 1 then some (.affine q c0)
      else if pc = 2 then (in128 (c0 + q)).map fun s => .geo2 s q
      else none
    | none => none

/-- One function looked at by the fixpoint (`closed_form.rs` 674-693). -/
def solveOne (isInt : Sym → Bool) (t : Table) : Stmt → Table
  | .funDef f [(p, _)] body =>
    if (t.get f).isSome || !isInt f then t
    else match (directForm body p).or (recursiveForm body f p t) with
      | some form => t ++ [(f, form)]
      | none => t
  | _ => t

/-- The fixpoint (`closed_form.rs` 669-698).  Every round but the last solves a function, so as many rounds as statements do. -/
def solveAll (isInt : Sym → Bool) (prog : List Stmt) : Table :=
  (List.range (prog.length + 1)).foldl (fun t _ => prog.foldl (solveOne isInt) t) []

/-- The largest argument whose power of two fits (`closed_form.rs` 887-895). -/
def geoMax (scale : Int) : Int := shiftMax scale

/-- The bound and the formula (`closed_form.rs` 861-911). -/
def formula (form : Solved) (p : Sym) : Option (Int × Expr) :=
  match form with
  | .affine a b =>
    if a ≤ 0 ∨ b < 0 ∨ a > 2 ^ 63 - 1 ∨ b > 2 ^ 63 - 1 then none
    else
      let scaled : Expr := if a = 1 then .var p else .bin .mul (int a) (.var p)
      some ((2 ^ 63 - 1 - b) / a, if b = 0 then scaled else .bin .add scaled (int b))
  | .geo2 s t =>
    if s ≤ 0 ∨ t < 0 ∨ s > 2 ^ 63 - 1 ∨ t > 2 ^ 63 - 1 then none
    else if geoMax s < 0 then none
    else
      let shl : Expr := .bin .shl (int s) (.var p)
      some (geoMax s, if t = 0 then shl else .bin .sub shl (int t))

/-- `guarded_closed_body` (`closed_form.rs` 853-921). -/
def guardedBody (form : Solved) (p : Sym) (original : List Stmt) : Option (List Stmt) :=
  match formula form p with
  | none => none
  | some (nSafe, e) =>
    if nSafe < 0 then none
    else some (.ifS (.bin .and (.bin .ge (.var p) (int 0)) (.bin .le (.var p) (int (min nSafe (2 ^ 63 - 1))))) [.ret (some e)] [] :: original)

/-- The rewriting of one function (`closed_form.rs` 704-731). -/
def solveFun (t : Table) : Stmt → Stmt
  | .funDef f [(p, b)] body =>
    match (t.get f).bind fun form => if (baseAndWrap body p).isSome then guardedBody form p body else none with
    | some body' => .funDef f [(p, b)] body'
    | none => .funDef f [(p, b)] body
  | s => s

/-- `solve_affine_recursions` (`closed_form.rs` 659-733). -/
def solveRecursions (isInt : Sym → Bool) (prog : List Stmt) : List Stmt := prog.map (solveFun (solveAll isInt prog))

/-- `closed_form_stmts` (`closed_form.rs` 401-412). -/
def closedForm (isInt : Sym → Bool) (stop : Sym) (prog : List Stmt) : List Stmt :=
  closeBlock stop [] (solveRecursions isInt prog)

end Verif.Lang.CF
