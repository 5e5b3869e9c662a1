import Verif.Lang.Syntax

/-!
# The tree-walking interpreter

`crates/logicaffeine_compile/src/interpreter.rs` (the synchronous path, 4134–5780) and the shared
operator semantics `crates/logicaffeine_compile/src/semantics/arith.rs` and `compare.rs`.

Loops and calls are bounded by fuel: a run that needs more ends in `Err.fuel`.  Simplifications:
a self tail call is an ordinary call; the limit on the call depth is the fuel; after an error the
scopes are not unwound (only the output remains observable).
-/
namespace Verif.Lang

/-- The operations left abstract: 64-bit floats, display, lengths, indexing, iteration, builtin
functions, and the operators `**`, exact division and `is approximately`.  They are functions of
their arguments; every theorem holds for whatever they are. -/
structure Prims where
  /-- `f64` addition, subtraction, multiplication, division, and `(a / b).floor()`. -/
  fadd : Nat → Nat → Nat
  fsub : Nat → Nat → Nat
  fmul : Nat → Nat → Nat
  fdiv : Nat → Nat → Nat
  ffloor : Nat → Nat → Nat
  /-- `f64::partial_cmp`. -/
  fcmp : Nat → Nat → Option Ordering
  /-- the literals `0.0` and `1.0`. -/
  f0 : Nat
  f1 : Nat
  /-- integer to float, and exact comparison of an integer with a float. -/
  ofInt : Int → Nat
  cmpIF : Int → Nat → Option Ordering
  /-- `values_equal` on lists. -/
  listEq : List Value → List Value → Bool
  /-- `to_display_string` of everything but text. -/
  display : Value → Text
  other : BinOp → Value → Value → Except Err Value
  index : Value → Value → Except Err Value
  length : Value → Except Err Value
  items : Value → Except Err (List Value)
  builtin : Sym → Option (List Value → Except Err Value)

/-- The value fits a 64-bit `Int`; a larger one is a `BigInt`. -/
def narrow (n : Int) : Bool := decide (-(2 ^ 63) ≤ n ∧ n < 2 ^ 63)

/-- 64-bit `&`, `|`, `^`, `<<` and arithmetic `>>`. -/
def band (a b : Int) : Int := (BitVec.ofInt 64 a &&& BitVec.ofInt 64 b).toInt
/-- 64-bit `|`. -/
def bor (a b : Int) : Int := (BitVec.ofInt 64 a ||| BitVec.ofInt 64 b).toInt
/-- 64-bit `^`. -/
def bxor (a b : Int) : Int := (BitVec.ofInt 64 a ^^^ BitVec.ofInt 64 b).toInt
/-- `wrapping_shl(b as u32)`: the count is taken modulo 64. -/
def bshl (a b : Int) : Int := (BitVec.ofInt 64 a <<< (b % 64).toNat).toInt
/-- `wrapping_shr(b as u32)`. -/
def bshr (a b : Int) : Int := ((BitVec.ofInt 64 a).sshiftRight (b % 64).toNat).toInt

/-- `to_display_string` (`interpreter.rs` 1349); text displays as itself. -/
def disp (P : Prims) : Value → Text
  | .text t => t
  | v => P.display v

/-- `evaluate_literal` (`interpreter.rs` 3588–3603). -/
def litVal : Lit → Value
  | .num n => .int n
  | .flt f => .flt f
  | .text t => .text t
  | .bool b => .bool b
  | .nothing => .nothing

/-- `is_truthy` (`interpreter.rs` 1325–1342). -/
def truthy (P : Prims) : Value → Bool
  | .bool b => b
  | .int n => n != 0
  | .flt f => P.fcmp f P.f0 != some .eq
  | .text t => !t.isEmpty
  | .list xs => !xs.isEmpty
  | .nothing => false
  | .clo _ => true

/-- `values_equal` (`compare.rs` 23–140). -/
def valEq (P : Prims) : Value → Value → Bool
  | .int a, .int b => a == b
  | .flt a, .flt b => P.fcmp a b == some .eq
  | .int a, .flt b => P.cmpIF a b == some .eq
  | .flt b, .int a => P.cmpIF a b == some .eq
  | .bool a, .bool b => a == b
  | .text a, .text b => a == b
  | .nothing, .nothing => true
  | .list a, .list b => P.listEq a b
  | .clo i, .clo j => i == j
  | _, _ => false

/-- The closure `rel` of `compare` (`compare.rs` 160–171). -/
def relOf (op : BinOp) : Option Ordering → Bool
  | none => false
  | some o =>
    match op with
    | .lt => o == .lt
    | .gt => o == .gt
    | .le => o != .gt
    | .ge => o != .lt
    | _ => false

/-- `compare` (`compare.rs` 150–330). -/
def cmpVals (P : Prims) (op : BinOp) : Value → Value → Except Err Value
  | .int a, .int b => .ok (.bool (relOf op (some (compare a b))))
  | .flt a, .flt b => .ok (.bool (relOf op (P.fcmp a b)))
  | .int a, .flt b => .ok (.bool (relOf op (P.cmpIF a b)))
  | .flt a, .int b => .ok (.bool (relOf op ((P.cmpIF b a).map Ordering.swap)))
  | _, _ => .error .type

/-- `add` (`arith.rs` 415–509). -/
def addVals (P : Prims) : Value → Value → Except Err Value
  | .int a, .int b => .ok (.int (a + b))
  | .flt a, .flt b => .ok (.flt (P.fadd a b))
  | .int a, .flt b => .ok (.flt (P.fadd (P.ofInt a) b))
  | .flt a, .int b => .ok (.flt (P.fadd a (P.ofInt b)))
  | .text a, v => .ok (.text (a ++ disp P v))
  | v, .text b => .ok (.text (disp P v ++ b))
  | .list a, .list b => .ok (.list (a ++ b))
  | _, _ => .error .type

/-- `subtract` (`arith.rs` 613–692). -/
def subVals (P : Prims) : Value → Value → Except Err Value
  | .int a, .int b => .ok (.int (a - b))
  | .flt a, .flt b => .ok (.flt (P.fsub a b))
  | .int a, .flt b => .ok (.flt (P.fsub (P.ofInt a) b))
  | .flt a, .int b => .ok (.flt (P.fsub a (P.ofInt b)))
  | _, _ => .error .type

/-- `xs * n`: the elements repeated (`arith.rs` 797–812); a `BigInt` count is a type error. -/
def repeatVals (xs : List Value) (n : Int) : Except Err Value :=
  if narrow n then .ok (.list (List.replicate n.toNat xs).flatten) else .error .type

/-- `multiply` (`arith.rs` 745–819). -/
def mulVals (P : Prims) : Value → Value → Except Err Value
  | .int a, .int b => .ok (.int (a * b))
  | .flt a, .flt b => .ok (.flt (P.fmul a b))
  | .int a, .flt b => .ok (.flt (P.fmul (P.ofInt a) b))
  | .flt a, .int b => .ok (.flt (P.fmul a (P.ofInt b)))
  | .list xs, .int n => repeatVals xs n
  | .int n, .list xs => repeatVals xs n
  | _, _ => .error .type

/-- Float division, refusing a zero divisor (`arith.rs` 883–888). -/
def fdivChecked (P : Prims) (f : Nat → Nat → Nat) (a b : Nat) : Except Err Value :=
  if P.fcmp b P.f0 == some .eq then .error .divZero else .ok (.flt (f a b))

/-- `divide` (`arith.rs` 821–943). -/
def divVals (P : Prims) : Value → Value → Except Err Value
  | .int a, .int b => if b = 0 then .error .divZero else .ok (.int (a.tdiv b))
  | .flt a, .flt b => fdivChecked P P.fdiv a b
  | .int a, .flt b => fdivChecked P P.fdiv (P.ofInt a) b
  | .flt a, .int b => if b = 0 then .error .divZero else .ok (.flt (P.fdiv a (P.ofInt b)))
  | _, _ => .error .type

/-- `floor_divide` (`arith.rs` 956–984). -/
def floorVals (P : Prims) : Value → Value → Except Err Value
  | .int a, .int b => if b = 0 then .error .divZero else .ok (.int (a.fdiv b))
  | .flt a, .flt b => fdivChecked P P.ffloor a b
  | .int a, .flt b => fdivChecked P P.ffloor (P.ofInt a) b
  | .flt a, .int b => fdivChecked P P.ffloor a (P.ofInt b)
  | _, _ => .error .type

/-- `modulo` (`arith.rs` 1002–1029): the sign of the dividend. -/
def modVals : Value → Value → Except Err Value
  | .int a, .int b => if b = 0 then .error .divZero else .ok (.int (a.tmod b))
  | _, _ => .error .type

/-- The bitwise operators on `Int` and `Bool` (`arith.rs` 376–411); a `BigInt` operand is an
error. -/
def bitVals (f : Int → Int → Int) (g : Bool → Bool → Bool) : Value → Value → Except Err Value
  | .int a, .int b => if narrow a && narrow b then .ok (.int (f a b)) else .error .type
  | .bool a, .bool b => .ok (.bool (g a b))
  | _, _ => .error .type

/-- The shifts (`arith.rs` 399–411). -/
def shiftVals (f : Int → Int → Int) : Value → Value → Except Err Value
  | .int a, .int b => if narrow a && narrow b then .ok (.int (f a b)) else .error .type
  | _, _ => .error .type

/-- `seq_concat` (`arith.rs` 601–611). -/
def seqVals : Value → Value → Except Err Value
  | .list a, .list b => .ok (.list (a ++ b))
  | _, _ => .error .type

/-- `binary_op` (`arith.rs` 342–413), for `and`/`or` on two values already computed. -/
def applyOp (P : Prims) (op : BinOp) (a b : Value) : Except Err Value :=
  match op with
  | .add => addVals P a b
  | .sub => subVals P a b
  | .mul => mulVals P a b
  | .div => divVals P a b
  | .floorDiv => floorVals P a b
  | .mod => modVals a b
  | .eq => .ok (.bool (valEq P a b))
  | .ne => .ok (.bool (!valEq P a b))
  | .lt | .gt | .le | .ge => cmpVals P op a b
  | .and => .ok (.bool (truthy P a && truthy P b))
  | .or => .ok (.bool (truthy P a || truthy P b))
  | .concat => .ok (.text (disp P a ++ disp P b))
  | .seqConcat => seqVals a b
  | .bitXor => bitVals bxor (· ^^ ·) a b
  | .bitAnd => bitVals band (· && ·) a b
  | .bitOr => bitVals bor (· || ·) a b
  | .shl => shiftVals bshl a b
  | .shr => shiftVals bshr a b
  | .pow | .exactDiv | .approxEq => P.other op a b

/-- What a call resolves to: a user function or a closure. -/
inductive Target where
  | fn (f : Fun)
  | clo (i : Nat)

/-- The parts of the semantics a specification may vary (the interpreter itself is `plain`
below): how operators act, which values a variable may be read with, and what a call does. -/
structure Inst where
  P : Prims
  ap : BinOp → Value → Value → Except Err Value
  reads : Sym → Value → Bool
  invoke : Target → List Value → State → Res Value

/-- Sequencing: stop at the first error (`?`). -/
def Res.bind {α β : Type} (r : Res α) (k : α → State → Res β) : Res β :=
  match r with
  | (.ok a, s) => k a s
  | (.error e, s) => (.error e, s)

/-- A result that leaves the state alone. -/
def lift {α : Type} (r : Except Err α) (s : State) : Res α := (r, s)

/-- The right operand of `and`/`or`: its truthiness as a `Bool`. -/
def boolOut (P : Prims) (r : Res Value) : Res Value :=
  r.bind fun v s => (.ok (.bool (truthy P v)), s)

/-- `Expr::BinaryOp` (`interpreter.rs` 4778–4801): `and` and `or` short-circuit. -/
def evBin (I : Inst) (op : BinOp) (fa fb : State → Res Value) (s : State) : Res Value :=
  match op with
  | .and => (fa s).bind fun a s' =>
      if truthy I.P a then boolOut I.P (fb s') else (.ok (.bool false), s')
  | .or => (fa s).bind fun a s' =>
      if truthy I.P a then (.ok (.bool true), s') else boolOut I.P (fb s')
  | _ => (fa s).bind fun a s' => (fb s').bind fun b s'' => lift (I.ap op a b) s''

/-- `lookup` (`interpreter.rs` 4035–4038). -/
def evVar (I : Inst) (x : Sym) (s : State) : Res Value :=
  match s.env.lookup x with
  | some v => if I.reads x v then (.ok v, s) else (.error .stuck, s)
  | none => (.error (.unbound x), s)

/-- The closure a name is bound to, if any (`interpreter.rs` 5239–5241). -/
def closureOf (s : State) (f : Sym) : Option Nat :=
  match s.env.lookup f with
  | some (.clo i) => some i
  | _ => none

/-- `call_function_sync` (`interpreter.rs` 5091–5254) over the evaluation `fargs` of the
arguments: a builtin, else a user function (its arity checked first), else a closure held by a
variable of that name. -/
def evCall (I : Inst) (f : Sym) (n : Nat) (fargs : State → Res (List Value)) (s : State) :
    Res Value :=
  match I.P.builtin f with
  | some g => (fargs s).bind fun vs s' => lift (g vs) s'
  | none =>
    match s.funs f with
    | some fd =>
      if n = fd.params.length then (fargs s).bind fun vs s' => I.invoke (.fn fd) vs s'
      else (.error .arity, s)
    | none =>
      match closureOf s f with
      | some i => (fargs s).bind fun vs s' => I.invoke (.clo i) vs s'
      | none => (.error (.unknownFn f), s)

/-- `Expr::CallExpr` (`interpreter.rs` 5048–5060). -/
def evCallv (I : Inst) (v : Value) (fargs : State → Res (List Value)) (s : State) : Res Value :=
  match v with
  | .clo i => (fargs s).bind fun vs s' => I.invoke (.clo i) vs s'
  | _ => (.error .notCallable, s)

/-- `Expr::Closure` (`interpreter.rs` 5021–5046). -/
def evClosure (ps : List Sym) (b : Expr) (s : State) : Res Value :=
  (.ok (.clo s.clos.length),
    { s with clos := s.clos ++ [{ params := ps, captured := s.env.lookup, body := b }] })

mutual
/-- `evaluate_expr_sync` (`interpreter.rs` 4759–5062). -/
def evalE (I : Inst) : Expr → State → Res Value
  | .lit l, s => (.ok (litVal l), s)
  | .var x, s => evVar I x s
  | .bin op a b, s => evBin I op (evalE I a) (evalE I b) s
  | .not a, s => (evalE I a s).bind fun v s' => (.ok (.bool (!truthy I.P v)), s')
  | .call f args, s => evCall I f args.length (evalEs I args) s
  | .callv c args, s => (evalE I c s).bind fun v s' => evCallv I v (evalEs I args) s'
  | .list items, s => (evalEs I items s).bind fun vs s' => (.ok (.list vs), s')
  | .index c i, s => (evalE I c s).bind fun a s' => (evalE I i s').bind fun b s'' =>
      lift (I.P.index a b) s''
  | .length c, s => (evalE I c s).bind fun a s' => lift (I.P.length a) s'
  | .closure ps b, s => evClosure ps b s

/-- Evaluate expressions left to right. -/
def evalEs (I : Inst) : List Expr → State → Res (List Value)
  | [], s => (.ok [], s)
  | e :: es, s => (evalE I e s).bind fun v s' => (evalEs I es s').bind fun vs s'' =>
      (.ok (v :: vs), s'')
end

/-- Change the environment. -/
def State.withEnv (s : State) (f : Env → Env) : State := { s with env := f s.env }

/-- `define` of a computed value. -/
def doDefine (x : Sym) (v : Value) (s : State) : Res Flow :=
  (.ok .cont, s.withEnv (·.define x v))

/-- `assign` (`interpreter.rs` 4027–4033). -/
def doAssign (x : Sym) (v : Value) (s : State) : Res Flow :=
  match s.env.assign x v with
  | some e => (.ok .cont, { s with env := e })
  | none => (.error (.unbound x), s)

/-- `Push` to a named list (`interpreter.rs` 4305–4310): the list is copied first when shared, so
pushing is assigning the extended list. -/
def doPush (x : Sym) (v : Value) (s : State) : Res Flow :=
  match s.env.lookup x with
  | some (.list xs) => doAssign x (.list (xs ++ [v])) s
  | some _ => (.error .type, s)
  | none => (.error (.unbound x), s)

/-- Print a value (`interpreter.rs` 4442–4448). -/
def doShow (P : Prims) (v : Value) (s : State) : Res Flow :=
  (.ok .cont, { s with out := disp P v :: s.out })

/-- `RuntimeAssert` (`interpreter.rs` 4426–4432). -/
def doAssert (P : Prims) (v : Value) (s : State) : Res Flow :=
  if truthy P v then (.ok .cont, s) else (.error .assertion, s)

/-- `execute_block_sync` (`interpreter.rs` 4693–4706) over the execution `f` of its statements. -/
def inScope (f : State → Res Flow) (s : State) : Res Flow :=
  (f (s.withEnv (·.pushScope))).bind fun fl s' => (.ok fl, s'.withEnv (·.popScope))

/-- What a loop does with the outcome of its body: go on, or stop. -/
def loopNext (k : State → Res Flow) : Flow → State → Res Flow
  | .cont, s => k s
  | .brk, s => (.ok .cont, s)
  | .ret v, s => (.ok (.ret v), s)

/-- One round of `While` (`interpreter.rs` 4182–4195), continuing with `k`. -/
def whileStep (P : Prims) (fc : State → Res Value) (fb k : State → Res Flow) (s : State) :
    Res Flow :=
  (fc s).bind fun v s' => if truthy P v then (fb s').bind (loopNext k) else (.ok .cont, s')

/-- `Stmt::While` (`interpreter.rs` 4182–4195), at most `n` rounds. -/
def whileLoop (P : Prims) (fc : State → Res Value) (fb : State → Res Flow) : Nat → State → Res Flow
  | 0, s => (.error .fuel, s)
  | n + 1, s => whileStep P fc fb (whileLoop P fc fb n) s

/-- The rounds of `Repeat` (`interpreter.rs` 4209–4241). -/
def eachItem (x : Sym) (fb : State → Res Flow) : List Value → State → Res Flow
  | [], s => (.ok .cont, s)
  | v :: vs, s => (fb (s.withEnv (·.define x v))).bind (loopNext (eachItem x fb vs))

/-- `Stmt::Repeat` (`interpreter.rs` 4197–4246). -/
def repeatLoop (P : Prims) (x : Sym) (v : Value) (fb : State → Res Flow) (s : State) : Res Flow :=
  (lift (P.items v) s).bind fun vs s' => inScope (eachItem x fb vs) s'

/-- `Stmt::FunctionDef` (`interpreter.rs` 4273–4281). -/
def defineFun (f : Sym) (fd : Fun) (s : State) : State :=
  { s with funs := fun g => if g = f then some fd else s.funs g }

mutual
/-- `execute_stmt_sync` (`interpreter.rs` 4147–4690). -/
def exec (I : Inst) (n : Nat) : Stmt → State → Res Flow
  | .letS x _ _ e, s => (evalE I e s).bind (doDefine x)
  | .set x e, s => (evalE I e s).bind (doAssign x)
  | .callS f args, s => (evalE I (.call f args) s).bind fun _ s' => (.ok .cont, s')
  | .ifS c t e, s => (evalE I c s).bind fun v s' =>
      if truthy I.P v then inScope (execs I n t) s' else inScope (execs I n e) s'
  | .whileS c b, s => whileLoop I.P (evalE I c) (inScope (execs I n b)) n s
  | .repeatS x e b, s => (evalE I e s).bind fun v s' =>
      repeatLoop I.P x v (inScope (execs I n b)) s'
  | .ret none, s => (.ok (.ret .nothing), s)
  | .ret (some e), s => (evalE I e s).bind fun v s' => (.ok (.ret v), s')
  | .brk, s => (.ok .brk, s)
  | .funDef f ps b, s => (.ok .cont, defineFun f { params := ps.map Prod.fst, body := b } s)
  | .showS e, s => (evalE I e s).bind (doShow I.P)
  | .assertS e, s => (evalE I e s).bind (doAssert I.P)
  | .push x e, s => (evalE I e s).bind (doPush x)

/-- Statements in order, until one does not continue. -/
def execs (I : Inst) (n : Nat) : List Stmt → State → Res Flow
  | [], s => (.ok .cont, s)
  | st :: rest, s => (exec I n st s).bind fun fl s' =>
      match fl with
      | .cont => execs I n rest s'
      | other => (.ok other, s')
end

/-- Bind parameters to arguments, in order. -/
def bindParams : List Sym → List Value → Env → Env
  | p :: ps, v :: vs, e => bindParams ps vs (e.define p v)
  | _, _, e => e

/-- The value of a finished body (`interpreter.rs` 5200–5212). -/
def returned : Flow → Value
  | .ret v => v
  | _ => .nothing

/-- Run `f` in a fresh frame set up by `setup` and leave the frame afterwards. -/
def inFrame {α : Type} (setup : Env → Env) (f : State → Res α) (s : State) : Res α :=
  (f (s.withEnv fun e => setup e.pushFrame)).bind fun a s' => (.ok a, s'.withEnv (·.popFrame))

/-- Define every captured variable in a fresh frame (`interpreter.rs` 5733–5735). -/
def bindCaptured (m : VMap) (e : Env) : Env := { e with locals := m }

/-- Call a closure (`call_closure_value_sync`, `interpreter.rs` 5702–5776): its captured
variables, then its parameters. -/
def invokeClo (I : Inst) (i : Nat) (vs : List Value) (s : State) : Res Value :=
  match s.clos[i]? with
  | none => (.error .notCallable, s)
  | some c =>
    if vs.length = c.params.length then
      inFrame (fun e => bindParams c.params vs (bindCaptured c.captured e)) (evalE I c.body) s
    else (.error .arity, s)

/-- Run a function body (`interpreter.rs` 5147–5236). -/
def invokeFun (I : Inst) (n : Nat) (fd : Fun) (vs : List Value) (s : State) : Res Value :=
  inFrame (bindParams fd.params vs) (fun s' => (execs I n fd.body s').bind fun fl s'' =>
    (.ok (returned fl), s'')) s

/-- Calls, with at most `n` of them nested. -/
def invokeN (P : Prims) (ap : BinOp → Value → Value → Except Err Value)
    (rd : Sym → Value → Bool) : Nat → Target → List Value → State → Res Value
  | 0, _, _, s => (.error .fuel, s)
  | n + 1, .fn fd, vs, s => invokeFun ⟨P, ap, rd, invokeN P ap rd n⟩ n fd vs s
  | n + 1, .clo i, vs, s => invokeClo ⟨P, ap, rd, invokeN P ap rd n⟩ i vs s

/-- The semantics with fuel `n`. -/
def inst (P : Prims) (ap : BinOp → Value → Value → Except Err Value) (rd : Sym → Value → Bool)
    (n : Nat) : Inst := ⟨P, ap, rd, invokeN P ap rd n⟩

/-- The interpreter with fuel `n`. -/
def plain (P : Prims) (n : Nat) : Inst := inst P (applyOp P) (fun _ _ => true) n

/-- What an outsider sees of a run: whether it failed and how, and the lines printed. -/
structure Outcome where
  error : Option Err
  output : List Text

/-- The visible part of a run. -/
def outcome {α : Type} (r : Res α) : Outcome :=
  ⟨match r.1 with | .ok _ => none | .error e => some e, r.2.out.reverse⟩

/-- `run_sync` (`interpreter.rs` 4134–4145): the statements at the top level, from the empty
state. -/
def run (P : Prims) (n : Nat) (p : List Stmt) : Outcome := outcome (execs (plain P n) n p {})

end Verif.Lang
