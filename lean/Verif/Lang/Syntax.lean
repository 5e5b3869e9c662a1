/-!
# The imperative language: syntax, values, state

The statements and expressions the optimiser passes and the tree-walking interpreter work on
(`crates/logicaffeine_language/src/ast/stmt.rs` 84–146, 225–470, 800–1000), restricted to the
constructors listed below, and the run-time state of
`crates/logicaffeine_compile/src/interpreter.rs` 1573–1686.

Simplifications: types are kept only as the flag "annotated `Bool`"; `Pattern` is a single name;
an absent `else` block is an empty one; closures have expression bodies; `Show` always goes to the
console; `Push` pushes to a named list.  Structs, enums, maps, sets, tuples, zones, tasks,
networking and CRDT statements are not modelled.
-/
namespace Verif.Lang

/-- An interned name (`crates/logicaffeine_base/src/intern.rs`, `Symbol`). -/
abbrev Sym := Nat

/-- Text as a list of characters. -/
abbrev Text := List Char

/-- `BinaryOpKind` (`ast/stmt.rs` 96–146). -/
inductive BinOp where
  | add | sub | mul | pow | div | exactDiv | floorDiv | mod
  | eq | ne | lt | gt | le | ge
  | and | or | concat | seqConcat | approxEq
  | bitXor | bitAnd | bitOr | shl | shr
deriving DecidableEq, Repr

/-- `Literal` (`ast/stmt.rs`): numbers (`i64`), floats (their bit pattern), text, booleans and
`nothing`.  Characters and temporal literals are not modelled. -/
inductive Lit where
  | num (n : Int)
  | flt (f : Nat)
  | text (t : Text)
  | bool (b : Bool)
  | nothing
deriving DecidableEq, Repr

/-- `Expr` (`ast/stmt.rs` 800–1000), the modelled constructors. -/
inductive Expr where
  | lit (l : Lit)
  | var (x : Sym)
  | bin (op : BinOp) (a b : Expr)
  | not (a : Expr)
  | call (f : Sym) (args : List Expr)
  | callv (callee : Expr) (args : List Expr)
  | list (items : List Expr)
  | index (coll idx : Expr)
  | length (coll : Expr)
  | closure (params : List Sym) (body : Expr)

/-- A formal parameter: its name and whether it is annotated `Bool`. -/
abbrev Param := Sym × Bool

/-- `Stmt` (`ast/stmt.rs` 225–470), the modelled constructors. -/
inductive Stmt where
  /-- `Let [mutable] x [: Bool] be e.` -/
  | letS (x : Sym) (isBool mutable : Bool) (e : Expr)
  | set (x : Sym) (e : Expr)
  | callS (f : Sym) (args : List Expr)
  | ifS (c : Expr) (thn els : List Stmt)
  | whileS (c : Expr) (body : List Stmt)
  /-- `Repeat for x in e:` -/
  | repeatS (x : Sym) (e : Expr) (body : List Stmt)
  | ret (e : Option Expr)
  | brk
  | funDef (f : Sym) (params : List Param) (body : List Stmt)
  | showS (e : Expr)
  | assertS (e : Expr)
  | push (x : Sym) (e : Expr)

/-- `RuntimeValue` (`interpreter.rs`), the modelled variants.  `int` is both the narrow `Int`
and the wide `BigInt` (`from_bigint` keeps a value narrow exactly when it fits 64 bits); a
closure is its index in the table of closures. -/
inductive Value where
  | int (n : Int)
  | flt (f : Nat)
  | bool (b : Bool)
  | text (t : Text)
  | list (xs : List Value)
  | nothing
  | clo (i : Nat)

/-- The errors a run can end with.  `fuel` stands for a run that has not ended within the given
number of nested calls and loop iterations; `stuck` never arises in the interpreter and is used
only by specifications; `prim` is an error of an operation left abstract. -/
inductive Err where
  | fuel
  | stuck
  | unbound (x : Sym)
  | divZero
  | type
  | unknownFn (f : Sym)
  | arity
  | assertion
  | notCallable
  | prim (k : Nat)
deriving DecidableEq, Repr

/-- A map from names to values (`HashMap<Symbol, RuntimeValue>`). -/
abbrev VMap := Sym → Option Value

/-- `HashMap::insert` / `remove`, as setting the entry. -/
def VMap.put (m : VMap) (x : Sym) (v : Option Value) : VMap := fun y => if y = x then v else m y

/-- `Environment` (`interpreter.rs` 1573–1586). -/
structure Env where
  globals : VMap := fun _ => none
  mainBlock : VMap := fun _ => none
  locals : VMap := fun _ => none
  saves : List (List (Sym × Option Value)) := []
  frames : List (VMap × List (List (Sym × Option Value))) := []

/-- `Environment::lookup` (`interpreter.rs` 1661–1667). -/
def Env.lookup (e : Env) (x : Sym) : Option Value :=
  if e.frames.isEmpty then (e.mainBlock x).or (e.globals x) else (e.locals x).or (e.globals x)

/-- Record the previous value of a name in the innermost block scope (`interpreter.rs`
1656–1658). -/
def recordSave (x : Sym) (old : Option Value) :
    List (List (Sym × Option Value)) → List (List (Sym × Option Value))
  | [] => []
  | f :: fs => ((x, old) :: f) :: fs

/-- `Environment::define` (`interpreter.rs` 1605–1613 and 1653–1659). -/
def Env.define (e : Env) (x : Sym) (v : Value) : Env :=
  if !e.frames.isEmpty then
    { e with locals := e.locals.put x (some v), saves := recordSave x (e.locals x) e.saves }
  else if !e.saves.isEmpty then
    { e with mainBlock := e.mainBlock.put x (some v), saves := recordSave x (e.mainBlock x) e.saves }
  else { e with globals := e.globals.put x (some v) }

/-- `Environment::assign` (`interpreter.rs` 1669–1685); `none` is its `false`. -/
def Env.assign (e : Env) (x : Sym) (v : Value) : Option Env :=
  if !e.frames.isEmpty && (e.locals x).isSome then
    some { e with locals := e.locals.put x (some v) }
  else if e.frames.isEmpty && (e.mainBlock x).isSome then
    some { e with mainBlock := e.mainBlock.put x (some v) }
  else if (e.globals x).isSome then some { e with globals := e.globals.put x (some v) }
  else none

/-- `Environment::push_scope` (`interpreter.rs` 1631–1633). -/
def Env.pushScope (e : Env) : Env := { e with saves := [] :: e.saves }

/-- Undo the saved bindings of a scope (`interpreter.rs` 1644–1649).  The list is kept newest
first, the order in which `pop_scope` undoes them. -/
def undo (m : VMap) : List (Sym × Option Value) → VMap
  | [] => m
  | (x, old) :: rest => undo (m.put x old) rest

/-- `Environment::pop_scope` (`interpreter.rs` 1635–1651). -/
def Env.popScope (e : Env) : Env :=
  match e.saves with
  | [] => e
  | f :: fs =>
    if e.frames.isEmpty then { e with saves := fs, mainBlock := undo e.mainBlock f }
    else { e with saves := fs, locals := undo e.locals f }

/-- `Environment::push_frame` (`interpreter.rs` 1617–1622). -/
def Env.pushFrame (e : Env) : Env :=
  { e with frames := (e.locals, e.saves) :: e.frames, locals := fun _ => none, saves := [] }

/-- `Environment::pop_frame` (`interpreter.rs` 1625–1629). -/
def Env.popFrame (e : Env) : Env :=
  match e.frames with
  | [] => { e with locals := fun _ => none, saves := [] }
  | (l, s) :: fs => { e with frames := fs, locals := l, saves := s }

/-- A closure: `ClosureValue` together with its entry of `closure_bodies` (`interpreter.rs`
1688–1695, 5021–5046).  Simplification: it captures every visible variable, where the code
captures the free variables of the body; the body can read no others. -/
structure Clo where
  params : List Sym
  captured : VMap
  body : Expr

/-- A function definition (`interpreter.rs`, `FunctionDef`). -/
structure Fun where
  params : List Sym
  body : List Stmt

/-- The interpreter: environment, function table, closures created so far, and the lines printed
so far, newest first. -/
structure State where
  env : Env := {}
  funs : Sym → Option Fun := fun _ => none
  clos : List Clo := []
  out : List Text := []

/-- The outcome of a step: a value or an error, and the state it leaves. -/
abbrev Res (α : Type) := Except Err α × State

/-- `ControlFlow` (`interpreter.rs`). -/
inductive Flow where
  | cont
  | brk
  | ret (v : Value)

end Verif.Lang
