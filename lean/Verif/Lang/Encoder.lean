import Verif.Lang.Interp

/-!
# The encoder of the translation validator

`crates/logicaffeine_tv/src/symexec.rs` turns a straight-line program into terms for an SMT solver:
what it prints, and the condition under which it fails.  `crates/logicaffeine_tv/src/lib.rs`
compares them with a run of the interpreter.

Not modelled: pipes, tasks, `Select` and the seeded mode (`symexec.rs` 186–282, `lib.rs` 86–117),
which the language model has no statements for; reasons and details of reports.
-/
namespace Verif.Lang.Tv

/-- `BitVecOp` (`logicaffeine_verify/src/ir.rs` 105–140), the operators the encoder emits. -/
inductive BvOp where
  | add | sub | mul | sdiv | srem | band | bor | bxor | slt | sle | beq
deriving DecidableEq, Repr

/-- `VerifyExpr` (`logicaffeine_verify/src/ir.rs` 147–), the constructors the encoder emits.  All
constants are 64 bits wide (`INT_WIDTH`). -/
inductive Term where
  | bool (b : Bool)
  | bv (v : BitVec 64)
  | bin (op : BvOp) (a b : Term)
  | not (a : Term)
  | and (a b : Term)
  | or (a b : Term)
  | iff (a b : Term)
deriving DecidableEq, Repr

/-- `SymValue` (`symexec.rs` 60–71), without channels. -/
inductive SymVal where
  | int (e : Term)
  | bool (e : Term)
deriving DecidableEq, Repr

/-- `SymSummary` (`symexec.rs` 73–82). -/
structure Summary where
  outputs : List SymVal
  errored : Term
deriving DecidableEq, Repr

/-- `State` (`symexec.rs` 93–117), without channels and random numbers.  Outputs are in order. -/
structure SState where
  env : Sym → Option SymVal := fun _ => none
  outputs : List SymVal := []
  errored : Term := .bool false

/-- `HashMap::insert` on the environment. -/
def SState.insert (s : SState) (x : Sym) (v : SymVal) : SState :=
  { s with env := fun y => if y = x then some v else s.env y }

/-- `apply_binop` (`symexec.rs` 367–402); `none` is `Unsupported`. -/
def applyBinop (op : BinOp) (l r : SymVal) : Option SymVal :=
  match op, l, r with
  | .add, .int a, .int b => some (.int (.bin .add a b))
  | .sub, .int a, .int b => some (.int (.bin .sub a b))
  | .mul, .int a, .int b => some (.int (.bin .mul a b))
  | .lt, .int a, .int b => some (.bool (.bin .slt a b))
  | .gt, .int a, .int b => some (.bool (.bin .slt b a))
  | .le, .int a, .int b => some (.bool (.bin .sle a b))
  | .ge, .int a, .int b => some (.bool (.bin .sle b a))
  | .eq, .int a, .int b => some (.bool (.bin .beq a b))
  | .eq, .bool a, .bool b => some (.bool (.iff a b))
  | .ne, .int a, .int b => some (.bool (.not (.bin .beq a b)))
  | .ne, .bool a, .bool b => some (.bool (.not (.iff a b)))
  | .and, .bool a, .bool b => some (.bool (.and a b))
  | .and, .int a, .int b => some (.int (.bin .band a b))
  | .or, .bool a, .bool b => some (.bool (.or a b))
  | .or, .int a, .int b => some (.int (.bin .bor a b))
  | _, _, _ => none

/-- The arm of `eval` for division and remainder (`symexec.rs` 331–353): the condition that the
divisor is zero joins the error condition. -/
def encDiv (o : BvOp) (l r : SymVal) (er : Term) : Option (SymVal × Term) :=
  match l, r with
  | .int a, .int b => some (.int (.bin o a b), .or er (.bin .beq b (.bv 0)))
  | _, _ => none

/-- What `eval` does with the values of two operands (`symexec.rs` 326–355). -/
def encBin (op : BinOp) (l r : SymVal) (er : Term) : Option (SymVal × Term) :=
  match op with
  | .div => encDiv .sdiv l r er
  | .mod => encDiv .srem l r er
  | _ => (applyBinop op l r).map fun v => (v, er)

/-- `!` of a value (`symexec.rs` 357–366). -/
def encNot : SymVal → SymVal
  | .bool e => .bool (.not e)
  | .int e => .int (.bin .bxor e (.bv (BitVec.allOnes 64)))

/-- `eval` (`symexec.rs` 312–369): the value and the new error condition. -/
def encE (σ : Sym → Option SymVal) : Expr → Term → Option (SymVal × Term)
  | .lit (.num n), er => some (.int (.bv (BitVec.ofInt 64 n)), er)
  | .lit (.bool b), er => some (.bool (.bool b), er)
  | .var x, er => (σ x).map fun v => (v, er)
  | .bin op a b, er => (encE σ a er).bind fun (l, er') =>
      (encE σ b er').bind fun (r, er'') => encBin op l r er''
  | .not a, er => (encE σ a er).map fun (v, er') => (encNot v, er')
  | _, _ => none

/-- `exec_stmt` (`symexec.rs` 178–310), without the concurrency statements. -/
def encS (s : SState) : Stmt → Option SState
  | .funDef _ _ _ => some s
  | .letS x _ _ e => (encE s.env e s.errored).map fun (v, er) => { s with errored := er }.insert x v
  | .set x e =>
    if (s.env x).isSome then
      (encE s.env e s.errored).map fun (v, er) => { s with errored := er }.insert x v
    else none
  | .showS e => (encE s.env e s.errored).map fun (v, er) =>
      { s with errored := er, outputs := s.outputs ++ [v] }
  | _ => none

/-- `exec_block` (`symexec.rs` 159–169). -/
def encSs : SState → List Stmt → Option SState
  | s, [] => some s
  | s, st :: rest => (encS s st).bind fun s' => encSs s' rest

/-- `execute` (`symexec.rs` 119–128). -/
def encode (p : List Stmt) : Option Summary :=
  (encSs {} p).map fun s => { outputs := s.outputs, errored := s.errored }

/-- `SoundnessReport` (`verdict.rs` 16–49), without the details and the seeded reports. -/
inductive Report where
  | agrees
  | disagrees
  | unsupported
deriving DecidableEq, Repr

/-- `Expected` (`lib.rs` 119–123). -/
inductive Expected where
  | int (n : Int)
  | bool (b : Bool)
deriving DecidableEq, Repr

/-- The term that must be valid for a printed line to match (`lib.rs` 160–173); `none` when the
kinds differ. -/
def matchTerm : SymVal → Expected → Option Term
  | .int e, .int n => some (.bin .beq e (.bv (BitVec.ofInt 64 n)))
  | .bool e, .bool b => some (.iff e (.bool b))
  | _, _ => none

/-- The loop of `compare_outputs` (`lib.rs` 151–182), the lengths being equal.  `read` is
`parse_expected` (`lib.rs` 125–131) and `valid` is `equiv::is_valid`. -/
def compareLines (valid : Term → Bool) (read : Text → Option Expected) :
    List SymVal → List Text → Report
  | v :: vs, l :: ls =>
    match read l with
    | none => .unsupported
    | some x =>
      match matchTerm v x with
      | none => .disagrees
      | some t => if valid t then compareLines valid read vs ls else .disagrees
  | _, _ => .agrees

/-- `compare_outputs` (`lib.rs` 133–182).  Simplification: the lines are taken as printed, where the
code splits the joined text at line breaks; no line of a number or a truth value has one. -/
def compareOutputs (valid : Term → Bool) (read : Text → Option Expected) (vs : List SymVal)
    (ls : List Text) : Report :=
  if vs.length = ls.length then compareLines valid read vs ls else .disagrees

/-- `check_against_interp` (`lib.rs` 57–84). -/
def checkAgainst (valid : Term → Bool) (read : Text → Option Expected) (s : Summary)
    (o : Outcome) : Report :=
  match o.error with
  | some _ => if valid s.errored then .agrees else .disagrees
  | none => if valid (.not s.errored) then compareOutputs valid read s.outputs o.output else .disagrees

/-- `check_encoder_sound` (`lib.rs` 24–55) on a determinate program that parses. -/
def checkEncoder (valid : Term → Bool) (read : Text → Option Expected) (p : List Stmt)
    (o : Outcome) : Report :=
  match encode p with
  | none => .unsupported
  | some s => checkAgainst valid read s o

end Verif.Lang.Tv
