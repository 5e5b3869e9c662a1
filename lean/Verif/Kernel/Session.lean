import Verif.Kernel.Guard
/-!
# Declaring inductive types, and a session of the interface

`/repo/crates/logicaffeine_kernel/src/positivity.rs`, `type_checker.rs` 528-582, `context.rs` 253-464 and 501-560,
`interface/repl.rs` 31-123, 330-365.
-/
namespace Verif.Core
open Verif.Level (Universe)

mutual
/-- `occurs_in` (`positivity.rs` 198-224). -/
def occursIn (B : List String) : Term → Bool
  | .glob n => B.contains n
  | .sort _ => false
  | .var _ => false
  | .lit _ => false
  | .const _ _ => false
  | .pi _ a b => occursIn B a || occursIn B b
  | .lam _ a b => occursIn B a || occursIn B b
  | .app f a => occursIn B f || occursIn B a
  | .mtch d m cs => occursIn B d || occursIn B m || occursInL B cs
  | .fix _ b => occursIn B b
  | .mfix ds _ => occursInD B ds
  | .letE _ t v b => occursIn B t || occursIn B v || occursIn B b
  | .hole => false
/-- The cases. -/
def occursInL (B : List String) : List Term → Bool
  | [] => false
  | c :: cs => occursIn B c || occursInL B cs
/-- The bodies of a block. -/
def occursInD (B : List String) : List (String × Term) → Bool
  | [] => false
  | (_, b) :: ds => occursIn B b || occursInD B ds
end

/-- The head of an application and whether no block member occurs in the arguments (`positivity.rs` 185-192). -/
def plainHead (B : List String) : Term → Bool
  | .app f a => !occursIn B a && plainHead B f
  | .glob n => B.contains n
  | _ => false

/-- `is_recursive_arg` (`positivity.rs` 178-195). -/
def isRecursiveArg (B : List String) : Term → Bool
  | .pi _ a b => !occursIn B a && isRecursiveArg B b
  | t => plainHead B t

mutual
/-- `check_strictly_positive` (`positivity.rs` 55-162), whether it accepts. -/
def positive (B : List String) : Term → Bool
  | .const _ _ => true
  | .glob _ => true
  | .pi _ a b => (isRecursiveArg B a || !occursIn B a) && positive B b
  | .app f a => positive B f && positive B a
  | .lam _ a b => (isRecursiveArg B a || !occursIn B a) && positive B b
  | .sort _ => true
  | .var _ => true
  | .lit _ => true
  | .mtch d m cs => positive B d && positive B m && positiveL B cs
  | .fix _ b => positive B b
  | .mfix ds _ => positiveD B ds
  | .letE _ t v b => !occursIn B t && !occursIn B v && positive B b
  | .hole => true
/-- The cases. -/
def positiveL (B : List String) : List Term → Bool
  | [] => true
  | c :: cs => positive B c && positiveL B cs
/-- The bodies of a block. -/
def positiveD (B : List String) : List (String × Term) → Bool
  | [] => true
  | (_, b) :: ds => positive B b && positiveD B ds
end

/-- The maps of `Context` (`context.rs` 20-57) that a session of definitions and inductive types changes; in each list
the latest entry comes first, except for `order`, which is in the order of registration. -/
structure Session where
  inductives : List (String × Term)
  constructors : List (String × String × Term)
  order : List (String × String)
  definitions : List (String × Term × Term)
  declarations : List (String × Term)

/-- `get_global` (`context.rs` 449-464). -/
def Session.typeOf (s : Session) (n : String) : Option Term :=
  match s.inductives.lookup n with
  | some t => some t
  | none =>
    match s.constructors.lookup n with
    | some e => some e.2
    | none =>
      match s.definitions.lookup n with
      | some e => some e.1
      | none => s.declarations.lookup n

/-- `is_inductive` (494-496), `get_constructors` (501-515), `constructor_inductive`; parameters are not declared by
this path. -/
def Session.decls (s : Session) : Decls where
  ind n := s.inductives.lookup n
  ctors i := (s.order.filter fun e => e.1 == i).filterMap fun e => (s.constructors.lookup e.2).map fun c => (e.2, c.2)
  owner c := (s.constructors.lookup c).map fun e => e.1
  declared _ := none

/-- `add_definition` (`context.rs` 442-444): a map, so that an earlier entry of that name is gone. -/
def Session.addDefinition (s : Session) (n : String) (ty body : Term) : Session :=
  { s with definitions := (n, ty, body) :: s.definitions }

/-- `add_inductive` (`context.rs` 253-255). -/
def Session.addInductive (s : Session) (n : String) (sort : Term) : Session :=
  { s with inductives := (n, sort) :: s.inductives }

/-- `add_constructor` (`context.rs` 419-428). -/
def Session.addConstructor (s : Session) (c i : String) (ty : Term) : Session :=
  { s with constructors := (c, i, ty) :: s.constructors, order := s.order ++ [(i, c)] }

/-- What of the kernel is not modelled: `normalize` and the comparison after it, which read the definitions of the
session, and the elaboration of the surface (`repl.rs` 36-52: implicit arguments, the binding of self-reference, motives,
sugar), which may change the declared type and the body; with a bound for the depth. -/
structure Front where
  norm : Session → Ctx → Term → Term
  slow : Session → Ctx → Term → Term → Bool
  elaborate : Session → String → Option Term → Term → Except KErr (Option Term × Term)
  fuel : Nat

/-- `infer_type` in the context of a session, without local variables. -/
def Front.infer (F : Front) (s : Session) (c : Ctx) (t : Term) : Except KErr Term :=
  kernelType s.decls (F.norm s) (F.slow s) F.fuel F.fuel c t

/-- The context of a session. -/
def Session.ctx (s : Session) : Ctx := ⟨fun _ => none, s.typeOf⟩

/-- `result_sort_universe` (`type_checker.rs` 528-537). -/
def resultSort : Term → Option Universe
  | .pi _ _ b => resultSort b
  | .sort u => some u
  | _ => none

/-- The walk of `check_constructor_universes` (`type_checker.rs` 562-580): `skip` parameters first, then fields whose
sort must be below the target. -/
def fieldsFit (F : Front) (s : Session) (target : Universe) : Ctx → Nat → Term → Except KErr Unit
  | c, 0, .pi x a b => do
    let u ← asSort (← F.infer s c a)
    if u.isSubtypeOf target then fieldsFit F s target (c.extend x a) 0 b else .error .mismatch
  | c, k + 1, .pi x a b => fieldsFit F s target (c.extend x a) k b
  | _, _, _ => .ok ()

/-- `check_constructor_universes` (`type_checker.rs` 545-582). -/
def universesFit (F : Front) (s : Session) (i : String) (ty : Term) : Except KErr Unit :=
  match (s.typeOf i).bind resultSort with
  | none => .ok ()
  | some .prop => .ok ()
  | some u => fieldsFit F s u s.ctx (s.decls.numParams i) ty

/-- `add_constructor_checked` (`context.rs` 545-560). -/
def addChecked (F : Front) (s : Session) (c i : String) (ty : Term) : Except KErr Session :=
  if positive [i] ty then do
    universesFit F s i ty
    .ok (s.addConstructor c i ty)
  else .error .notPositive

/-- The constructors of a declaration in turn (`repl.rs` 102-115); those before one that is refused stay. -/
def addAll (F : Front) (i : String) : Session → List (String × Term) → Session × Except KErr (Option Term)
  | s, [] => (s, .ok none)
  | s, (c, ty) :: cs =>
    match addChecked F s c i ty with
    | .ok s' => addAll F i s' cs
    | .error e => (s, .error e)

/-- `Command` (`interface/command.rs`), as far as modelled: an inductive type without parameters, of sort `Type 0` (the
parser gives every declared type this sort, `command_parser.rs` 181). -/
inductive Cmd
  | definition (name : String) (ty : Option Term) (body : Term)
  | check (t : Term)
  | inductive (name : String) (ctors : List (String × Term))

/-- `execute` (`repl.rs` 31-123) on a parsed command: the session after it, and an error or the type that `Check` prints.
The recursor that is derived after a declaration is left out. -/
def execute (F : Front) (s : Session) : Cmd → Session × Except KErr (Option Term)
  | .definition n ty b =>
    match F.elaborate s n ty b with
    | .error e => (s, .error e)
    | .ok r =>
      match F.infer s s.ctx r.2 with
      | .error e => (s, .error e)
      | .ok inferred => (s.addDefinition n (r.1.getD inferred) r.2, .ok none)
  | .check t => (s, (F.infer s s.ctx t).map some)
  | .inductive n cs => addAll F n (s.addInductive n (.sort (.type 0))) cs

/-- Several commands in turn: the session after them and their results. -/
def session (F : Front) : Session → List Cmd → Session × List (Except KErr (Option Term))
  | s, [] => (s, [])
  | s, c :: cs =>
    let r := execute F s c
    let q := session F r.1 cs
    (q.1, r.2 :: q.2)

end Verif.Core
