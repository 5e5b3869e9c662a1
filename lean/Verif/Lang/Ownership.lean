import Verif.Lang.Syntax
/-!
# The ownership checker (`crates/logicaffeine_compile/src/analysis/ownership.rs`)

`OwnershipChecker::check_program`, on its own copy of the syntax: the checker distinguishes few of the forms
of expressions and statements, and those it treats alike are one constructor here. Errors are `none`; which error is
reported, and the bookkeeping for diagnostics (`moved_at`), is not modelled.
-/

namespace Verif.Lang.Own

/-- `Expr`, by the cases of `check_not_moved` (457–589), `mark_moves_in_expr` (220–245) and
`infer_copy_from_expr` (198–216). -/
inductive OExpr where
  /-- a literal; `copy` is false for text -/
  | lit (copy : Bool)
  | var (x : Sym)
  /-- `concat` marks `BinaryOpKind::Concat` -/
  | bin (concat : Bool) (a b : OExpr)
  | field (a : OExpr)
  | index (a b : OExpr)
  | call (args : List OExpr)
  | callExpr (callee : OExpr) (args : List OExpr)
  /-- the composite forms whose parts are only checked: `copy` is false for `New`, `List` and
  `InterpolatedString`, true for `Tuple`, `Range`, `Slice`, `NewVariant`, `Length`, `Not`, `ManifestOf`, `ChunkAt`,
  `Contains`, `Union`, `Intersection`, `WithCapacity`, `OptionSome`, `Copy`, and closures with an expression as body -/
  | parts (copy : Bool) (es : List OExpr)
  /-- `Expr::Give` -/
  | give (e : OExpr)
  /-- the opaque forms: a closure with a block as body, which reads the names `xs`, or an escape to Rust -/
  | opaque (xs : List Sym)

/-- `Stmt`, by the cases of `check_stmt` (273–454). The recipients of `Give` and `Show` are function names and are
left out. -/
inductive OStmt where
  | letS (x : Sym) (e : OExpr)
  | giveS (e : OExpr)
  | showS (e : OExpr)
  /-- `If` with `else_block: None` -/
  | ifS (c : OExpr) (thn : List OStmt)
  | ifElse (c : OExpr) (thn els : List OStmt)
  | whileS (c : OExpr) (body : List OStmt)
  | repeatS (x : Sym) (e : OExpr) (body : List OStmt)
  | zone (body : List OStmt)
  | inspect (e : OExpr) (arms : List (List OStmt))
  | ret (e : Option OExpr)
  | set (x : Sym) (e : OExpr)
  | callS (args : List OExpr)
  /-- a parameter with whether its type is a `Copy` type -/
  | funDef (params : List (Sym × Bool)) (body : List OStmt)
  | brk
  /-- the statements the checker passes over (`Push`, `SetField`, `Assert`, …), which evaluate `es` -/
  | other (es : List OExpr)

/-- `VarState`, 46–55. -/
inductive VarState where
  | owned | moved | maybeMoved | borrowed
  deriving DecidableEq

/-- `OwnershipChecker`, 105–117. -/
structure Checker where
  st : Sym → Option VarState
  ty : Sym → Option Bool

/-- `OwnershipChecker::new`, 130–138. -/
def Checker.new : Checker := ⟨fun _ => none, fun _ => none⟩

/-- `state.insert`. -/
def Checker.put (k : Checker) (x : Sym) (v : VarState) : Checker := { k with st := fun y => if y = x then some v else k.st y }

/-- `types.insert`. -/
def Checker.putTy (k : Checker) (x : Sym) (b : Bool) : Checker := { k with ty := fun y => if y = x then some b else k.ty y }

/-- `is_copy_sym`, 192–194. -/
def Checker.isCopy (k : Checker) (x : Sym) : Bool := (k.ty x).getD true

/-- `infer_copy_from_expr`, 198–216. -/
def Checker.copyOf (k : Checker) : OExpr → Bool
  | .lit c => c
  | .var x => k.isCopy x
  | .bin concat _ _ => !concat
  | .parts c _ => c
  | _ => true

/-- The state is `Moved` or `MaybeMoved`. -/
def Checker.gone (k : Checker) (x : Sym) : Bool :=
  match k.st x with
  | some .moved => true
  | some .maybeMoved => true
  | _ => false

mutual
/-- `check_not_moved`, 457–589: true for `Ok`. -/
def Checker.notMoved (k : Checker) : OExpr → Bool
  | .lit _ => true
  | .var x => !k.gone x
  | .bin _ a b => k.notMoved a && k.notMoved b
  | .field a => k.notMoved a
  | .index a b => k.notMoved a && k.notMoved b
  | .call args => k.notMovedAll args
  | .callExpr c args => k.notMoved c && k.notMovedAll args
  | .parts _ es => k.notMovedAll es
  | .give e => k.notMoved e
  | .opaque _ => true
/-- the loops over arguments and items -/
def Checker.notMovedAll (k : Checker) : List OExpr → Bool
  | [] => true
  | e :: es => k.notMoved e && k.notMovedAll es
end

/-- A non-`Copy` identifier is marked as moved: 224–228, 279–283, 422–428. -/
def Checker.passed (k : Checker) : OExpr → Checker
  | .var x => if k.isCopy x then k else k.put x .moved
  | _ => k

mutual
/-- `mark_moves_in_expr`, 220–245. -/
def Checker.mark (k : Checker) : OExpr → Checker
  | .call args => k.markArgs args
  | .callExpr _ args => k.markArgs args
  | .bin _ a b => (k.mark a).mark b
  | .index a b => (k.mark a).mark b
  | .field a => k.mark a
  | _ => k
/-- its loop over arguments, 223–230 -/
def Checker.markArgs (k : Checker) : List OExpr → Checker
  | [] => k
  | a :: as => ((k.passed a).mark a).markArgs as
end

/-- The table of `merge_states`, 603–616. -/
def mergeState : VarState → VarState → VarState
  | .moved, .moved => .moved
  | .moved, _ => .maybeMoved
  | _, .moved => .maybeMoved
  | .maybeMoved, _ => .maybeMoved
  | _, .maybeMoved => .maybeMoved
  | .borrowed, _ => .borrowed
  | _, .borrowed => .borrowed
  | .owned, .owned => .owned

/-- `merge_states`, 592–630. -/
def mergeStates (a b : Sym → Option VarState) : Sym → Option VarState := fun x =>
  match b x with
  | none => a x
  | some vb => some (mergeState ((a x).getD .owned) vb)

/-- Parameters of a function, 436–440. -/
def Checker.params (k : Checker) (ps : List (Sym × Bool)) : Checker :=
  ps.foldl (fun k p => (k.put p.1 .owned).putTy p.1 p.2) k

mutual
/-- `check_stmt`, 273–454; `none` is an error. -/
def Checker.stmt (k : Checker) : OStmt → Option Checker
  | .letS x e =>
    if k.notMoved e then
      let k1 := (k.passed e).mark e
      some ((k1.put x .owned).putTy x (k1.copyOf e))
    else none
  | .giveS (.var x) => if k.gone x then none else some (k.put x .moved)
  | .giveS e => if k.notMoved e then some k else none
  | .showS e =>
    if k.notMoved e then
      match e with
      | .var x => if k.st x = some .owned ∨ k.st x = none then some (k.put x .borrowed) else some k
      | _ => some k
    else none
  | .ifS _ thn =>
    match k.block thn with
    | none => none
    | some k1 => some { k1 with st := mergeStates k1.st k.st }
  | .ifElse _ thn els =>
    match k.block thn with
    | none => none
    | some k1 =>
      match Checker.block { k1 with st := k.st } els with
      | none => none
      | some k2 => some { k2 with st := mergeStates k1.st k2.st }
  | .whileS _ body =>
    match k.block body with
    | none => none
    | some k1 => some { k1 with st := mergeStates k.st k1.st }
  | .repeatS _ _ body => k.block body
  | .zone body => k.block body
  | .inspect _ arms =>
    match k.arms k.st arms with
    | none => none
    | some (k1, states) =>
      match states with
      | [] => some k1
      | s :: ss => some { k1 with st := ss.foldl mergeStates s }
  | .ret (some e) => if k.notMoved e then some (k.mark e) else none
  | .ret none => some k
  | .set _ e => if k.notMoved e then some (k.mark e) else none
  | .callS args => if k.notMovedAll args then some (args.foldl Checker.passed k) else none
  | .funDef ps body =>
    match (k.params ps).block body with
    | none => none
    | some _ => some k
  | .brk => some k
  | .other _ => some k
/-- `check_block`, 266–271. -/
def Checker.block (k : Checker) : List OStmt → Option Checker
  | [] => some k
  | s :: ss =>
    match k.stmt s with
    | none => none
    | some k1 => k1.block ss
/-- the loop over the arms of `Inspect`, 388–392, with the state before the branches and the states after each -/
def Checker.arms (k : Checker) (before : Sym → Option VarState) :
    List (List OStmt) → Option (Checker × List (Sym → Option VarState))
  | [] => some (k, [])
  | b :: bs =>
    match Checker.block { k with st := before } b with
    | none => none
    | some k1 =>
      match k1.arms before bs with
      | none => none
      | some (k2, ss) => some (k2, k1.st :: ss)
end

/-- `check_program`, 262–264. -/
def checkProgram (p : List OStmt) : Bool := (Checker.new.block p).isSome

/-! ## Specification: what running a program does to ownership -/

/-- The bindings in scope, innermost first, each with whether its value has been given away. -/
abbrev Owns := List (Sym × Bool)

/-- The innermost binding of `x` has been given away. -/
def isGiven (o : Owns) (x : Sym) : Bool :=
  match o with
  | [] => false
  | (y, g) :: rest => if y = x then g else isGiven rest x

/-- Giving `x` away marks its innermost binding. -/
def give (o : Owns) (x : Sym) : Owns :=
  match o with
  | [] => []
  | (y, g) :: rest => if y = x then (y, true) :: rest else (y, g) :: give rest x

/-- What evaluation does with variables, in order. -/
inductive Event where
  | use (x : Sym)
  | give (x : Sym)

mutual
/-- The variables an expression reads, and those it gives away (`Give x` as an expression). -/
def events : OExpr → List Event
  | .lit _ => []
  | .var x => [.use x]
  | .bin _ a b => events a ++ events b
  | .field a => events a
  | .index a b => events a ++ events b
  | .call args => eventsAll args
  | .callExpr c args => events c ++ eventsAll args
  | .parts _ es => eventsAll es
  | .give (.var x) => [.give x]
  | .give e => events e
  | .opaque xs => xs.map .use
def eventsAll : List OExpr → List Event
  | [] => []
  | e :: es => events e ++ eventsAll es
end

/-- Carry out events; `none` if a variable is used or given after it has been given away. -/
def happen : List Event → Owns → Option Owns
  | [], o => some o
  | .use x :: r, o => if isGiven o x then none else happen r o
  | .give x :: r, o => if isGiven o x then none else happen r (give o x)

/-- How a block ends. -/
inductive Outcome where
  | ok (o : Owns)
  | brk (o : Owns)
  | ret
  /-- a variable was used after it had been given away -/
  | bad

/-- Leaving a block forgets the bindings it made. -/
def leave (n : Nat) (o : Owns) : Owns := o.drop (o.length - n)

/-- The statements without blocks: what they evaluate and the binding they add. -/
def effect : OStmt → Option (List Event × List Sym)
  | .letS x e => some (events e, [x])
  | .giveS (.var x) => some ([.give x], [])
  | .giveS e => some (events e, [])
  | .showS e => some (events e, [])
  | .set _ e => some (events e, [])
  | .callS args => some (eventsAll args, [])
  | .other es => some (eventsAll es, [])
  | _ => none

/-- The statements with blocks, loops aside: what they evaluate first and the blocks they may then run. -/
def branches : OStmt → Option (OExpr × List (List OStmt))
  | .ifS c thn => some (c, [thn, []])
  | .ifElse c thn els => some (c, [thn, els])
  | .zone body => some (.lit true, [body])
  | .inspect e arms => some (e, [] :: arms)
  | _ => none

/-- A loop: the variable bound in each iteration, what is evaluated once before it, what is evaluated before each
iteration, and the body. -/
def loopOf : OStmt → Option (Option Sym × List Event × List Event × List OStmt)
  | .whileS c body => some (none, [], events c, body)
  | .repeatS x e body => some (some x, events e, [], body)
  | _ => none

/-- What is being run: a block, or the iterations of a loop. -/
inductive Code where
  | block (ss : List OStmt)
  | loop (x : Option Sym) (cond : List Event) (body : List OStmt)

/-- The runs of a program: conditions may come out either way, `Inspect` may take any arm or none, loops may run any
number of times. A function body is run on its parameters alone. -/
inductive Run : Code → Owns → Outcome → Prop
  | done (o : Owns) : Run (.block []) o (.ok o)
  | step {s : OStmt} {r : List OStmt} {o o1 : Owns} {evs : List Event} {xs : List Sym} {out : Outcome} :
      effect s = some (evs, xs) → happen evs o = some o1 →
      Run (.block r) (xs.map (fun x => (x, false)) ++ o1) out → Run (.block (s :: r)) o out
  | stepBad {s : OStmt} {r : List OStmt} {o : Owns} {evs : List Event} {xs : List Sym} :
      effect s = some (evs, xs) → happen evs o = none → Run (.block (s :: r)) o .bad
  | branch {s : OStmt} {r b : List OStmt} {bs : List (List OStmt)} {c : OExpr} {o o1 o2 : Owns} {out : Outcome} :
      branches s = some (c, bs) → happen (events c) o = some o1 → b ∈ bs → Run (.block b) o1 (.ok o2) →
      Run (.block r) (leave o1.length o2) out → Run (.block (s :: r)) o out
  | branchBrk {s : OStmt} {r b : List OStmt} {bs : List (List OStmt)} {c : OExpr} {o o1 o2 : Owns} :
      branches s = some (c, bs) → happen (events c) o = some o1 → b ∈ bs → Run (.block b) o1 (.brk o2) →
      Run (.block (s :: r)) o (.brk (leave o1.length o2))
  | branchRet {s : OStmt} {r b : List OStmt} {bs : List (List OStmt)} {c : OExpr} {o o1 : Owns} :
      branches s = some (c, bs) → happen (events c) o = some o1 → b ∈ bs → Run (.block b) o1 .ret →
      Run (.block (s :: r)) o .ret
  | branchBad {s : OStmt} {r b : List OStmt} {bs : List (List OStmt)} {c : OExpr} {o o1 : Owns} :
      branches s = some (c, bs) → happen (events c) o = some o1 → b ∈ bs → Run (.block b) o1 .bad →
      Run (.block (s :: r)) o .bad
  | condBad {s : OStmt} {r : List OStmt} {bs : List (List OStmt)} {c : OExpr} {o : Owns} :
      branches s = some (c, bs) → happen (events c) o = none → Run (.block (s :: r)) o .bad
  | loop {s : OStmt} {r body : List OStmt} {x : Option Sym} {pre cond : List Event} {o o1 o2 : Owns} {out : Outcome} :
      loopOf s = some (x, pre, cond, body) → happen pre o = some o1 → Run (.loop x cond body) o1 (.ok o2) →
      Run (.block r) o2 out → Run (.block (s :: r)) o out
  | loopRet {s : OStmt} {r body : List OStmt} {x : Option Sym} {pre cond : List Event} {o o1 : Owns} :
      loopOf s = some (x, pre, cond, body) → happen pre o = some o1 → Run (.loop x cond body) o1 .ret →
      Run (.block (s :: r)) o .ret
  | loopBad {s : OStmt} {r body : List OStmt} {x : Option Sym} {pre cond : List Event} {o o1 : Owns} :
      loopOf s = some (x, pre, cond, body) → happen pre o = some o1 → Run (.loop x cond body) o1 .bad →
      Run (.block (s :: r)) o .bad
  | preBad {s : OStmt} {r body : List OStmt} {x : Option Sym} {pre cond : List Event} {o : Owns} :
      loopOf s = some (x, pre, cond, body) → happen pre o = none → Run (.block (s :: r)) o .bad
  | retOk {e : Option OExpr} {r : List OStmt} {o o1 : Owns} :
      happen (e.elim [] events) o = some o1 → Run (.block (.ret e :: r)) o .ret
  | retBad {e : Option OExpr} {r : List OStmt} {o : Owns} :
      happen (e.elim [] events) o = none → Run (.block (.ret e :: r)) o .bad
  | brk {r : List OStmt} {o : Owns} : Run (.block (.brk :: r)) o (.brk o)
  | fn {ps : List (Sym × Bool)} {body r : List OStmt} {o : Owns} {out : Outcome} :
      Run (.block r) o out → Run (.block (.funDef ps body :: r)) o out
  | fnBad {ps : List (Sym × Bool)} {body r : List OStmt} {o : Owns} :
      Run (.block body) (ps.map fun p => (p.1, false)) .bad → Run (.block (.funDef ps body :: r)) o .bad
  | iterEnd {x : Option Sym} {cond : List Event} {body : List OStmt} {o o1 : Owns} :
      happen cond o = some o1 → Run (.loop x cond body) o (.ok o1)
  | iterCond {x : Option Sym} {cond : List Event} {body : List OStmt} {o : Owns} :
      happen cond o = none → Run (.loop x cond body) o .bad
  | iter {x : Option Sym} {cond : List Event} {body : List OStmt} {o o1 o2 : Owns} {out : Outcome} :
      happen cond o = some o1 → Run (.block body) (x.toList.map (fun x => (x, false)) ++ o1) (.ok o2) →
      Run (.loop x cond body) (leave o1.length o2) out → Run (.loop x cond body) o out
  | iterBrk {x : Option Sym} {cond : List Event} {body : List OStmt} {o o1 o2 : Owns} :
      happen cond o = some o1 → Run (.block body) (x.toList.map (fun x => (x, false)) ++ o1) (.brk o2) →
      Run (.loop x cond body) o (.ok (leave o1.length o2))
  | iterRet {x : Option Sym} {cond : List Event} {body : List OStmt} {o o1 : Owns} :
      happen cond o = some o1 → Run (.block body) (x.toList.map (fun x => (x, false)) ++ o1) .ret →
      Run (.loop x cond body) o .ret
  | iterBad {x : Option Sym} {cond : List Event} {body : List OStmt} {o o1 : Owns} :
      happen cond o = some o1 → Run (.block body) (x.toList.map (fun x => (x, false)) ++ o1) .bad →
      Run (.loop x cond body) o .bad

/-! ## The programs the checker is right about -/

/-- The names a statement binds in its own block. -/
def declares : OStmt → List Sym
  | .letS x _ => [x]
  | _ => []

mutual
/-- No part of the expression gives anything away, and what the checker does not look into reads no name of `G`. -/
def clean (G : List Sym) : OExpr → Prop
  | .lit _ => True
  | .var _ => True
  | .bin _ a b => clean G a ∧ clean G b
  | .field a => clean G a
  | .index a b => clean G a ∧ clean G b
  | .call args => cleanAll G args
  | .callExpr c args => clean G c ∧ cleanAll G args
  | .parts _ es => cleanAll G es
  | .give _ => False
  | .opaque xs => ∀ x ∈ xs, x ∉ G
def cleanAll (G : List Sym) : List OExpr → Prop
  | [] => True
  | e :: es => clean G e ∧ cleanAll G es
end

/-- Only reads, and none of a name of `G`. -/
def Quiet (G : List Sym) (evs : List Event) : Prop := ∀ ev ∈ evs, ∃ x, ev = .use x ∧ x ∉ G

mutual
/-- `G` holds every name given away. `outer` holds the names bound outside the present block, `cur` those bound in it,
and `loc`, inside a loop, those bound since the beginning of its body. The conditions:
* a block does not bind again a name bound outside it;
* inside a loop, only names bound in the body of that loop are given away;
* conditions, iterables, targets of `Inspect` and the statements the checker passes over read no name of `G`;
* nothing is given away inside an expression. -/
def Fits (G outer cur : List Sym) (loc : Option (List Sym)) : OStmt → Prop
  | .letS x e => x ∉ outer ∧ clean G e
  | .giveS (.var x) => x ∈ G ∧ ∀ D, loc = some D → x ∈ D
  | .giveS e => clean G e
  | .showS e => clean G e
  | .ifS c thn => Quiet G (events c) ∧ FitsBlock G (cur ++ outer) [] loc thn
  | .ifElse c thn els =>
    Quiet G (events c) ∧ FitsBlock G (cur ++ outer) [] loc thn ∧ FitsBlock G (cur ++ outer) [] loc els
  | .whileS c body => Quiet G (events c) ∧ FitsBlock G (cur ++ outer) [] (some []) body
  | .repeatS x e body =>
    Quiet G (events e) ∧ x ∉ cur ++ outer ∧ FitsBlock G (cur ++ outer) [x] (some [x]) body
  | .zone body => FitsBlock G (cur ++ outer) [] loc body
  | .inspect e arms => Quiet G (events e) ∧ FitsArms G (cur ++ outer) loc arms
  | .ret (some e) => clean G e
  | .ret none => True
  | .set _ e => clean G e
  | .callS args => cleanAll G args
  | .funDef ps body => FitsBlock G [] (ps.map Prod.fst) none body
  | .brk => True
  | .other es => Quiet G (eventsAll es)
def FitsBlock (G outer cur : List Sym) (loc : Option (List Sym)) : List OStmt → Prop
  | [] => True
  | s :: ss => Fits G outer cur loc s ∧ FitsBlock G outer (declares s ++ cur) (loc.map (declares s ++ ·)) ss
def FitsArms (G outer : List Sym) (loc : Option (List Sym)) : List (List OStmt) → Prop
  | [] => True
  | b :: bs => FitsBlock G outer [] loc b ∧ FitsArms G outer loc bs
end

end Verif.Lang.Own
