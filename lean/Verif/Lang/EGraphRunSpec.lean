import Verif.Lang.EGraphSpec

/-!
# Runs of statements: what they do, and what is assumed of them

A run is a maximal sequence of the statements the e-graph pass handles together.  Nothing here
mentions the graph.
-/
namespace Verif.Lang.EGraph

/-- The statements of a run (`run_modeled`, `convert.rs` 471–483).  `push` and `setIndex` are on a
named collection. -/
inductive RS where
  | letE (x : Sym) (e : XE)
  | setE (x : Sym) (e : XE)
  | showE (e : XE)
  | assertE (e : XE)
  | ret (e : XE)
  | push (e : XE) (x : Sym)
  | setIndex (x : Sym) (i e : XE)
  | call (f : Sym) (args : List XE)
deriving DecidableEq, Repr

/-- The program around a run: the operations, what the expressions the graph does not model
evaluate to (they may read every variable but change none), what a called function does to the
variables and shows, and the two collection updates. -/
structure Prog where
  P : Prims
  contains : Value → Value → Except Err Value
  others : Nat → VMap → Except Err Value
  calls : Sym → List Value → VMap → Except Err (VMap × List Value)
  push : Value → Value → Except Err Value
  setIndex : Value → Value → Value → Except Err Value

/-- Where a run is: the variables, what was shown, what was returned. -/
structure RState where
  vars : VMap
  out : List Value
  ret : Option Value

/-- A variable's value (`lookup`, `interpreter.rs` 4035–4038). -/
def readVar (m : VMap) (x : Sym) : Except Err Value :=
  match m x with
  | some v => .ok v
  | none => .error (.unbound x)

/-- The world an expression is evaluated in. -/
def Prog.world (R : Prog) (m : VMap) : World := ⟨R.P, R.contains, readVar m, fun i => R.others i m⟩

/-- Arguments are evaluated left to right. -/
def evalArgs (W : World) : List XE → Except Err (List Value)
  | [] => .ok []
  | e :: es => (evalX W e).bind fun v => (evalArgs W es).bind fun vs => .ok (v :: vs)

/-- Assign one variable. -/
def setVar (m : VMap) (x : Sym) (v : Value) : VMap := fun y => if y = x then some v else m y

/-- `execute_stmt_sync` (`interpreter.rs` 4149–4164, 4305–4312, 4364–4380, 4426–4453) on these
statements.  What a failing call showed before it failed is not modelled. -/
def stepS (R : Prog) (s : RState) : RS → Except Err RState
  | .letE x e => (evalX (R.world s.vars) e).bind fun v => .ok { s with vars := setVar s.vars x v }
  | .setE x e => (evalX (R.world s.vars) e).bind fun v => (readVar s.vars x).bind fun _ =>
      .ok { s with vars := setVar s.vars x v }
  | .showE e => (evalX (R.world s.vars) e).bind fun v => .ok { s with out := s.out ++ [v] }
  | .assertE e => (evalX (R.world s.vars) e).bind fun v =>
      if truthy R.P v then .ok s else .error .assertion
  | .ret e => (evalX (R.world s.vars) e).bind fun v => .ok { s with ret := some v }
  | .push e x => (evalX (R.world s.vars) e).bind fun v => (readVar s.vars x).bind fun c =>
      (R.push c v).bind fun c' => .ok { s with vars := setVar s.vars x c' }
  | .setIndex x i e => (evalX (R.world s.vars) i).bind fun k =>
      (evalX (R.world s.vars) e).bind fun v => (readVar s.vars x).bind fun c =>
      (R.setIndex c k v).bind fun c' => .ok { s with vars := setVar s.vars x c' }
  | .call f args => (evalArgs (R.world s.vars) args).bind fun vs =>
      (R.calls f vs s.vars).bind fun r => .ok { s with vars := r.1, out := s.out ++ r.2 }

/-- `execute_block_sync`: statement by statement, up to an error or a return.  The result is where
the run stopped, and the error if there is one. -/
def exec (R : Prog) : List RS → RState → RState × Option Err
  | [], s => (s, none)
  | t :: ts, s =>
    match stepS R s t with
    | .error e => (s, some e)
    | .ok s' => if s'.ret.isSome then (s', none) else exec R ts s'

/-- The expressions of a statement, in the order they are evaluated. -/
def exprsOf : RS → List XE
  | .letE _ e | .setE _ e | .showE e | .assertE e | .ret e | .push e _ => [e]
  | .setIndex _ i e => [i, e]
  | .call _ args => args

/-- A variable, as a list of names. -/
def nameOf : XE → List Sym
  | .var _ x => [x]
  | _ => []

/-- The variables whose contents an expression reads: those it indexes, slices, copies, takes the
length of or looks into. -/
def contentReads : XE → List Sym
  | .bin _ op a b =>
    if op ∈ [BinOp.exactDiv, .seqConcat, .approxEq, .bitAnd, .bitOr, .pow, .floorDiv] then []
    else contentReads a ++ contentReads b
  | .not _ a => contentReads a
  | .index _ a b | .contains _ a b => nameOf a ++ (contentReads a ++ contentReads b)
  | .length _ a | .copy _ a => nameOf a ++ contentReads a
  | .slice _ a b c => nameOf a ++ (contentReads a ++ (contentReads b ++ contentReads c))
  | _ => []

/-- The variables whose contents a run reads. -/
def runReads (run : List RS) : List Sym := run.flatMap fun t => (exprsOf t).flatMap contentReads

/-- Nothing follows a return. -/
def NoDeadCode (run : List RS) : Prop := ∀ pre e post, run = pre ++ .ret e :: post → post = []

/-- Wherever the run gets, the facts about the expressions of the next statement are true there, and
they are kind safe and slice safe. -/
def SafeAlong (R : Prog) (sup : List Sym) (F : Nat → SiteFact) (run : List RS) (s : RState) : Prop :=
  ∀ pre t post s', run = pre ++ t :: post → exec R pre s = (s', none) → s'.ret = none →
    ∀ e ∈ exprsOf t, Truthful (R.world s'.vars) sup F e ∧ KindsSafe (R.world s'.vars) e ∧
      SlicesSafe (R.world s'.vars) e

/-- A call in the run changes no variable except those whose contents the run has read up to
then. -/
def CallsTame (R : Prog) (run : List RS) (s : RState) : Prop :=
  ∀ pre f args post s', run = pre ++ .call f args :: post → exec R pre s = (s', none) →
    s'.ret = none → ∀ vs r, R.calls f vs s'.vars = .ok r →
    ∀ x, r.1 x ≠ s'.vars x → x ∈ runReads (pre ++ [.call f args])

end Verif.Lang.EGraph
