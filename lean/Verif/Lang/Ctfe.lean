import Verif.Lang.Syntax

/-!
# Evaluating calls at compile time (`crates/logicaffeine_compile/src/optimize/ctfe.rs`)

The pass is run by `optimize_for_projection` (`optimize/mod.rs` 251), `optimize_for_run_tiered` (374)
and the ahead-of-time pipeline (579).  Within the modelled syntax all of it is modelled.  Texts are
kept as texts, so interning them is left out; the values of the evaluator are literals.
-/
namespace Verif.Lang.Ctfe

/-- `MAX_STEPS` (`ctfe.rs` 12). -/
def maxSteps : Nat := 10000

/-- `MAX_DEPTH` (`ctfe.rs` 13). -/
def maxDepth : Nat := 16

mutual
/-- `is_pure_expr` (`ctfe.rs` 58–70). -/
def pureE : Expr → Bool
  | .lit _ => true
  | .var _ => true
  | .bin _ a b => pureE a && pureE b
  | .not a => pureE a
  | .call _ args => pureEs args
  | .length c => pureE c
  | .index c i => pureE c && pureE i
  | _ => false

/-- `args.iter().all(is_pure_expr)`. -/
def pureEs : List Expr → Bool
  | [] => true
  | e :: es => pureE e && pureEs es
end

mutual
/-- `is_pure_stmt` (`ctfe.rs` 34–56). -/
def pureS : Stmt → Bool
  | .letS _ _ _ e => pureE e
  | .set _ e => pureE e
  | .ret none => true
  | .ret (some e) => pureE e
  | .ifS c t e => pureE c && pureSs t && pureSs e
  | .whileS c b => pureE c && pureSs b
  | .callS _ _ => true
  | _ => false

/-- `body.iter().all(is_pure_stmt)`. -/
def pureSs : List Stmt → Bool
  | [] => true
  | s :: ss => pureS s && pureSs ss
end

/-- `collect_functions` (`ctfe.rs` 72–89): the map as a function; a later pure definition replaces
an earlier one. -/
def collect : List Stmt → (Sym → Option Fun) → Sym → Option Fun
  | [], m => m
  | .funDef f ps b :: ss, m =>
    collect ss (if pureSs b then fun g => if g = f then some ⟨ps.map Prod.fst, b⟩ else m g else m)
  | _ :: ss, m => collect ss m

/-- The result fits `i64` (`checked_add` and the like). -/
def checked (n : Int) : Option Lit := if -(2 ^ 63) ≤ n ∧ n < 2 ^ 63 then some (.num n) else none

/-- `eval_binop` (`ctfe.rs` 141–169). -/
def binop : BinOp → Lit → Lit → Option Lit
  | .add, .num a, .num b => checked (a + b)
  | .sub, .num a, .num b => checked (a - b)
  | .mul, .num a, .num b => checked (a * b)
  | .div, .num a, .num b => if b ≠ 0 then checked (a.tdiv b) else none
  | .mod, .num a, .num b =>
    if b ≠ 0 then (if a = -(2 ^ 63) ∧ b = -1 then none else some (.num (a.tmod b))) else none
  | .eq, .num a, .num b => some (.bool (a == b))
  | .ne, .num a, .num b => some (.bool (a != b))
  | .lt, .num a, .num b => some (.bool (a < b))
  | .gt, .num a, .num b => some (.bool (a > b))
  | .le, .num a, .num b => some (.bool (a ≤ b))
  | .ge, .num a, .num b => some (.bool (a ≥ b))
  | .and, .bool a, .bool b => some (.bool (a && b))
  | .or, .bool a, .bool b => some (.bool (a || b))
  | .add, .text a, .text b => some (.text (a ++ b))
  | .concat, .text a, .text b => some (.text (a ++ b))
  | .eq, .text a, .text b => some (.bool (a == b))
  | .ne, .text a, .text b => some (.bool (a != b))
  | _, _, _ => none

/-- The variables of the evaluator (`HashMap<Symbol, Value>`). -/
abbrev Locals := Sym → Option Lit

/-- `locals.insert`. -/
def Locals.put (L : Locals) (x : Sym) (v : Lit) : Locals := fun y => if y = x then some v else L y

/-- A call: the function, its arguments, the steps taken so far; the result and the steps taken
then. -/
abbrev Calls := Sym → List Lit → Nat → Option (Lit × Nat)

mutual
/-- `eval_expr` (`ctfe.rs` 91–139).  `deep` says that `depth >= MAX_DEPTH`; `call` evaluates a call
one level deeper; the number is `steps`. -/
def evalE (deep : Bool) (call : Calls) (L : Locals) : Expr → Nat → Option (Lit × Nat)
  | .lit l, k => if k ≥ maxSteps || deep then none else some (l, k + 1)
  | .var x, k => if k ≥ maxSteps || deep then none else (L x).map (·, k + 1)
  | .bin op a b, k =>
    if k ≥ maxSteps || deep then none else
    (evalE deep call L a (k + 1)).bind fun p => (evalE deep call L b p.2).bind fun q =>
      (binop op p.1 q.1).map (·, q.2)
  | .not a, k =>
    if k ≥ maxSteps || deep then none else
    (evalE deep call L a (k + 1)).bind fun p =>
      match p.1 with
      | .bool b => some (.bool !b, p.2)
      | _ => none
  | .call f args, k =>
    if k ≥ maxSteps || deep then none else
    (evalEs deep call L args (k + 1)).bind fun p => call f p.1 p.2
  | _, _ => none

/-- The loop over the arguments (`ctfe.rs` 126–129). -/
def evalEs (deep : Bool) (call : Calls) (L : Locals) : List Expr → Nat → Option (List Lit × Nat)
  | [], k => some ([], k)
  | e :: es, k => (evalE deep call L e k).bind fun p => (evalEs deep call L es p.2).bind fun q =>
      some (p.1 :: q.1, q.2)
end

/-- What a statement does to the evaluator: go on or return (`StmtResult`, `ctfe.rs` 171–174), with
the variables and steps after it. -/
structure Step where
  ret : Option Lit := none
  locals : Locals
  steps : Nat

/-- The loop of `While` (`ctfe.rs` 248–265) over its condition and body.  Each round takes a step,
so `maxSteps` rounds are never used up before the steps are. -/
def loop (cond : Locals → Nat → Option (Lit × Nat)) (body : Locals → Nat → Option Step) :
    Nat → Locals → Nat → Option Step
  | 0, _, _ => none
  | m + 1, L, k =>
    (cond L k).bind fun p =>
      match p.1 with
      | .bool false => some { locals := L, steps := p.2 }
      | .bool true => (body L p.2).bind fun r =>
          match r.ret with
          | some v => some { r with ret := some v }
          | none => loop cond body m r.locals r.steps
      | _ => none

mutual
/-- `eval_stmt` (`ctfe.rs` 193–268). -/
def evalS (deep : Bool) (call : Calls) : Stmt → Locals → Nat → Option Step
  | .letS x _ _ e, L, k =>
    if k ≥ maxSteps then none else
    (evalE deep call L e (k + 1)).map fun p => { locals := L.put x p.1, steps := p.2 }
  | .set x e, L, k =>
    if k ≥ maxSteps then none else
    (evalE deep call L e (k + 1)).map fun p => { locals := L.put x p.1, steps := p.2 }
  | .ret (some e), L, k =>
    if k ≥ maxSteps then none else
    (evalE deep call L e (k + 1)).map fun p => { ret := some p.1, locals := L, steps := p.2 }
  | .ret none, L, k =>
    if k ≥ maxSteps then none else some { ret := some .nothing, locals := L, steps := k + 1 }
  | .ifS c t e, L, k =>
    if k ≥ maxSteps then none else
    (evalE deep call L c (k + 1)).bind fun p =>
      match p.1 with
      | .bool true => evalSs deep call t L p.2
      | .bool false => evalSs deep call e L p.2
      | _ => none
  | .whileS c b, L, k =>
    if k ≥ maxSteps then none else
    loop (fun L' k' => evalE deep call L' c k') (fun L' k' => evalSs deep call b L' k') maxSteps L
      (k + 1)
  | _, _, _ => none

/-- The statements of a block in order (`ctfe.rs` 184–190, 229–241 and 257–262). -/
def evalSs (deep : Bool) (call : Calls) : List Stmt → Locals → Nat → Option Step
  | [], L, k => some { locals := L, steps := k }
  | s :: ss, L, k => (evalS deep call s L k).bind fun r =>
      match r.ret with
      | some v => some { r with ret := some v }
      | none => evalSs deep call ss r.locals r.steps
end

/-- Bind the parameters (`ctfe.rs` 131–134 and 304–307). -/
def bindL : List Sym → List Lit → Locals → Locals
  | p :: ps, v :: vs, L => bindL ps vs (L.put p v)
  | _, _, L => L

/-- `eval_block` of a function body with its parameters bound (`ctfe.rs` 131–135 and 304–310). -/
def callBody (fd : Fun) (deep : Bool) (call : Calls) (vs : List Lit) (k : Nat) :
    Option (Lit × Nat) :=
  (evalSs deep call fd.body (bindL fd.params vs fun _ => none) k).map fun r =>
    (r.ret.getD .nothing, r.steps)

/-- The call case of `eval_expr` (`ctfe.rs` 123–136), with `d` levels left below this one. -/
def callN (funcs : Sym → Option Fun) : Nat → Calls
  | 0, _, _, _ => none
  | d + 1, f, vs, k =>
    match funcs f with
    | none => none
    | some fd =>
      if vs.length ≠ fd.params.length then none
      else callBody fd (d == 0) (callN funcs d) vs k

/-- The literal arguments of a call (`ctfe.rs` 291–302). -/
def litsOf : List Expr → Option (List Lit)
  | [] => some []
  | .lit l :: es => (litsOf es).map (l :: ·)
  | _ :: _ => none

/-- `try_ctfe_expr` (`ctfe.rs` 280–315).  The first body is evaluated at depth 0. -/
def tryE (funcs : Sym → Option Fun) : Expr → Option Expr
  | .call f args =>
    match litsOf args with
    | none => none
    | some vs => (callN funcs (maxDepth + 1) f vs 0).map fun p => .lit p.1
  | _ => none

mutual
/-- `ctfe_expr` (`ctfe.rs` 317–360). -/
def ctfeE (funcs : Sym → Option Fun) (e : Expr) : Expr :=
  match tryE funcs e with
  | some r => r
  | none =>
    match e with
    | .bin op a b => .bin op (ctfeE funcs a) (ctfeE funcs b)
    | .call f args =>
      let e' := .call f (ctfeEs funcs args)
      (tryE funcs e').getD e'
    | .not a => .not (ctfeE funcs a)
    | e => e

/-- The arguments of a call. -/
def ctfeEs (funcs : Sym → Option Fun) : List Expr → List Expr
  | [] => []
  | e :: es => ctfeE funcs e :: ctfeEs funcs es
end

mutual
/-- `ctfe_stmt` (`ctfe.rs` 379–433). -/
def ctfeS (funcs : Sym → Option Fun) : Stmt → Stmt
  | .letS x b m e => .letS x b m (ctfeE funcs e)
  | .set x e => .set x (ctfeE funcs e)
  | .ret none => .ret none
  | .ret (some e) => .ret (some (ctfeE funcs e))
  | .showS e => .showS (ctfeE funcs e)
  | .ifS c t e => .ifS (ctfeE funcs c) (ctfeSs funcs t) (ctfeSs funcs e)
  | .whileS c b => .whileS (ctfeE funcs c) (ctfeSs funcs b)
  | .funDef f ps b => .funDef f ps (ctfeSs funcs b)
  | .callS f args => .callS f (ctfeEs funcs args)
  | .push x e => .push x (ctfeE funcs e)
  | .assertS e => .assertS (ctfeE funcs e)
  | .repeatS x e b => .repeatS x e b
  | .brk => .brk

/-- `ctfe_block` (`ctfe.rs` 435–446). -/
def ctfeSs (funcs : Sym → Option Fun) : List Stmt → List Stmt
  | [] => []
  | s :: ss => ctfeS funcs s :: ctfeSs funcs ss
end

/-- `ctfe_stmts` (`ctfe.rs` 362–377). -/
def ctfeProgram (p : List Stmt) : List Stmt := ctfeSs (collect p fun _ => none) p

end Verif.Lang.Ctfe
