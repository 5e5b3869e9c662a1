import Verif.Lang.Fold

/-!
# Constant propagation

`crates/logicaffeine_compile/src/optimize/propagate.rs`, on the modelled constructors.
-/
namespace Verif.Lang

/-- The pass's environment: names known to hold a literal (`propagate.rs` 28). -/
abbrev PEnv := Sym → Option Lit

/-- `env.insert` (`propagate.rs` 72). -/
def PEnv.insert (env : PEnv) (x : Sym) (l : Lit) : PEnv := fun y => if y = x then some l else env y

/-- `env.remove` (`propagate.rs` 79). -/
def PEnv.remove (env : PEnv) (x : Sym) : PEnv := fun y => if y = x then none else env y

mutual
/-- `collect_set_targets_in_stmt` (`propagate.rs` 369–404): function bodies are not entered. -/
def setsS : Stmt → List Sym
  | .set x _ => [x]
  | .ifS _ t e => setsSs t ++ setsSs e
  | .whileS _ b => setsSs b
  | .repeatS _ _ b => setsSs b
  | _ => []

/-- `collect_all_set_targets` (`propagate.rs` 353–367). -/
def setsSs : List Stmt → List Sym
  | [] => []
  | s :: ss => setsS s ++ setsSs ss
end

mutual
/-- `substitute_identifiers` (`propagate.rs` 224–350): indexing and closures are not entered. -/
def substE (env : PEnv) : Expr → Expr
  | .var x => match env x with
    | some l => .lit l
    | none => .var x
  | .bin op a b => .bin op (substE env a) (substE env b)
  | .not a => .not (substE env a)
  | .call f args => .call f (substEs env args)
  | .callv c args => .callv (substE env c) (substEs env args)
  | .list items => .list (substEs env items)
  | .length c => .length (substE env c)
  | e => e

/-- The substituted arguments. -/
def substEs (env : PEnv) : List Expr → List Expr
  | [] => []
  | e :: es => substE env e :: substEs env es
end

/-- `subst_and_fold` (`propagate.rs` 212–221). -/
def propE (P : Prims) (env : PEnv) (e : Expr) : Expr := foldE P [] (substE env e)

/-- The arguments of a call statement (`propagate.rs` 142–145). -/
def propEs (P : Prims) (env : PEnv) (es : List Expr) : List Expr := foldEs P [] (substEs env es)

/-- The environment after a `Let` whose value became `e` (`propagate.rs` 70–73). -/
def afterLet (env : PEnv) (muts : List Sym) (x : Sym) (mutable : Bool) (e : Expr) : PEnv :=
  match e with
  | .lit l => if !mutable && !muts.contains x then env.insert x l else env
  | _ => env

/-- The environment after a statement (the `&mut env` of `propagate_stmt`, `propagate.rs`
59–172). -/
def afterS (P : Prims) (muts : List Sym) (env : PEnv) : Stmt → PEnv
  | .letS x _ m e => afterLet env muts x m (propE P env e)
  | .set x _ => env.remove x
  | _ => env

mutual
/-- `propagate_stmt` (`propagate.rs` 59–172). -/
def propS (P : Prims) (muts : List Sym) (env : PEnv) : Stmt → Stmt
  | .letS x t m e => .letS x t m (propE P env e)
  | .set x e => .set x (propE P env e)
  | .callS f args => .callS f (propEs P env args)
  | .ifS c t e => .ifS (propE P env c) (propSs P muts env t) (propSs P muts env e)
  | .whileS c b => .whileS (propE P env c) (propSs P muts env b)
  | .repeatS x e b => .repeatS x (propE P env e) (propSs P muts env b)
  | .ret none => .ret none
  | .ret (some e) => .ret (some (propE P env e))
  | .brk => .brk
  | .funDef f ps b => .funDef f ps (propSs P (setsSs b) (fun _ => none) b)
  | .showS e => .showS (propE P env e)
  | .assertS e => .assertS (propE P env e)
  | .push x e => .push x (propE P env e)

/-- `propagate_block_stmts` and `propagate_nested_block` (`propagate.rs` 32–57). -/
def propSs (P : Prims) (muts : List Sym) (env : PEnv) : List Stmt → List Stmt
  | [] => []
  | s :: ss => propS P muts env s :: propSs P muts (afterS P muts env s) ss
end

/-- `propagate_stmts` (`propagate.rs` 20–30): the whole pass. -/
def propagateProgram (P : Prims) (p : List Stmt) : List Stmt :=
  propSs P (setsSs p) (fun _ => none) p

end Verif.Lang
