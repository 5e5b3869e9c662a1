import Verif.Lang.Syntax

/-!
# Inlining one-expression functions (`crates/logicaffeine_compile/src/optimize/inline_tiny.rs`)

The pass is run by `optimize_for_run_tiered` (`optimize/mod.rs` 330).  Within the modelled syntax
all of it is modelled; native and generic functions, which it skips, and `SetIndex` are not in the
modelled syntax.
-/
namespace Verif.Lang.Inline

/-- `body_inlinable` (`inline_tiny.rs` 30–37). -/
def inlinable : Expr → Bool
  | .lit _ => true
  | .var _ => true
  | .bin _ a b => inlinable a && inlinable b
  | .not a => inlinable a
  | _ => false

/-- `arg_atomic` (`inline_tiny.rs` 39–41). -/
def atomic : Expr → Bool
  | .lit _ => true
  | .var _ => true
  | _ => false

/-- The map from parameters to arguments (`inline_tiny.rs` 74–75): of two equal parameters the later
counts. -/
def bindArgs : List Sym → List Expr → (Sym → Option Expr) → Sym → Option Expr
  | p :: ps, a :: as, m => bindArgs ps as fun y => if y = p then some a else m y
  | _, _, m => m

/-- `subst` (`inline_tiny.rs` 44–60). -/
def subst (m : Sym → Option Expr) : Expr → Expr
  | .var x => (m x).getD (.var x)
  | .bin op a b => .bin op (subst m a) (subst m b)
  | .not a => .not (subst m a)
  | e => e

/-- `Inliner` (`inline_tiny.rs` 62–64): the inlined functions. -/
abbrev Bodies := Sym → Option (List Sym × Expr)

mutual
/-- `rewrite_expr` (`inline_tiny.rs` 67–124). -/
def inlineE (B : Bodies) : Expr → Expr
  | .call f args =>
    let args' := inlineEs B args
    match B f with
    | some (ps, body) =>
      if ps.length = args'.length ∧ args'.all atomic = true then
        subst (bindArgs ps args' fun _ => none) body
      else .call f args'
    | none => .call f args'
  | .bin op a b => .bin op (inlineE B a) (inlineE B b)
  | .not a => .not (inlineE B a)
  | .index c i => .index (inlineE B c) (inlineE B i)
  | .length c => .length (inlineE B c)
  | e => e

/-- The arguments of a call. -/
def inlineEs (B : Bodies) : List Expr → List Expr
  | [] => []
  | e :: es => inlineE B e :: inlineEs B es
end

mutual
/-- `rewrite_stmt` (`inline_tiny.rs` 140–203). -/
def inlineS (B : Bodies) : Stmt → Stmt
  | .letS x b m e => .letS x b m (inlineE B e)
  | .set x e => .set x (inlineE B e)
  | .ifS c t e => .ifS (inlineE B c) (inlineSs B t) (inlineSs B e)
  | .whileS c b => .whileS (inlineE B c) (inlineSs B b)
  | .repeatS x e b => .repeatS x (inlineE B e) (inlineSs B b)
  | .funDef f ps b => .funDef f ps (inlineSs B b)
  | .showS e => .showS (inlineE B e)
  | .ret none => .ret none
  | .ret (some e) => .ret (some (inlineE B e))
  | .assertS e => .assertS (inlineE B e)
  | .push x e => .push x (inlineE B e)
  | .callS f args => .callS f (inlineEs B args)
  | .brk => .brk

/-- `rewrite_block` (`inline_tiny.rs` 126–138). -/
def inlineSs (B : Bodies) : List Stmt → List Stmt
  | [] => []
  | s :: ss => inlineS B s :: inlineSs B ss
end

/-- The functions to inline (`inline_tiny.rs` 213–226): a later one replaces an earlier one. -/
def bodies : List Stmt → Bodies → Bodies
  | [], B => B
  | .funDef f ps [.ret (some e)] :: ss, B =>
    bodies ss (if inlinable e then fun g => if g = f then some (ps.map Prod.fst, e) else B g else B)
  | _ :: ss, B => bodies ss B

/-- `inline_tiny_fns` (`inline_tiny.rs` 206–235). -/
def inlineProgram (p : List Stmt) : List Stmt := inlineSs (bodies p fun _ => none) p

end Verif.Lang.Inline
