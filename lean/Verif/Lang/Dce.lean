import Verif.Lang.Syntax

/-!
# Dead code elimination

`crates/logicaffeine_compile/src/optimize/dce.rs`, on the modelled constructors.
-/
namespace Verif.Lang

mutual
/-- The names `collect_expr_reads` inserts (`dce.rs` 10–77): closures are not entered. -/
def readsE : Expr → List Sym
  | .lit _ => []
  | .var x => [x]
  | .bin _ a b => readsE a ++ readsE b
  | .not a => readsE a
  | .call _ args => readsEs args
  | .callv c args => readsE c ++ readsEs args
  | .list items => readsEs items
  | .index c i => readsE c ++ readsE i
  | .length c => readsE c
  | .closure _ _ => []

/-- The names read by several expressions. -/
def readsEs : List Expr → List Sym
  | [] => []
  | e :: es => readsE e ++ readsEs es
end

mutual
/-- What `collect_expr_reads` returns (`dce.rs` 10–77): false for calls and closures. -/
def analyzable : Expr → Bool
  | .lit _ => true
  | .var _ => true
  | .bin _ a b => analyzable a && analyzable b
  | .not a => analyzable a
  | .call _ _ => false
  | .callv _ _ => false
  | .list items => analyzables items
  | .index c i => analyzable c && analyzable i
  | .length c => analyzable c
  | .closure _ _ => false

/-- All of them. -/
def analyzables : List Expr → Bool
  | [] => true
  | e :: es => analyzable e && analyzables es
end

mutual
/-- `collect_stmt_reads` (`dce.rs` 80–196): function bodies are not entered. -/
def readsS : Stmt → List Sym
  | .letS _ _ _ e => readsE e
  | .set _ e => readsE e
  | .callS _ args => readsEs args
  | .ifS c t e => readsE c ++ readsSs t ++ readsSs e
  | .whileS c b => readsE c ++ readsSs b
  | .repeatS _ e b => readsE e ++ readsSs b
  | .ret none => []
  | .ret (some e) => readsE e
  | .brk => []
  | .funDef _ _ _ => []
  | .showS e => readsE e
  | .assertS e => readsE e
  | .push x e => x :: readsE e

/-- The names read by a block. -/
def readsSs : List Stmt → List Sym
  | [] => []
  | s :: ss => readsS s ++ readsSs ss
end

/-- The tracking state of `dead_store_elimination` (`dce.rs` 203–205): the last assignment of each
name, and the positions found dead. -/
structure Track where
  last : Sym → Option Nat := fun _ => none
  dead : List Nat := []

/-- One round of the loop of `dead_store_elimination` (`dce.rs` 207–247). -/
def Track.step (tr : Track) (i : Nat) (st : Stmt) : Track :=
  let last : Sym → Option Nat := fun x => if (readsS st).contains x then none else tr.last x
  match st with
  | .set y e =>
    if analyzable e then
      { last := fun x => if x = y then some i else last x
        dead := match last y with
          | some j => j :: tr.dead
          | none => tr.dead }
    else { tr with last := fun _ => none }
  | .ifS _ _ _ | .whileS _ _ | .repeatS _ _ _ | .callS _ _ => { tr with last := fun _ => none }
  | _ => { tr with last := last }

/-- The loop, from position `i` on. -/
def Track.scan (tr : Track) (i : Nat) : List Stmt → Track
  | [] => tr
  | st :: ss => (tr.step i st).scan (i + 1) ss

/-- The positions of the dead assignments of a block. -/
def deadOf (ss : List Stmt) : List Nat := (Track.scan {} 0 ss).dead

/-- Leave out what the dead positions became (`dce.rs` 249–257). -/
def dropDead (dead : List Nat) : Nat → List (List Stmt) → List (List Stmt)
  | _, [] => []
  | i, l :: ls => (if dead.contains i then [] else l) :: dropDead dead (i + 1) ls

/-- `truncate` after the first `Return` (`dce.rs` 350–352). -/
def truncRet : List Stmt → List Stmt
  | [] => []
  | .ret e :: _ => [.ret e]
  | s :: ss => s :: truncRet ss

/-- Put a block together from what its statements became. -/
def assemble (ss : List Stmt) (parts : List (List Stmt)) : List Stmt :=
  truncRet (dropDead (deadOf ss) 0 parts).flatten

mutual
/-- What the loop of `eliminate_dead_code` pushes for a statement (`dce.rs` 268–348); a branch that
is always taken is put in the place of the `If` as it is. -/
def elimS : Stmt → List Stmt
  | .ifS c t e =>
    match c with
    | .lit (.bool true) => t
    | .lit (.bool false) => e
    | c => [.ifS c (assemble t (elimSs t)) (assemble e (elimSs e))]
  | .whileS c b =>
    match c with
    | .lit (.bool false) => []
    | c => [.whileS c (assemble b (elimSs b))]
  | .repeatS x e b => [.repeatS x e (assemble b (elimSs b))]
  | .funDef f ps b => [.funDef f ps (assemble b (elimSs b))]
  | s => [s]

/-- For all statements of a block. -/
def elimSs : List Stmt → List (List Stmt)
  | [] => []
  | s :: ss => elimS s :: elimSs ss
end

/-- `eliminate_dead_code` (`dce.rs` 260–355).  The code filters the dead assignments before it
treats the rest; the order does not matter since each statement is treated by itself.  The final
`dead_variable_elimination` (`dce.rs` 364–366) returns its argument. -/
def dceBlock (ss : List Stmt) : List Stmt := assemble ss (elimSs ss)

end Verif.Lang
