import Verif.Lang.Symmetry
/-!
# The last level of a bit-mask search

`/repo/crates/logicaffeine_compile/src/optimize/popcount_leaf.rs`. Native and exported functions, generics and the flags that switch
the pass off are not modelled; nothing but the body of a function is read.
-/
namespace Verif.Lang.Pop
open Verif.Lang (asIdent asInt)

/-- `is_neg_of` (`popcount_leaf.rs` 59-62). -/
def isNegOf (e : Expr) (x : Sym) : Bool :=
  match e with
  | .bin .sub l r => asInt l == some 0 && asIdent r == some x
  | _ => false

/-- `is_lowest_bit` (`popcount_leaf.rs` 65-72). -/
def isLowestBit (e : Expr) (x : Sym) : Bool :=
  match e with
  | .bin .bitAnd l r => (asIdent l == some x && isNegOf r x) || (asIdent r == some x && isNegOf l x)
  | _ => false

/-- `is_xor_of` (`popcount_leaf.rs` 75-82). -/
def isXorOf (e : Expr) (x bit : Sym) : Bool :=
  match e with
  | .bin .bitXor l r => (asIdent l == some x && asIdent r == some bit) || (asIdent l == some bit && asIdent r == some x)
  | _ => false

/-- `is_k_plus_one` (`popcount_leaf.rs` 85-92). -/
def isKPlusOne (k : Sym) (e : Expr) : Bool :=
  match e with
  | .bin .add l r => (asIdent l == some k && asInt r == some 1) || (asInt l == some 1 && asIdent r == some k)
  | _ => false

/-- `is_self_step_call` (`popcount_leaf.rs` 95-98). -/
def isSelfStep (e : Expr) (f k : Sym) : Bool :=
  match e with
  | .call g args => g == f && args.any (isKPlusOne k)
  | _ => false

/-- `match_base_case` (`popcount_leaf.rs` 102-115). -/
def matchBase : Stmt → Option (Sym × Sym × Int)
  | .ifS (.bin .eq l r) [.ret (some v)] [] =>
    match asIdent l, asIdent r, asInt v with
    | some k, some lim, some c => some (k, lim, c)
    | _, _, _ => none
  | _ => none

/-- `match_loop_x` (`popcount_leaf.rs` 118-125). -/
def loopX : Expr → Option Sym
  | .bin .ne l r => if asInt r = some 0 then asIdent l else none
  | _ => none

/-- `match_loop_body` (`popcount_leaf.rs` 129-156). -/
def loopBody (body : List Stmt) (x f k : Sym) : Option Sym :=
  match body with
  | [.letS bit _ _ v, .set t w, .set acc (.bin .add l r)] =>
    if isLowestBit v x && (t == x && isXorOf w x bit) &&
        ((asIdent l == some acc && isSelfStep r f k) || (asIdent r == some acc && isSelfStep l f k)) then some acc
    else none
  | _ => none

mutual
/-- A call of `count_ones` in an expression (`popcount_leaf.rs` 159-171). -/
def onesIn (c : Sym) : Expr → Bool
  | .call f args => f == c || onesInAny c args
  | .bin _ l r => onesIn c l || onesIn c r
  | .not a => onesIn c a
  | .index a b => onesIn c a || onesIn c b
  | .length a => onesIn c a
  | _ => false
/-- A call of `count_ones` in a list of arguments. -/
def onesInAny (c : Sym) : List Expr → Bool
  | [] => false
  | e :: es => onesIn c e || onesInAny c es
end

mutual
/-- `block_has_count_ones` (`popcount_leaf.rs` 158-186), one statement. -/
def onesInStmt (c : Sym) : Stmt → Bool
  | .letS _ _ _ e => onesIn c e
  | .set _ e => onesIn c e
  | .ret (some e) => onesIn c e
  | .ifS e t f => onesIn c e || onesInBlock c t || onesInBlock c f
  | .whileS e b => onesIn c e || onesInBlock c b
  | _ => false
/-- `block_has_count_ones` (`popcount_leaf.rs` 158-186). -/
def onesInBlock (c : Sym) : List Stmt → Bool
  | [] => false
  | s :: rest => onesInStmt c s || onesInBlock c rest
end

/-- `build_fast_path` (`popcount_leaf.rs` 189-227). -/
def fastPath (k lim : Sym) (cnst : Int) (x c : Sym) : Stmt :=
  let ones : Expr := .call c [.var x]
  .ifS (.bin .eq (.var k) (.bin .sub (.var lim) (.lit (.num 1))))
    [.ret (some (if cnst = 1 then ones else .bin .mul (.lit (.num cnst)) ones))] []

/-- The first loop over bits that calls the function (`popcount_leaf.rs` 246-257): its place, the set and the accumulator. -/
def findLoop (f k : Sym) : Nat → List Stmt → Option (Nat × Sym × Sym)
  | _, [] => none
  | i, .whileS c b :: rest =>
    match (loopX c).bind fun x => (loopBody b x f k).map fun acc => (i, x, acc) with
    | some r => some r
    | none => findLoop f k (i + 1) rest
  | i, _ :: rest => findLoop f k (i + 1) rest

/-- `Let acc be 0` (`popcount_leaf.rs` 261-263). -/
def startsAtZero (acc : Sym) : Stmt → Bool
  | .letS y _ _ e => y == acc && asInt e == some 0
  | _ => false

/-- `Return acc` (`popcount_leaf.rs` 267-270). -/
def returnsAcc (acc : Sym) : Stmt → Bool
  | .ret (some e) => asIdent e == some acc
  | _ => false

/-- `Let x be ...` (`popcount_leaf.rs` 275). -/
def definesX (x : Sym) : Stmt → Bool
  | .letS y _ _ _ => y == x
  | _ => false

/-- Put a statement behind the last definition of `x` in a list, if there is one (`rposition`, `popcount_leaf.rs` 273-282). -/
def spliceAfter (x : Sym) (fast : Stmt) : List Stmt → Option (List Stmt)
  | [] => none
  | s :: rest =>
    match spliceAfter x fast rest with
    | some r => some (s :: r)
    | none => if definesX x s then some (s :: fast :: rest) else none

/-- `try_rewrite_body` (`popcount_leaf.rs` 231-284). -/
def rewriteBody (f c : Sym) (body : List Stmt) : Option (List Stmt) :=
  if body.length < 4 then none
  else if onesInBlock c body then none
  else match body with
    | [] => none
    | base :: _ =>
      match matchBase base with
      | none => none
      | some (k, lim, cnst) =>
        match findLoop f k 0 body with
        | none => none
        | some (i, x, acc) =>
          if (body.take i).any (startsAtZero acc) = false then none
          else if (body.getLast?).any (returnsAcc acc) = false then none
          else (spliceAfter x (fastPath k lim cnst x c) (body.take i)).map (· ++ body.drop i)

/-- `popcount_leaf_stmts` (`popcount_leaf.rs` 287-333). -/
def popcountLeaf (c : Sym) (prog : List Stmt) : List Stmt :=
  prog.map fun s =>
    match s with
    | .funDef f ps body => (rewriteBody f c body).elim s fun b => .funDef f ps b
    | s => s

end Verif.Lang.Pop
