import Verif.Lang.Interp

/-!
# Constant folding

`crates/logicaffeine_compile/src/optimize/fold.rs`, on the modelled constructors.  Literal numbers
are `i64`; a literal outside that range does not exist and is left alone.
-/
namespace Verif.Lang

/-- `BoolSyms` (`fold.rs` 10). -/
abbrev BoolSyms := List Sym

/-- `expr_is_boolish` (`fold.rs` 291–312). -/
def boolish (bools : BoolSyms) : Expr → Bool
  | .lit (.bool _) => true
  | .var s => bools.contains s
  | .not _ => true
  | .bin op _ _ =>
    match op with
    | .eq | .ne | .approxEq | .lt | .gt | .le | .ge | .and | .or => true
    | _ => false
  | _ => false

/-- `expr_is_total` (`fold.rs` 273–285). -/
def total : Expr → Bool
  | .lit _ => true
  | .var _ => true
  | .bin op a b =>
    match op with
    | .div | .exactDiv | .mod => false
    | _ => total a && total b
  | .not a => total a
  | _ => false

/-- One write: the name, whether it is annotated `Bool`, and the value written. -/
abbrev Write := Sym × Bool × Expr

mutual
/-- The writes of one statement (`fold.rs` 20–39). -/
def writesS : Stmt → List Write
  | .letS x isBool _ e => [(x, isBool, e)]
  | .set x e => [(x, false, e)]
  | .ifS _ t e => writesSs t ++ writesSs e
  | .whileS _ b => writesSs b
  | .repeatS _ _ b => writesSs b
  | _ => []

/-- `collect_writes` (`fold.rs` 18–41). -/
def writesSs : List Stmt → List Write
  | [] => []
  | s :: ss => writesS s ++ writesSs ss
end

/-- All writes to `sym` are boolish (`fold.rs` 62–64). -/
def allBool (bools : BoolSyms) (ws : List Write) (sym : Sym) : Bool :=
  (ws.filter fun w => w.1 == sym).all fun w => w.2.1 || boolish bools w.2.2

/-- One candidate of a round (`fold.rs` 58–69). -/
def admit (ws : List Write) (bools : BoolSyms) (sym : Sym) : BoolSyms :=
  if bools.contains sym then bools else if allBool bools ws sym then sym :: bools else bools

/-- One round (`fold.rs` 55–69).  `ord` is the order in which the hash set of candidates is
visited. -/
def boolRound (ord : List Sym → List Sym) (ws : List Write) (bools : BoolSyms) : BoolSyms :=
  (ord (ws.map Prod.fst)).foldl (admit ws) bools

/-- `collect_bool_syms` (`fold.rs` 43–83).  A round that adds nothing is repeated harmlessly
where the code stops early. -/
def collectBools (ord : List Sym → List Sym) (params : List Param) (body : List Stmt) : BoolSyms :=
  let ps := (params.filter Prod.snd).map Prod.fst
  let ws := writesSs body
  let bools := boolRound ord ws (boolRound ord ws ps)
  bools.filter fun sym => allBool bools ws sym || ps.contains sym

/-- A literal. -/
def num (n : Int) : Expr := .lit (.num n)

/-- `checked_*`: the result only if it fits. -/
def numIfFits (n : Int) : Option Expr := if narrow n then some (num n) else none

/-- A Boolean literal. -/
def boolE (b : Bool) : Expr := .lit (.bool b)

/-- `fold_int_op` (`fold.rs` 745–771). -/
def foldInt (op : BinOp) (l r : Int) : Option Expr :=
  if narrow l && narrow r then
    match op with
    | .add => numIfFits (l + r)
    | .sub => numIfFits (l - r)
    | .mul => numIfFits (l * r)
    | .div => if r = 0 then none else numIfFits (l.tdiv r)
    | .mod => if r = 0 then none else if r = -1 ∧ l = -(2 ^ 63) then none else some (num (l.tmod r))
    | .eq => some (boolE (l == r))
    | .ne => some (boolE (l != r))
    | .lt => some (boolE (decide (l < r)))
    | .gt => some (boolE (decide (l > r)))
    | .le => some (boolE (decide (l ≤ r)))
    | .ge => some (boolE (decide (l ≥ r)))
    | .bitXor => some (num (bxor l r))
    | .shl => if 0 ≤ r ∧ r < 64 then some (num (bshl l r)) else none
    | .shr => if 0 ≤ r ∧ r < 64 then some (num (bshr l r)) else none
    | .and => some (boolE (l != 0 && r != 0))
    | .or => some (boolE (l != 0 || r != 0))
    | .bitAnd => some (num (band l r))
    | .bitOr => some (num (bor l r))
    | _ => none
  else none

/-- `fold_float_op` (`fold.rs` 773–789). -/
def foldFloat (P : Prims) (op : BinOp) (l r : Nat) : Option Expr :=
  match op with
  | .add => some (.lit (.flt (P.fadd l r)))
  | .sub => some (.lit (.flt (P.fsub l r)))
  | .mul => some (.lit (.flt (P.fmul l r)))
  | .div => if P.fcmp r P.f0 == some .eq then none else some (.lit (.flt (P.fdiv l r)))
  | .eq => some (boolE (P.fcmp l r == some .eq))
  | .ne => some (boolE (!(P.fcmp l r == some .eq)))
  | .lt | .gt | .le | .ge => some (boolE (relOf op (P.fcmp l r)))
  | _ => none

/-- `fold_bool_op` (`fold.rs` 791–799). -/
def foldBool (op : BinOp) (l r : Bool) : Option Expr :=
  match op with
  | .and => some (boolE (l && r))
  | .or => some (boolE (l || r))
  | .eq => some (boolE (l == r))
  | .ne => some (boolE (l != r))
  | _ => none

/-- `fold_text_op` (`fold.rs` 801–815). -/
def foldText (op : BinOp) (l r : Text) : Option Expr :=
  match op with
  | .concat | .add => some (.lit (.text (l ++ r)))
  | .eq => some (boolE (l == r))
  | .ne => some (boolE (l != r))
  | _ => none

/-- `try_fold_binary` (`fold.rs` 558–579). -/
def tryFold (P : Prims) (op : BinOp) : Expr → Expr → Option Expr
  | .lit (.num l), .lit (.num r) => foldInt op l r
  | .lit (.flt l), .lit (.flt r) => foldFloat P op l r
  | .lit (.bool l), .lit (.bool r) => foldBool op l r
  | .lit (.text l), .lit (.text r) => foldText op l r
  | _, _ => none

/-- `is_int_zero`, `is_int_one` (`fold.rs` 581–587). -/
def isNum (k : Int) : Expr → Bool
  | .lit (.num n) => n == k
  | _ => false

/-- `is_float_zero`, `is_float_one` (`fold.rs` 589–595): `*v == 0.0`, `*v == 1.0`. -/
def isFlt (P : Prims) (k : Nat) : Expr → Bool
  | .lit (.flt f) => P.fcmp f k == some .eq
  | _ => false

/-- `is_power_of_two` (`fold.rs` 597–603). -/
def isPow2 (n : Int) : Bool := decide (1 < n) && narrow n && band n (n - 1) == 0

/-- A given Boolean literal. -/
def isBool (b : Bool) : Expr → Bool
  | .lit (.bool c) => c == b
  | _ => false

/-- The closure `mask_of` (`fold.rs` 714–727). -/
def maskOf : Expr → Option Expr
  | .bin .mod d (.lit (.num k)) => if isPow2 k then some (.bin .bitAnd d (num (k - 1))) else none
  | _ => none

/-- The sums (`fold.rs` 616–620). -/
def simpAdd (l r : Expr) : Option Expr :=
  if isNum 0 r then some l else if isNum 0 l then some r else none

/-- The differences (`fold.rs` 622–625). -/
def simpSub (P : Prims) (l r : Expr) : Option Expr :=
  if isNum 0 r || isFlt P P.f0 r then some l else none

/-- The products (`fold.rs` 635–641). -/
def simpMul (P : Prims) (l r : Expr) : Option Expr :=
  if isNum 1 r || isFlt P P.f1 r then some l
  else if isNum 1 l || isFlt P P.f1 l then some r
  else if isNum 0 r && total l then some r
  else if isNum 0 l && total r then some l
  else none

/-- The quotients (`fold.rs` 643–653). -/
def simpDiv (P : Prims) (l r : Expr) : Option Expr :=
  if isNum 1 r || isFlt P P.f1 r then some l else none

/-- `and` (`fold.rs` 661–682). -/
def simpAnd (bools : BoolSyms) (l r : Expr) : Option Expr :=
  if isBool true r && boolish bools l then some l
  else if isBool true l && boolish bools r then some r
  else if isBool false r && total l then some (boolE false)
  else if isBool false l then some (boolE false)
  else none

/-- `or` (`fold.rs` 683–704). -/
def simpOr (bools : BoolSyms) (l r : Expr) : Option Expr :=
  if isBool true r && total l then some (boolE true)
  else if isBool true l then some (boolE true)
  else if isBool false r && boolish bools l then some l
  else if isBool false l && boolish bools r then some r
  else none

/-- The masked comparison on the left (`fold.rs` 728–732). -/
def maskLeft (op : BinOp) (l r : Expr) : Option Expr :=
  if isNum 0 r then (maskOf l).map fun m => .bin op m r else none

/-- The masked comparison on the right (`fold.rs` 733–737). -/
def maskRight (op : BinOp) (l r : Expr) : Option Expr :=
  if isNum 0 l then (maskOf r).map fun m => .bin op l m else none

/-- `try_simplify_algebraic` (`fold.rs` 605–743). -/
def simplify (P : Prims) (bools : BoolSyms) (op : BinOp) (l r : Expr) : Option Expr :=
  match op with
  | .add => simpAdd l r
  | .sub => simpSub P l r
  | .mul => simpMul P l r
  | .div => simpDiv P l r
  | .and => simpAnd bools l r
  | .or => simpOr bools l r
  | .eq => (maskLeft .eq l r).or (maskRight .eq l r)
  | .ne => (maskLeft .ne l r).or (maskRight .ne l r)
  | _ => none

/-- The `BinaryOp` case of `fold_expr` (`fold.rs` 322–335). -/
def foldBin (P : Prims) (bools : BoolSyms) (op : BinOp) (l r : Expr) : Expr :=
  ((tryFold P op l r).or (simplify P bools op l r)).getD (.bin op l r)

/-- The `Not` case of `fold_expr` (`fold.rs` 440–459). -/
def foldNot (bools : BoolSyms) : Expr → Expr
  | .lit (.bool b) => boolE (!b)
  | .lit (.num n) => boolE (n == 0)
  | .not inner => if boolish bools inner then inner else .not (.not inner)
  | e => .not e

mutual
/-- `fold_expr` (`fold.rs` 314–556). -/
def foldE (P : Prims) (bools : BoolSyms) : Expr → Expr
  | .lit l => .lit l
  | .var x => .var x
  | .bin op a b => foldBin P bools op (foldE P bools a) (foldE P bools b)
  | .not a => foldNot bools (foldE P bools a)
  | .call f args => .call f (foldEs P bools args)
  | .callv c args => .callv (foldE P bools c) (foldEs P bools args)
  | .list items => .list (foldEs P bools items)
  | .index c i => .index (foldE P bools c) (foldE P bools i)
  | .length c => .length (foldE P bools c)
  | .closure ps b => .closure ps (foldE P bools b)

/-- The folded arguments. -/
def foldEs (P : Prims) (bools : BoolSyms) : List Expr → List Expr
  | [] => []
  | e :: es => foldE P bools e :: foldEs P bools es
end

mutual
/-- `fold_stmt` (`fold.rs` 114–266). -/
def foldS (P : Prims) (ord : List Sym → List Sym) (bools : BoolSyms) : Stmt → Stmt
  | .letS x t m e => .letS x t m (foldE P bools e)
  | .set x e => .set x (foldE P bools e)
  | .callS f args => .callS f (foldEs P bools args)
  | .ifS c t e => .ifS (foldE P bools c) (foldSs P ord bools t) (foldSs P ord bools e)
  | .whileS c b => .whileS (foldE P bools c) (foldSs P ord bools b)
  | .repeatS x e b => .repeatS x (foldE P bools e) (foldSs P ord bools b)
  | .ret none => .ret none
  | .ret (some e) => .ret (some (foldE P bools e))
  | .brk => .brk
  | .funDef f ps b => .funDef f ps (foldSs P ord (collectBools ord ps b) b)
  | .showS e => .showS (foldE P bools e)
  | .assertS e => .assertS (foldE P bools e)
  | .push x e => .push x (foldE P bools e)

/-- `fold_block` (`fold.rs` 99–112). -/
def foldSs (P : Prims) (ord : List Sym → List Sym) (bools : BoolSyms) : List Stmt → List Stmt
  | [] => []
  | s :: ss => foldS P ord bools s :: foldSs P ord bools ss
end

/-- `fold_stmts` (`fold.rs` 85–97): the whole pass. -/
def foldProgram (P : Prims) (ord : List Sym → List Sym) (p : List Stmt) : List Stmt :=
  foldSs P ord (collectBools ord [] p) p

end Verif.Lang
