import Verif.Lang.EGraph

/-!
# The rewrite rules and saturation

`crates/logicaffeine_compile/src/optimize/egraph/rules.rs` 343–953 and the registry 965–1330 (the
certificates are not modelled: `EGraphRuleSound.lean` proves the rules), `saturate`
(`mod.rs` 346–366), and the passes over one expression and over a straight-line run
(`convert.rs` 414–640).
-/
namespace Verif.Lang.EGraph
open Verif.UnionFind

/-- A rule looks at a node and may return a node of an equal class; it may add nodes
(`rules.rs` 36–40). -/
abbrev Rule := EG → Nat → Option Nat × EG

/-! ## The fold evaluator -/

/-- An `i64` result, `None` on overflow (`checked_add` and so on). -/
def checked (n : Int) : Option Int := if narrow n then some n else none

/-- `fold_binop` (`rules.rs` 361–385) on the operators of `r_const_fold`. -/
def foldBin (op : BinOp) (a b : Int) : Option Int :=
  match op with
  | .add => checked (a + b)
  | .sub => checked (a - b)
  | .mul => checked (a * b)
  | .div => if b = 0 then none else checked (a.tdiv b)
  | .mod => if b = 0 then none else if a = -(2 ^ 63) ∧ b = -1 then none else some (a.tmod b)
  | .shl => some (bshl a b)
  | .shr => some (bshr a b)
  | .bitXor => some (bxor a b)
  | .bitAnd => some (band a b)
  | .bitOr => some (bor a b)
  | _ => none

/-! ## Guards -/

/-- `is_int` (`rules.rs` 391–393). -/
def isInt (g : EG) (i : Nat) : Bool := g.scalarOf i == some .int
/-- `is_bool` (`rules.rs` 395–397). -/
def isBool (g : EG) (i : Nat) : Bool := g.scalarOf i == some .bool
/-- `removable` (`rules.rs` 400–402). -/
def removable (g : EG) (i : Nat) : Bool := g.provablyTotal i
/-- `proven` (`rules.rs` 406–408). -/
def proven (g : EG) (i : Nat) (k : Int) : Bool := g.intValue i == some k

/-- Return a node added to the graph. -/
def ret (r : Nat × EG) : Option Nat × EG := (some r.1, r.2)

/-! ## Group 1 -/

/-- `r_add_zero` (`rules.rs` 414–424). -/
def rAddZero : Rule := fun g i =>
  match g.canon i with
  | .bin .add l r =>
    if proven g r 0 && isInt g l && removable g r then (some l, g)
    else if proven g l 0 && isInt g r && removable g l then (some r, g)
    else (none, g)
  | _ => (none, g)

/-- `r_mul_one` (`rules.rs` 426–436). -/
def rMulOne : Rule := fun g i =>
  match g.canon i with
  | .bin .mul l r =>
    if proven g r 1 && isInt g l && removable g r then (some l, g)
    else if proven g l 1 && isInt g r && removable g l then (some r, g)
    else (none, g)
  | _ => (none, g)

/-- The zero operand and the other one (`rules.rs` 440–446). -/
def zeroSide (g : EG) (l r : Nat) : Option (Nat × Nat) :=
  if proven g r 0 then some (r, l) else if proven g l 0 then some (l, r) else none

/-- `r_mul_zero` (`rules.rs` 438–456). -/
def rMulZero : Rule := fun g i =>
  match g.canon i with
  | .bin .mul l r =>
    match zeroSide g l r with
    | some (z, other) =>
      if isInt g other && removable g other && removable g z then ret (g.add (.int 0))
      else (none, g)
    | none => (none, g)
  | _ => (none, g)

/-- `r_sub_zero` (`rules.rs` 458–465). -/
def rSubZero : Rule := fun g i =>
  match g.canon i with
  | .bin .sub l r =>
    if proven g r 0 && isInt g l && removable g r then (some l, g) else (none, g)
  | _ => (none, g)

/-- `r_sub_self` (`rules.rs` 467–475). -/
def rSubSelf : Rule := fun g i =>
  match g.canon i with
  | .bin .sub l r =>
    if g.find l == g.find r && isInt g l && removable g l then ret (g.add (.int 0)) else (none, g)
  | _ => (none, g)

/-- `r_div_one` (`rules.rs` 477–484). -/
def rDivOne : Rule := fun g i =>
  match g.canon i with
  | .bin .div l r =>
    if proven g r 1 && isInt g l && removable g r then (some l, g) else (none, g)
  | _ => (none, g)

/-- `r_not_not_bool` (`rules.rs` 486–497). -/
def rNotNot : Rule := fun g i =>
  match g.canon i with
  | .not inner =>
    ((g.members inner).findSome? fun m =>
      match g.canon m with
      | .not x => if isBool g x then some x else none
      | _ => none, g)
  | _ => (none, g)

/-! ## Group 2 -/

/-- `r_true_and` (`rules.rs` 509–516). -/
def rTrueAnd : Rule := fun g i =>
  match g.canon i with
  | .bin .and l r =>
    if g.classHasBool l true && isBool g r && removable g l then (some r, g) else (none, g)
  | _ => (none, g)

/-- `r_false_and` (`rules.rs` 518–528). -/
def rFalseAnd : Rule := fun g i =>
  match g.canon i with
  | .bin .and l r =>
    if g.classHasBool l false && isBool g r && removable g l then ret (g.add (.bool false))
    else (none, g)
  | _ => (none, g)

/-- `r_true_or` (`rules.rs` 530–538). -/
def rTrueOr : Rule := fun g i =>
  match g.canon i with
  | .bin .or l r =>
    if g.classHasBool l true && isBool g r && removable g l then ret (g.add (.bool true))
    else (none, g)
  | _ => (none, g)

/-- `r_false_or` (`rules.rs` 540–547). -/
def rFalseOr : Rule := fun g i =>
  match g.canon i with
  | .bin .or l r =>
    if g.classHasBool l false && isBool g r && removable g l then (some r, g) else (none, g)
  | _ => (none, g)

/-- `r_and_self` (`rules.rs` 549–558). -/
def rAndSelf : Rule := fun g i =>
  match g.canon i with
  | .bin .and l r => if g.find l == g.find r && isBool g l then (some l, g) else (none, g)
  | _ => (none, g)

/-- `r_or_self` (`rules.rs` 560–567). -/
def rOrSelf : Rule := fun g i =>
  match g.canon i with
  | .bin .or l r => if g.find l == g.find r && isBool g l then (some l, g) else (none, g)
  | _ => (none, g)

/-- `class_negates` (`rules.rs` 570–580). -/
def classNegates (g : EG) (maybeNot base : Nat) : Bool :=
  (g.members maybeNot).any fun m =>
    match g.canon m with
    | .not x => g.find x == g.find base
    | _ => false

/-- `r_and_not_self` (`rules.rs` 582–594). -/
def rAndNotSelf : Rule := fun g i =>
  match g.canon i with
  | .bin .and l r =>
    if isBool g l && (classNegates g r l || classNegates g l r) && removable g l && removable g r then
      ret (g.add (.bool false))
    else (none, g)
  | _ => (none, g)

/-- `r_or_not_self` (`rules.rs` 596–608). -/
def rOrNotSelf : Rule := fun g i =>
  match g.canon i with
  | .bin .or l r =>
    if isBool g l && (classNegates g r l || classNegates g l r) && removable g l && removable g r then
      ret (g.add (.bool true))
    else (none, g)
  | _ => (none, g)

/-! ## Group 3 -/

/-- `pow2_log` (`rules.rs` 614–620) on an `i64`. -/
def pow2Log (k : Int) : Option Nat :=
  if 0 < k then (List.range 63).find? (fun n => k = 2 ^ n) else none

/-- The operand multiplied by two (`rules.rs` 624–630). -/
def twoSide (g : EG) (l r : Nat) : Option Nat :=
  if proven g r 2 && removable g r then some l
  else if proven g l 2 && removable g l then some r
  else none

/-- `r_mul_two_add` (`rules.rs` 622–639). -/
def rMulTwo : Rule := fun g i =>
  match g.canon i with
  | .bin .mul l r =>
    match twoSide g l r with
    | some x => if isInt g x then ret (g.add (.bin .add x x)) else (none, g)
    | none => (none, g)
  | _ => (none, g)

/-- `mul_pow2_fits_i64` (`rules.rs` 646–653). -/
def mulFits (range : Option (Int × Int)) (n : Nat) : Bool :=
  match range with
  | none => false
  | some (lo, hi) => decide (n < 63) && narrow (lo * 2 ^ n) && narrow (hi * 2 ^ n)

/-- The operand multiplied by a power of two, and its exponent (`rules.rs` 657–663). -/
def powSide (g : EG) (l r : Nat) : Option (Nat × Nat) :=
  match (g.intValue r).bind pow2Log with
  | some n => if removable g r then some (l, n) else none
  | none =>
    match (g.intValue l).bind pow2Log with
    | some n => if removable g l then some (r, n) else none
    | none => none

/-- `r_mul_pow2_shl` (`rules.rs` 655–678). -/
def rMulShl : Rule := fun g i =>
  match g.canon i with
  | .bin .mul l r =>
    match powSide g l r with
    | some (x, n) =>
      if isInt g x && mulFits (g.intRange x) n then
        let s := g.add (.int n)
        ret (s.2.add (.bin .shl x s.1))
      else (none, g)
    | none => (none, g)
  | _ => (none, g)

/-- `r_div_pow2_shr` (`rules.rs` 680–693). -/
def rDivShr : Rule := fun g i =>
  match g.canon i with
  | .bin .div l r =>
    match (g.intValue r).bind pow2Log with
    | some n =>
      if isInt g l && g.provenNonneg l && removable g r then
        let s := g.add (.int n)
        ret (s.2.add (.bin .shr l s.1))
      else (none, g)
    | none => (none, g)
  | _ => (none, g)

/-- `r_mod_pow2_and` (`rules.rs` 695–706). -/
def rModAnd : Rule := fun g i =>
  match g.canon i with
  | .bin .mod l r =>
    match g.intValue r with
    | some k =>
      if (pow2Log k).isSome && isInt g l && g.provenNonneg l && removable g r then
        let s := g.add (.int (k - 1))
        ret (s.2.add (.bin .bitAnd l s.1))
      else (none, g)
    | none => (none, g)
  | _ => (none, g)

/-! ## Group 5 -/

/-- `member_matching` (`rules.rs` 715–722). -/
def memberMatching (g : EG) (i : Nat) (p : ENode → Bool) : Option ENode :=
  ((g.members i).map g.canon).find? p

/-- The node is a copy. -/
def isCopy : ENode → Bool
  | .copy _ => true
  | _ => false
/-- The node is a slice. -/
def isSlice : ENode → Bool
  | .slice _ _ _ => true
  | _ => false
/-- The node is a length. -/
def isLen : ENode → Bool
  | .len _ => true
  | _ => false

/-- `r_len_copy` (`rules.rs` 726–737). -/
def rLenCopy : Rule := fun g i =>
  match g.canon i with
  | .len c =>
    match memberMatching g c isCopy with
    | some (.copy inner) =>
      if g.provenCollection inner then ret (g.add (.len inner)) else (none, g)
    | _ => (none, g)
  | _ => (none, g)

/-- `r_index_copy` (`rules.rs` 741–752). -/
def rIndexCopy : Rule := fun g i =>
  match g.canon i with
  | .index c j =>
    match memberMatching g c isCopy with
    | some (.copy inner) =>
      if g.provenCollection inner then ret (g.add (.index inner j)) else (none, g)
    | _ => (none, g)
  | _ => (none, g)

/-- `r_copy_copy` (`rules.rs` 757–764). -/
def rCopyCopy : Rule := fun g i =>
  match g.canon i with
  | .copy c => if (memberMatching g c isCopy).isSome then (some (g.find c), g) else (none, g)
  | _ => (none, g)

/-- `r_slice_full_copy` (`rules.rs` 769–781). -/
def rSliceFull : Rule := fun g i =>
  match g.canon i with
  | .slice xs a b =>
    if g.intValue a == some 1 && g.provenList xs then
      match memberMatching g b isLen with
      | some (.len c) => if g.find c == g.find xs then ret (g.add (.copy xs)) else (none, g)
      | _ => (none, g)
    else (none, g)
  | _ => (none, g)

/-- `r_len_slice_bounds` (`rules.rs` 787–809). -/
def rLenSlice : Rule := fun g i =>
  match g.canon i with
  | .len s =>
    match memberMatching g s isSlice with
    | some (.slice xs a b) =>
      match g.intValue a, g.intValue b with
      | some av, some bv =>
        if av < 1 || av > bv + 1 || !g.provenList xs then (none, g)
        else
          let lc := g.add (.len xs)
          match lc.2.intRange lc.1 with
          | some (lo, _) =>
            if bv ≤ lo && removable lc.2 xs then ret (lc.2.add (.int (bv - av + 1)))
            else (none, lc.2)
          | none => (none, lc.2)
      | _, _ => (none, g)
    | _ => (none, g)
  | _ => (none, g)

/-! ## Commutativity, associativity, constants -/

/-- `r_add_comm`, `r_mul_comm` (`rules.rs` 815–835). -/
def rComm (op : BinOp) : Rule := fun g i =>
  match g.canon i with
  | .bin o l r =>
    if o = op then
      if isInt g l && isInt g r && removable g l && removable g r then ret (g.add (.bin op r l))
      else (none, g)
    else (none, g)
  | _ => (none, g)

/-- The first member that is `a op b` with integer operands (`rules.rs` 842–844). -/
def assocPair (g : EG) (op : BinOp) (l : Nat) : Option (Nat × Nat) :=
  (g.members l).findSome? fun m =>
    match g.canon m with
    | .bin o a b => if o = op then (if isInt g a && isInt g b then some (a, b) else none) else none
    | _ => none

/-- `r_add_assoc`, `r_mul_assoc` (`rules.rs` 837–871). -/
def rAssoc (op : BinOp) : Rule := fun g i =>
  match g.canon i with
  | .bin o l c =>
    if o = op then
      if isInt g c then
        match assocPair g op l with
        | some (a, b) =>
          let bc := g.add (.bin op b c)
          ret (bc.2.add (.bin op a bc.1))
        | none => (none, g)
      else (none, g)
    else (none, g)
  | _ => (none, g)

/-- The first product among the members of a class that satisfies a test. -/
def mulPair {α : Type} (g : EG) (l : Nat) (k : Nat → Nat → Option α) : Option α :=
  (g.members l).findSome? fun m =>
    match g.canon m with
    | .bin .mul a b => k a b
    | _ => none

/-- May the operand take part in the butterfly? (`rules.rs` 889) -/
def gaussOk (g : EG) (x : Nat) : Bool := isInt g x && removable g x

/-- The products of the butterfly (`rules.rs` 884–889). -/
def gaussPairs (g : EG) (l r : Nat) : Option (Nat × Nat × Nat × Nat) :=
  mulPair g l fun la lb => mulPair g r fun ra rb =>
    if gaussOk g la && gaussOk g lb && gaussOk g ra && gaussOk g rb then some (la, lb, ra, rb)
    else none

/-- The nodes of the butterfly (`rules.rs` 890–897). -/
def gaussBuild (g : EG) (la lb ra rb : Nat) : Nat × EG :=
  let sa := g.add (.bin .add la ra)
  let sb := sa.2.add (.bin .add lb rb)
  let pr := sb.2.add (.bin .mul sa.1 sb.1)
  let c1 := pr.2.add (.bin .mul la rb)
  let c2 := c1.2.add (.bin .mul ra lb)
  let s1 := c2.2.add (.bin .sub pr.1 c1.1)
  s1.2.add (.bin .sub s1.1 c2.1)

/-- `r_gauss_butterfly` (`rules.rs` 881–904). -/
def rGauss : Rule := fun g i =>
  match g.canon i with
  | .bin .add l r =>
    match gaussPairs g l r with
    | some (la, lb, ra, rb) => ret (gaussBuild g la lb ra rb)
    | none => (none, g)
  | _ => (none, g)

/-- `r_const_fold` (`rules.rs` 910–953). -/
def rConst : Rule := fun g i =>
  match g.canon i with
  | .bin op l r =>
    if g.find i == g.find l || g.find i == g.find r then (none, g)
    else
      match g.intValue l, g.intValue r with
      | some a, some b =>
        if removable g l && removable g r then
          match foldBin op a b with
          | some v => ret (g.add (.int v))
          | none => (none, g)
        else (none, g)
      | _, _ => (none, g)
  | _ => (none, g)

/-- `all` (`rules.rs` 965–1330), in order. -/
def allRules : List Rule :=
  [rAddZero, rMulOne, rMulZero, rSubZero, rSubSelf, rGauss, rDivOne, rNotNot, rTrueAnd, rFalseAnd,
   rTrueOr, rFalseOr, rAndSelf, rOrSelf, rAndNotSelf, rOrNotSelf, rMulTwo, rMulShl, rDivShr,
   rModAnd, rComm .add, rAssoc .add, rComm .mul, rAssoc .mul, rConst, rLenCopy, rIndexCopy,
   rCopyCopy, rSliceFull, rLenSlice]

/-! ## Saturation -/

/-- The state of `saturate`: the graph, `changed`, and whether the node cap was hit. -/
abbrev SatState := EG × Bool × Bool

/-- One rule on one node (`mod.rs` 353–360). -/
def applyRule (cap i : Nat) (s : SatState) (rule : Rule) : SatState :=
  if s.2.2 then s
  else if cap < s.1.nodes.length + 4 then (s.1, s.2.1, true)
  else
    match rule s.1 i with
    | (some r, g) => let u := g.union i r; (u.2, s.2.1 || u.1, false)
    | (none, g) => (g, s.2.1, false)

/-- One pass over the nodes (`mod.rs` 351–361). -/
def satPass (cap : Nat) (rules : List Rule) (g : EG) : SatState :=
  (List.range g.nodes.length).foldl (fun s i => rules.foldl (applyRule cap i) s) (g, false, false)

/-- The loop of `saturate` (`mod.rs` 348–366). -/
def satLoop (fuel cap : Nat) (rules : List Rule) : Nat → EG → EG
  | 0, g => g
  | k + 1, g =>
    let s := satPass cap rules g
    let g' := s.1.rebuild fuel
    if s.2.2 then g'
    else if !s.2.1 && g'.nodes.length == g.nodes.length then g'
    else satLoop fuel cap rules k g'

/-- `saturate` (`mod.rs` 346–366), with `SATURATION_ITERS` and `MAX_NODES` as parameters. -/
def saturate (fuel iters cap : Nat) (rules : List Rule) (g : EG) : EG :=
  satLoop fuel cap rules iters (g.rebuild fuel)

/-! ## One expression -/

/-- `simplify_expr_in` (`convert.rs` 429–451).  `SATURATION_ITERS` is 8 and `MAX_NODES` 10 000; a
missing representative is a panic in the code (`best_tree`), here the original is kept. -/
def simplifyWith (rules : List Rule) (fuel iters cap : Nat) (F : Nat → SiteFact)
    (suppressed : List Sym) (e : XE) : XE :=
  if worth e then
    let r := Conv.toNode F e { suppressed := suppressed }
    let c := r.2.finish
    let g := saturate fuel iters cap rules c.eg
    match extract fuel g (fun _ => true) c.opaques r.1.1 with
    | some e' => if structEq e' e then e else e'
    | none => e
  else e

/-- `simplify_expr` (`convert.rs` 416–424). -/
def simplify (fuel : Nat) (F : Nat → SiteFact) (suppressed : List Sym) (e : XE) : XE :=
  simplifyWith allRules fuel 8 10000 F suppressed e

end Verif.Lang.EGraph
