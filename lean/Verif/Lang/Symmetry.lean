import Verif.Lang.Interp
/-!
# Breaking the symmetry of counting searches

`/repo/crates/logicaffeine_compile/src/optimize/symmetry.rs` and the certificate it asks for,
`/repo/crates/logicaffeine_kernel/src/bitvector.rs`.

Simplifications: an absent `else` block is an empty one; the annotation of a `Let` is kept only as the flag of
`Lang/Syntax.lean`; functions are neither native, generic nor exported and have the optimisation on; the names `__sym_mid`
and `__valuesym` that the pass makes are parameters; the certificates, constants of the program, are parameters of the pass
(the one on bits is modelled below).
-/
namespace Verif.Lang

/-! ## The certificate (`bitvector.rs`) -/

/-- `rev_n` (`bitvector.rs` 43-51). -/
def revN (x : BitVec 64) (n : Nat) : BitVec 64 :=
  (List.range n).foldl (fun r i => if x.sshiftRight i &&& 1#64 ≠ 0#64 then r ||| 1#64 <<< (n - 1 - i) else r) 0#64

/-- `(1i64 << n) - 1` (`bitvector.rs` 59). -/
def fullMask (n : Nat) : BitVec 64 := 1#64 <<< n - 1#64

/-- The three comparisons for one width and one value (`bitvector.rs` 62-72). -/
def reflects (n : Nat) (v : BitVec 64) : Bool :=
  (fullMask n &&& ~~~ revN v n == revN (fullMask n &&& ~~~ v) n) &&
  (revN (v <<< 1) n &&& fullMask n == (revN v n).sshiftRight 1 &&& fullMask n) &&
  (revN (v.sshiftRight 1) n &&& fullMask n == revN v n <<< 1 &&& fullMask n)

/-- `check_reflection_identities` (`bitvector.rs` 57-76), for the widths 1 to `w` (`PROOF_WIDTH` is 16). -/
def checkReflection (w : Nat) : Bool :=
  (List.range w).all fun k => (List.range (2 ^ (k + 1))).all fun v => reflects (k + 1) (BitVec.ofNat 64 v)

/-! ## Recognising (`symmetry.rs` 78-444) -/

/-- `as_ident` (`symmetry.rs` 78-83). -/
def asIdent : Expr → Option Sym
  | .var x => some x
  | _ => none

/-- `as_int` (`symmetry.rs` 85-90). -/
def asInt : Expr → Option Int
  | .lit (.num n) => some n
  | _ => none

/-- `is_binop` (`symmetry.rs` 92-97). -/
def isBinop (op : BinOp) : Expr → Option (Expr × Expr)
  | .bin o a b => if o = op then some (a, b) else none
  | _ => none

/-- `match_or_with_bit` (`symmetry.rs` 100-109). -/
def orWithBit (e : Expr) (bit : Sym) : Option Sym :=
  match isBinop .bitOr e with
  | some (l, r) =>
    if asIdent r = some bit then asIdent l
    else if asIdent l = some bit then asIdent r
    else none
  | none => none

/-- `ArgKind` (`symmetry.rs` 112-116). -/
inductive ArgKind where
  | plain
  | left
  | right
deriving DecidableEq

/-- `classify_state_arg` (`symmetry.rs` 120-135). -/
def classifyArg (e : Expr) (bit : Sym) : Option (Sym × ArgKind) :=
  match isBinop .shl e with
  | some (base, amt) =>
    if asInt amt = some 1 then (orWithBit base bit).map (·, .left) else (orWithBit e bit).map (·, .plain)
  | none =>
    match isBinop .shr e with
    | some (base, amt) =>
      if asInt amt = some 1 then (orWithBit base bit).map (·, .right) else (orWithBit e bit).map (·, .plain)
    | none => (orWithBit e bit).map (·, .plain)

/-- `is_step` (`symmetry.rs` 138-143). -/
def isStep (e : Expr) (k : Sym) : Bool :=
  match isBinop .add e with
  | some (l, r) => (asIdent l == some k && asInt r == some 1) || (asInt l == some 1 && asIdent r == some k)
  | none => false

/-- `0 - x` (`symmetry.rs` 163-164). -/
def isNegOf (x : Sym) (e : Expr) : Bool :=
  match isBinop .sub e with
  | some (z, y) => asInt z == some 0 && asIdent y == some x
  | none => false

/-- The other side of `t + e` (`symmetry.rs` 185-197). -/
def addendOf (t : Sym) (e : Expr) : Option Expr :=
  match isBinop .add e with
  | some (a, b) => if asIdent a = some t then some b else if asIdent b = some t then some a else none
  | none => none

/-- `match_bit_loop` (`symmetry.rs` 147-199): the set, the bit, the accumulator and what is added to it. -/
def matchBitLoop (cond : Expr) (body : List Stmt) : Option (Sym × Sym × Sym × Expr) :=
  match isBinop .ne cond with
  | none => none
  | some (xl, xr) =>
    match asIdent xl with
    | none => none
    | some x =>
      if asInt xr ≠ some 0 then none else
      match body with
      | [.letS bit _ _ v, .set t w, .set acc u] =>
        match isBinop .bitAnd v, isBinop .bitXor w with
        | some (a, b), some (c, d) =>
          if (asIdent a == some x && isNegOf x b) || (asIdent b == some x && isNegOf x a) then
            if t == x && ((asIdent c == some x && asIdent d == some bit) || (asIdent c == some bit && asIdent d == some x)) then
              (addendOf acc u).map fun e => (x, bit, acc, e)
            else none
          else none
        | _, _ => none
      | _ => none

/-- `ChoiceKind` (`symmetry.rs` 205-212). -/
inductive ChoiceKind where
  | bits (x : Sym)
  | range (col : Sym) (limit : Expr) (cmp : BinOp)

/-- `ChoiceLoop` (`symmetry.rs` 218-224). -/
structure ChoiceLoop where
  kind : ChoiceKind
  bit : Sym
  acc : Sym
  call : Expr
  guard : Option Expr

/-- `accum_from` (`symmetry.rs` 250-260). -/
def accumFrom (t : Sym) (v : Expr) : Option Expr :=
  match addendOf t v with
  | some (.call f as) => some (.call f as)
  | _ => none

/-- What the walk over the body of a counted loop has seen (`symmetry.rs` 262-264). -/
structure RangeSeen where
  bit : Option Sym := none
  found : Option (Sym × Expr × Option Expr) := none
  incr : Bool := false

/-- One statement of the body of a counted loop (`symmetry.rs` 265-291). -/
def rangeStep (col : Sym) (r : RangeSeen) : Stmt → RangeSeen
  | .letS x _ _ v =>
    match isBinop .shl v with
    | some (l, q) => if asInt l = some 1 ∧ asIdent q = some col then { r with bit := some x } else r
    | none => r
  | .set t v =>
    if t == col && isStep v col then { r with incr := true }
    else
      match accumFrom t v with
      | some c => { r with found := some (t, c, none) }
      | none => r
  | .ifS g [.set t v] [] =>
    match accumFrom t v with
    | some c => { r with found := some (t, c, some g) }
    | none => r
  | _ => r

/-- `match_range_loop` (`symmetry.rs` 239-298). -/
def matchRangeLoop (cond : Expr) (body : List Stmt) : Option ChoiceLoop :=
  match cond with
  | .bin op l limit =>
    if op = .lt ∨ op = .le then
      match asIdent l with
      | none => none
      | some col =>
        let r := body.foldl (rangeStep col) {}
        match r.bit, r.found with
        | some bit, some (acc, call, guard) => if r.incr then some ⟨.range col limit op, bit, acc, call, guard⟩ else none
        | _, _ => none
    else none
  | _ => none

/-- `match_choice_loop` (`symmetry.rs` 301-306). -/
def matchChoiceLoop (cond : Expr) (body : List Stmt) : Option ChoiceLoop :=
  match matchBitLoop cond body with
  | some (x, bit, acc, call) => some ⟨.bits x, bit, acc, call, none⟩
  | none => matchRangeLoop cond body

/-- How many arguments of a recursive call, but the size, are of a kind (`symmetry.rs` 338-353). -/
def countKind (n bit : Sym) (k : Option ArgKind) (as : List Expr) : Nat :=
  ((as.filter fun a => asIdent a ≠ some n).filter fun a => (classifyArg a bit).map Prod.snd = k).length

/-- What one statement of a search says about it (`symmetry.rs` 330-357): `none` if it is not a choice loop with a call of
the function itself, `some none` for the index out of range on a call without arguments. -/
def searchLoop (g : Sym) (params : List Sym) (row n : Sym) : Stmt → Option (Option Bool)
  | .whileS cond body =>
    match matchChoiceLoop cond body with
    | some cl =>
      match cl.call with
      | .call f as =>
        if f = g ∧ as.length = params.length then
          match as with
          | [] => some none
          | a :: rest =>
            if isStep a row then
              some (some (countKind n cl.bit (some .plain) rest == 1 && countKind n cl.bit (some .left) rest == 1 &&
                countKind n cl.bit (some .right) rest == 1 && countKind n cl.bit none rest == 0))
            else none
        else none
      | _ => none
    | none => none
  | _ => none

/-- The base case `if row == n { return CONST }` (`symmetry.rs` 317-329). -/
def baseCase : Stmt → Option (Sym × Sym)
  | .ifS cond [.ret (some v)] [] =>
    match isBinop .eq cond with
    | some (l, r) =>
      match asIdent l, asIdent r, asInt v with
      | some row, some n, some _ => some (row, n)
      | _, _, _ => none
    | none => none
  | _ => none

/-- `is_reflection_search` (`symmetry.rs` 313-359); `none` is a panic. -/
def isReflectionSearch (g : Sym) (params : List Sym) (body : List Stmt) : Option Bool :=
  match body with
  | [] => some false
  | s :: _ =>
    match baseCase s with
    | none => some false
    | some (row, n) => (body.findSome? (searchLoop g params row n)).getD (some false)

/-- `Entry` (`symmetry.rs` 362-371). -/
structure Entry where
  n : Sym
  at' : Nat
  loop : ChoiceLoop
  /-- For the loop over a set: the place of its `Let` and the value there. -/
  avail : Option (Nat × Expr)

/-- A loop that sums a known search from the first row (`symmetry.rs` 386-399). -/
def entryLoop (n : Sym) (searches : List Sym) : Stmt → Option ChoiceLoop
  | .whileS cond body =>
    match matchChoiceLoop cond body with
    | some cl =>
      match cl.call with
      | .call f (a :: as) =>
        if searches.contains f && asInt a == some 1 && (a :: as).any (fun e => asIdent e == some n) then some cl else none
      | _ => none
    | none => none
  | _ => none

/-- `Let x = k` (`symmetry.rs` 403-408, 435-437). -/
def letsTo (x : Sym) (k : Int) : Stmt → Bool
  | .letS y _ _ v => y == x && asInt v == some k
  | _ => false

/-- The last statement returns the name (`symmetry.rs` 409-411). -/
def returnsName (x : Sym) (body : List Stmt) : Bool :=
  match body.getLast? with
  | some (.ret (some v)) => asIdent v == some x
  | _ => false

/-- The value of a `Let` of the name. -/
def letOf (x : Sym) : Stmt → Option Expr
  | .letS y _ _ v => if y = x then some v else none
  | _ => none

/-- The last `Let` of the name (`rposition`, `symmetry.rs` 417-424), with its place. -/
def lastLet (x : Sym) : Nat → List Stmt → Option (Nat × Expr)
  | _, [] => none
  | i, s :: ss =>
    match lastLet x (i + 1) ss with
    | some r => some r
    | none => (letOf x s).map (i, ·)

/-- The first loop that counts, with its place. -/
def findLoop (f : Stmt → Option ChoiceLoop) : Nat → List Stmt → Option (Nat × ChoiceLoop)
  | _, [] => none
  | i, s :: ss =>
    match f s with
    | some cl => some (i, cl)
    | none => findLoop f (i + 1) ss

/-- `recognize_entry` (`symmetry.rs` 375-444). -/
def recognizeEntry (params : List Sym) (body : List Stmt) (searches : List Sym) : Option Entry :=
  match params with
  | [n] =>
    match findLoop (entryLoop n searches) 0 body with
    | none => none
    | some (i, cl) =>
      if (body.take i).any (letsTo cl.acc 0) && returnsName cl.acc body then
        match cl.kind with
        | .bits x => (lastLet x 0 (body.take i)).map fun a => ⟨n, i, cl, some a⟩
        | .range col limit cmp =>
          if cmp == .lt && asIdent limit == some n && (body.take i).any (letsTo col 0) then some ⟨n, i, cl, none⟩ else none
      else none
  | _ => none

/-! ## Rewriting (`symmetry.rs` 448-586) -/

mutual
/-- `subst_ident` (`symmetry.rs` 448-464). -/
def substIdent (x y : Sym) : Expr → Expr
  | .var z => if z = x then .var y else .var z
  | .bin op a b => .bin op (substIdent x y a) (substIdent x y b)
  | .not a => .not (substIdent x y a)
  | .call f as => .call f (substIdents x y as)
  | e => e
/-- The arguments. -/
def substIdents (x y : Sym) : List Expr → List Expr
  | [] => []
  | a :: as => substIdent x y a :: substIdents x y as
end

/-- `int_lit` (`symmetry.rs` 466-468). -/
def intLit (k : Int) : Expr := .lit (.num k)

/-- `shr1` (`symmetry.rs` 227-233). -/
def shr1 (n : Sym) : Expr := .bin .shr (.var n) (intLit 1)

/-- What follows the loop (`symmetry.rs` 528-580): doubling, and the middle column for an odd size. -/
def afterLoop (mid : Sym) (e : Entry) : List Stmt :=
  let acc := e.loop.acc
  let addMid : Stmt := .set acc (.bin .add (.var acc) (substIdent e.loop.bit mid e.loop.call))
  let midLet : Stmt := .letS mid false false (.bin .shl (intLit 1) (shr1 e.n))
  let middle : List Stmt :=
    match e.loop.guard with
    | some g => [midLet, .ifS (substIdent e.loop.bit mid g) [addMid] []]
    | none => [midLet, addMid]
  [.set acc (.bin .mul (.var acc) (intLit 2)),
   .ifS (.bin .ne (.bin .mod (.var e.n) (intLit 2)) (intLit 0)) middle []]

/-- The loop over half of the choices (`symmetry.rs` 508-526). -/
def halfLoop (e : Entry) (s : Stmt) : Stmt :=
  match e.loop.kind, s with
  | .range col _ cmp, .whileS _ b => .whileS (.bin cmp (.var col) (shr1 e.n)) b
  | _, s => s

/-- The set restricted to its lower half (`symmetry.rs` 486-504). -/
def halfSet (e : Entry) (init : Expr) (s : Stmt) : Stmt :=
  match s with
  | .letS x b m _ => .letS x b m (.bin .bitAnd init (.bin .sub (.bin .shl (intLit 1) (shr1 e.n)) (intLit 1)))
  | s => s

/-- `rewrite_entry` (`symmetry.rs` 477-586), from place `i` on. -/
def rewriteEntry (mid : Sym) (e : Entry) : Nat → List Stmt → List Stmt
  | _, [] => []
  | i, s :: ss =>
    (match e.avail with
      | some (k, init) =>
        if i = k then [halfSet e init s] else if i = e.at' then halfLoop e s :: afterLoop mid e else [s]
      | none => if i = e.at' then halfLoop e s :: afterLoop mid e else [s]) ++ rewriteEntry mid e (i + 1) ss

/-! ## Interchangeable values (`symmetry.rs` 588-956) -/

mutual
/-- `expr_contains_sym` (`symmetry.rs` 658-669). -/
def containsSym (x : Sym) : Expr → Bool
  | .var y => y == x
  | .lit _ => false
  | .bin _ a b => containsSym x a || containsSym x b
  | .not a => containsSym x a
  | .call _ as => containsSyms x as
  | _ => true
/-- Some of the arguments. -/
def containsSyms (x : Sym) : List Expr → Bool
  | [] => false
  | a :: as => containsSym x a || containsSyms x as
end

mutual
/-- `expr_sym_only_in_equality` (`symmetry.rs` 675-689). -/
def onlyInEq (x : Sym) : Expr → Bool
  | .var y => y != x
  | .lit _ => true
  | .bin op a b => if op = .eq ∨ op = .ne then eqSideOk x a && eqSideOk x b else onlyInEq x a && onlyInEq x b
  | .not a => onlyInEq x a
  | .call _ as => onlyInEqs x as
  | e => !containsSym x e
/-- `eq_side_ok` (`symmetry.rs` 693-698). -/
def eqSideOk (x : Sym) : Expr → Bool
  | .var _ => true
  | .lit _ => true
  | .bin op a b => if op = .eq ∨ op = .ne then eqSideOk x a && eqSideOk x b else onlyInEq x a && onlyInEq x b
  | .not a => onlyInEq x a
  | .call _ as => onlyInEqs x as
  | e => !containsSym x e
/-- All of the arguments. -/
def onlyInEqs (x : Sym) : List Expr → Bool
  | [] => true
  | a :: as => onlyInEq x a && onlyInEqs x as
end

mutual
/-- One statement for `param_used_only_in_equality` (`symmetry.rs` 702-717). -/
def stmtOnlyInEq (x : Sym) : Stmt → Bool
  | .letS _ _ _ v => onlyInEq x v
  | .set _ v => onlyInEq x v
  | .ret none => true
  | .ret (some v) => onlyInEq x v
  | .ifS c t e => onlyInEq x c && usedOnlyInEq x t && usedOnlyInEq x e
  | .whileS c b => onlyInEq x c && usedOnlyInEq x b
  | _ => false
/-- `param_used_only_in_equality` (`symmetry.rs` 701-718). -/
def usedOnlyInEq (x : Sym) : List Stmt → Bool
  | [] => true
  | s :: ss => stmtOnlyInEq x s && usedOnlyInEq x ss
end

/-- The name a value is compared with (`symmetry.rs` 744-756). -/
def comparedWith (c : Sym) : Expr → Option Sym
  | .bin op l r =>
    if op = .eq ∨ op = .ne then
      if asIdent l = some c then asIdent r else if asIdent r = some c then asIdent l else none
    else none
  | _ => none

/-- The places of a name among the arguments. -/
def placesOf (c : Sym) : Nat → List Expr → List Nat
  | _, [] => []
  | i, a :: as => if asIdent a = some c then i :: placesOf c (i + 1) as else placesOf c (i + 1) as

/-- The guarded sum in the loop over the values (`symmetry.rs` 743-783). -/
def guardedSum (f : Sym) (params : List Sym) (level c : Sym) : Stmt → Option (Nat × Sym)
  | .ifS g [.set acc v] [] =>
    match comparedWith c g with
    | none => none
    | some prev =>
      if prev = c ∨ ¬ params.contains prev then none else
      match addendOf acc v with
      | some (.call h (a :: as)) =>
        if h = f ∧ (a :: as).length = params.length ∧ isStep a level then
          match placesOf c 0 (a :: as) with
          | [k + 1] => some (k + 1, prev)
          | _ => none
        else none
      | _ => none
  | _ => none

/-- `c = c + 1`. -/
def stepsBy (c : Sym) : Stmt → Bool
  | .set t v => t == c && isStep v c
  | _ => false

/-- `match_value_search_loop` (`symmetry.rs` 726-792) on the two statements of the body, in either order. -/
def valueLoop (f : Sym) (params : List Sym) (level : Sym) (cond : Expr) (body : List Stmt) : Option (Nat × Sym) :=
  match cond with
  | .bin op l _ =>
    if op = .lt ∨ op = .le then
      match asIdent l, body with
      | some c, [s, t] =>
        if stepsBy c t then guardedSum f params level c s
        else if stepsBy c s then guardedSum f params level c t
        else none
      | _, _ => none
    else none
  | _ => none

/-- The base case `if level cmp size { return CONST }` (`symmetry.rs` 803-820). -/
def valueBase : Stmt → Option Sym
  | .ifS (.bin op l _) [.ret (some v)] [] =>
    if op = .gt ∨ op = .ge ∨ op = .eq then
      match asIdent l, asInt v with
      | some x, some _ => some x
      | _, _ => none
    else none
  | _ => none

/-- `value_search_val_pos` (`symmetry.rs` 799-832). -/
def valueSearch (f : Sym) (params : List Sym) (body : List Stmt) : Option Nat :=
  match body with
  | [] => none
  | s :: _ =>
    match valueBase s with
    | none => none
    | some level =>
      body.findSome? fun s =>
        match s with
        | .whileS cond b =>
          match valueLoop f params level cond b with
          | some (pos, prev) => if usedOnlyInEq prev body then some pos else none
          | none => none
        | _ => none

/-- `ValueEntry` (`symmetry.rs` 837-843). -/
structure ValueEntry where
  at' : Nat
  total : Sym
  fn : Sym
  args : List Expr
  pos : Nat
  bound : Expr

/-- The sum in the loop of an entry (`symmetry.rs` 866-888): the accumulator and what is added. -/
def plainSum : Stmt → Option (Sym × Expr)
  | .set t v => (addendOf t v).map (t, ·)
  | _ => none

/-- One statement as the loop of an entry (`symmetry.rs` 854-914). -/
def valueEntryAt (body : List Stmt) (vals : List (Sym × Nat)) (i : Nat) : Stmt → Option ValueEntry
  | .whileS (.bin .le l bound) [s, t] =>
    match asIdent l with
    | none => none
    | some c =>
      match (if stepsBy c t then (if stepsBy c s then none else plainSum s) else if stepsBy c s then plainSum t else none) with
      | some (total, .call f as) =>
        match vals.lookup f with
        | none => none
        | some pos =>
          if (as[pos]?.bind asIdent) = some c ∧ (placesOf c 0 as).length = 1 ∧ (body.take i).any (letsTo c 1) ∧
              (body.take i).any (letsTo total 0) ∧ returnsName total body then
            some ⟨i, total, f, as, pos, bound⟩
          else none
      | _ => none
  | _ => none

/-- `recognize_value_entry` (`symmetry.rs` 850-917), from place `i` on. -/
def recognizeValue (body : List Stmt) (vals : List (Sym × Nat)) : Nat → List Stmt → Option ValueEntry
  | _, [] => none
  | i, s :: ss =>
    match valueEntryAt body vals i s with
    | some e => some e
    | none => recognizeValue body vals (i + 1) ss

/-- `rewrite_value_entry` (`symmetry.rs` 924-956), from place `i` on. -/
def rewriteValue (vsym : Sym) (e : ValueEntry) : Nat → List Stmt → List Stmt
  | _, [] => []
  | i, s :: ss =>
    (if i = e.at' then [Stmt.letS vsym false false e.bound,
      .set e.total (.bin .mul (.var vsym) (.call e.fn (e.args.set e.pos (intLit 1))))] else [s]) ++
      rewriteValue vsym e (i + 1) ss

/-! ## The pass -/

/-- The searches of both kinds among the functions (`symmetry.rs` 967-985); `none` is a panic. -/
def catalogue : List Stmt → Option (List Sym × List (Sym × Nat))
  | [] => some ([], [])
  | .funDef f ps b :: ss =>
    match isReflectionSearch f (ps.map Prod.fst) b, catalogue ss with
    | some true, some (r, v) => some (f :: r, v)
    | some false, some (r, v) =>
      match valueSearch f (ps.map Prod.fst) b with
      | some k => some (r, v ++ [(f, k)])
      | none => some (r, v)
    | _, _ => none
  | _ :: ss => catalogue ss

/-- The body of a function after the pass (`symmetry.rs` 998-1044). -/
def breakBody (reflOk valueOk : Bool) (mid vsym : Sym) (searches : List Sym) (vals : List (Sym × Nat)) (f : Sym)
    (params : List Sym) (body : List Stmt) : List Stmt :=
  if searches.contains f || (vals.lookup f).isSome then body
  else
    match (if reflOk && !searches.isEmpty then recognizeEntry params body searches else none) with
    | some e => rewriteEntry mid e 0 body
    | none =>
      match (if valueOk && !vals.isEmpty then recognizeValue body vals 0 body else none) with
      | some e => rewriteValue vsym e 0 body
      | none => body

/-- `break_symmetry_stmts` (`symmetry.rs` 961-1048); `none` is a panic. -/
def breakSymmetry (reflOk valueOk : Bool) (mid vsym : Sym) (p : List Stmt) : Option (List Stmt) :=
  (catalogue p).map fun (searches, vals) =>
    p.map fun s =>
      match s with
      | .funDef f ps b => .funDef f ps (breakBody reflOk valueOk mid vsym searches vals f (ps.map Prod.fst) b)
      | s => s

end Verif.Lang
