import Verif.Proof.Rup
import Verif.Proof.Pr
import Verif.Common.HMap
import Verif.Common.SortBy
/-!
# Clausal translation

Models `crates/logicaffeine_proof/src/cnf.rs` and the certified entry points of `rup.rs`.
Text is a list of characters. The `u32` variable counter is an unbounded number.
-/

namespace Verif.Proof

/-- `ProofTerm` (`lib.rs:133-150`). -/
inductive Term where
  | const (s : List Char)
  | var (s : List Char)
  | fn (name : List Char) (args : List Term)
  | group (ts : List Term)
  | bound (s : List Char)

/-- `ProofExpr` (`lib.rs:199-340`). Every variant the translation rejects (quantifiers, modal and
temporal operators, lambda, events, constructors, holes, embedded terms) is `other`. -/
inductive Expr where
  | pred (name : List Char) (args : List Term) (world : Option (List Char))
  | ident (a b : Term)
  | atom (name : List Char)
  | and (a b : Expr)
  | or (a b : Expr)
  | implies (a b : Expr)
  | iff (a b : Expr)
  | not (a : Expr)
  | other (tag : Nat)

/-- `Vec<String>::join(",")` (also the loop at `cnf.rs:323-328`). -/
def joinComma : List (List Char) → List Char
  | [] => []
  | [x] => x
  | x :: y :: r => x ++ [','] ++ joinComma (y :: r)

mutual
/-- `term_key` (`cnf.rs:343-352`). -/
def termKey : Term → List Char
  | .const s => s
  | .var s => '?' :: s
  | .bound s => '?' :: s
  | .fn n args => n ++ ['('] ++ joinComma (termKeys args) ++ [')']
  | .group _ => ['<', 'g', 'r', 'o', 'u', 'p', '>']
/-- `args.iter().map(term_key)`. -/
def termKeys : List Term → List (List Char)
  | [] => []
  | t :: ts => termKey t :: termKeys ts
end

/-- `String` comparison `<=`: byte order of UTF-8, which is code point order. -/
def leChars : List Char → List Char → Bool
  | [], _ => true
  | _ :: _, [] => false
  | x :: xs, y :: ys =>
    if x.toNat < y.toNat then true else if y.toNat < x.toNat then false else leChars xs ys

/-- `atom_key` (`cnf.rs:317-341`). -/
def atomKey : Expr → Option (List Char)
  | .pred name args _ => some (name ++ ['('] ++ joinComma (termKeys args) ++ [')'])
  | .ident a b =>
    let ka := termKey a
    let kb := termKey b
    if leChars ka kb then some (['='] ++ ka ++ ['='] ++ kb) else some (['='] ++ kb ++ ['='] ++ ka)
  | .atom name => some (['a', 't', 'o', 'm', ':'] ++ name)
  | _ => none

/-- `negate_expr` (`cnf.rs:308-313`). -/
def negateExpr : Expr → Expr
  | .not p => p
  | e => .not e

/-- Operator tags of the structural cache (`cnf.rs:14-17`). -/
inductive Op where
  | and | or | impl | iff
  deriving DecidableEq, Repr

/-- `Cnf` (`cnf.rs:35-46`). `clause_seen` holds exactly the stored clauses and is represented by
them. -/
structure Cnf where
  atomOf : HMap (List Char) Nat
  numVars : Nat
  clauses : List Clause
  cache : HMap (Op × Lit × Lit) Lit

/-- `Cnf::new` (`cnf.rs:49-51`). -/
def Cnf.new : Cnf := ⟨HMap.empty, 0, [], HMap.empty⟩

/-- Order on `(var, is_positive)` (`cnf.rs:23`, `cnf.rs:110`). -/
def leLit (a b : Lit) : Bool := a.var < b.var || (a.var == b.var && (!a.pos || b.pos))

/-- `order2` (`cnf.rs:22-28`). -/
def order2 (a b : Lit) : Lit × Lit := if leLit a b then (a, b) else (b, a)

/-- `lits.windows(2).any(|w| w[0].var() == w[1].var())` (`cnf.rs:113`, `cdcl.rs:704-709`). -/
def sameVarAdj : Clause → Bool
  | [] => false
  | [_] => false
  | x :: y :: r => x.var == y.var || sameVarAdj (y :: r)

namespace Cnf

/-- `fresh` (`cnf.rs:89-93`). -/
def fresh (s : Cnf) : Nat × Cnf := (s.numVars, { s with numVars := s.numVars + 1 })

/-- `atom_var` (`cnf.rs:96-103`). -/
def atomVar (s : Cnf) (key : List Char) : Nat × Cnf :=
  match s.atomOf.get? key with
  | some v => (v, s)
  | none => (s.numVars, { s with numVars := s.numVars + 1, atomOf := s.atomOf.insert key s.numVars })

/-- `push_clause` (`cnf.rs:109-119`). -/
def pushClause (s : Cnf) (lits : Clause) : Cnf :=
  if sameVarAdj (dedupAdj (sortBy leLit lits)) then s
  else if dedupAdj (sortBy leLit lits) ∈ s.clauses then s
  else { s with clauses := s.clauses ++ [dedupAdj (sortBy leLit lits)] }

/-- Several `push_clause` calls in a row. -/
def pushAll (s : Cnf) : List Clause → Cnf
  | [] => s
  | c :: cs => (s.pushClause c).pushAll cs

/-- The defining clauses of an auxiliary literal (`cnf.rs:135-137`, `147-149`, `161-163`,
`173-176`). -/
def gateClauses (x a b : Lit) : Op → List Clause
  | .and => [[x.negated, a], [x.negated, b], [x, a.negated, b.negated]]
  | .or => [[x.negated, a, b], [x, a.negated], [x, b.negated]]
  | .impl => [[x.negated, a.negated, b], [x, a], [x, b.negated]]
  | .iff => [[x.negated, a.negated, b], [x.negated, a, b.negated], [x, a, b],
      [x, a.negated, b.negated]]

/-- The cache lookup, or a fresh auxiliary with its clauses (`cnf.rs:130-139` and alike). -/
def gate (s : Cnf) (op : Op) (a b : Lit) : Lit × Cnf :=
  match s.cache.get? (op, a, b) with
  | some x => (x, s)
  | none =>
    let x : Lit := ⟨s.numVars, true⟩
    let s1 : Cnf := { s with numVars := s.numVars + 1 }
    let s2 := s1.pushAll (gateClauses x a b op)
    (x, { s2 with cache := s2.cache.insert (op, a, b) x })

/-- `encode` (`cnf.rs:125-189`). -/
def encode : Expr → Cnf → Option (Lit × Cnf)
  | .not p, s =>
    match encode p s with
    | none => none
    | some (a, s1) => some (a.negated, s1)
  | .and p q, s =>
    match encode p s with
    | none => none
    | some (a, s1) =>
      match encode q s1 with
      | none => none
      | some (b, s2) => some (s2.gate .and (order2 a b).1 (order2 a b).2)
  | .or p q, s =>
    match encode p s with
    | none => none
    | some (a, s1) =>
      match encode q s1 with
      | none => none
      | some (b, s2) => some (s2.gate .or (order2 a b).1 (order2 a b).2)
  | .implies p q, s =>
    match encode p s with
    | none => none
    | some (a, s1) =>
      match encode q s1 with
      | none => none
      | some (b, s2) => some (s2.gate .impl a b)
  | .iff p q, s =>
    match encode p s with
    | none => none
    | some (a, s1) =>
      match encode q s1 with
      | none => none
      | some (b, s2) => some (s2.gate .iff (order2 a b).1 (order2 a b).2)
  | e, s =>
    match atomKey e with
    | none => none
    | some k => some (⟨(s.atomVar k).1, true⟩, (s.atomVar k).2)

/-- `lit_of_atom` (`cnf.rs:262-274`). -/
def litOfAtom (s : Cnf) : Expr → Option (Lit × Cnf)
  | .not p =>
    match atomKey p with
    | none => none
    | some k => some (⟨(s.atomVar k).1, false⟩, (s.atomVar k).2)
  | e =>
    match atomKey e with
    | none => none
    | some k => some (⟨(s.atomVar k).1, true⟩, (s.atomVar k).2)

end Cnf

/-- Number of nodes; the step budget of `clauseLits`. -/
def Expr.size : Expr → Nat
  | .and a b | .or a b | .implies a b | .iff a b => a.size + b.size + 1
  | .not a => a.size + 1
  | _ => 1

/-- How `clause_lits` splits a formula that is not a literal (`cnf.rs:232-258`). -/
inductive Shape where
  | two (a b : Expr)
  | one (a : Expr)
  | enc

/-- The `match` of `clause_lits` (`cnf.rs:232-258`). -/
def Expr.shape : Expr → Shape
  | .or a b => .two a b
  | .implies a b => .two (negateExpr a) b
  | .not (.and a b) => .two (negateExpr a) (negateExpr b)
  | .not (.not x) => .one x
  | _ => .enc

namespace Cnf

/-- `clause_lits` (`cnf.rs:228-259`) with a step budget. -/
def clauseLitsF : Nat → Cnf → Expr → Option (List Lit × Cnf)
  | 0, _, _ => none
  | n + 1, s, e =>
    match s.litOfAtom e with
    | some (l, s1) => some ([l], s1)
    | none =>
      match e.shape with
      | .two a b =>
        match clauseLitsF n s a with
        | none => none
        | some (u, s1) =>
          match clauseLitsF n s1 b with
          | none => none
          | some (v, s2) => some (u ++ v, s2)
      | .one a => clauseLitsF n s a
      | .enc =>
        match encode e s with
        | none => none
        | some (l, s1) => some ([l], s1)

/-- `clause_lits` (`cnf.rs:228-259`). The budget suffices: see `C23_encodable`. -/
def clauseLits (s : Cnf) (e : Expr) : Option (List Lit × Cnf) := clauseLitsF e.size s e

/-- `assert` (`cnf.rs:198-217`). -/
def assert : Expr → Cnf → Option Cnf
  | .and a b, s =>
    match assert a s with
    | none => none
    | some s1 => assert b s1
  | .implies a b, s =>
    match s.clauseLits (negateExpr a) with
    | none => none
    | some (u, s1) =>
      match s1.clauseLits b with
      | none => none
      | some (v, s2) => some (s2.pushClause (u ++ v))
  | e, s =>
    match s.clauseLits e with
    | none => none
    | some (u, s1) => some (s1.pushClause u)

/-- `assert_neg` (`cnf.rs:221-223`). -/
def assertNeg (e : Expr) (s : Cnf) : Option Cnf := assert (negateExpr e) s

/-- Asserting premises in turn (`cnf.rs:57-63`, `rup.rs:35-38`). -/
def assertAll : List Expr → Cnf → Option Cnf
  | [], s => some s
  | p :: ps, s =>
    match assert p s with
    | none => none
    | some s1 => assertAll ps s1

/-- `from_premises` (`cnf.rs:57-63`). -/
def fromPremises (ps : List Expr) : Option Cnf := assertAll ps Cnf.new

/-- `atom_value` (`cnf.rs:83-87`), on a model given as a total assignment. -/
def atomValue (s : Cnf) (e : Expr) (τ : Nat → Bool) : Option Bool :=
  match atomKey e with
  | none => none
  | some k =>
    match s.atomOf.get? k with
    | none => none
    | some v => some (τ v)

end Cnf

/-- What the search engine returned: a model claim, or the original clauses it holds together with
the clauses it learned (`rup.rs:56-61`). The engine is a parameter of the model. -/
inductive Engine where
  | sat
  | unsat (original learned : List Clause)

/-- `Verdict` (`rup.rs:22-27`). -/
inductive Verdict where
  | entailed
  | notEntailed
  deriving DecidableEq, Repr

/-- `certified_from_cnf` (`rup.rs:50-68`): `none` is the code's `None`, the outer layer a panic of
the checker. -/
def certifiedFromCnf (engine : Nat → List Clause → Engine) (s : Cnf) (goal : Expr) :
    Option (Option Verdict) :=
  match s.assertNeg goal with
  | none => some none
  | some s1 =>
    match engine s1.numVars s1.clauses with
    | .sat => some (some .notEntailed)
    | .unsat original learned =>
      match checkRefutation s1.numVars original learned with
      | none => none
      | some true => some (some .entailed)
      | some false => some none

/-- `entails_certified` (`rup.rs:34-40`). -/
def entailsCertified (engine : Nat → List Clause → Engine) (ps : List Expr) (goal : Expr) :
    Option (Option Verdict) :=
  match Cnf.fromPremises ps with
  | none => some none
  | some s => certifiedFromCnf engine s goal

end Verif.Proof
