import Verif.Proof.Lit
import Verif.Common.Text
/-!
# DIMACS text

Models `crates/logicaffeine_proof/src/dimacs.rs`. `ws` is the Unicode white-space predicate of
`str::trim` and `split_whitespace`.
-/

namespace Verif.Proof

/-- `DimacsCnf` (`dimacs.rs:17-21`). -/
structure DimacsCnf where
  numVars : Nat
  clauses : List Clause
  deriving DecidableEq, Repr

/-- `DimacsError` (`dimacs.rs:24-36`), without the offending text. -/
inductive DimacsError where
  | missingHeader
  | malformedHeader
  | varOutOfRange
  | invalidToken
  | unterminatedClause
  deriving DecidableEq, Repr

/-- A carriage return before the line feed is not part of the line. -/
def stripCr (l : List Char) : List Char := if l.getLast? = some '\r' then l.dropLast else l

/-- `str::lines`. -/
def linesFrom (cur : List Char) : List Char → List (List Char)
  | [] => if cur = [] then [] else [cur]
  | c :: cs => if c = '\n' then stripCr cur :: linesFrom [] cs else linesFrom (cur ++ [c]) cs

/-- `str::split_whitespace`. -/
def wordsFrom (ws : Char → Bool) (cur : List Char) : List Char → List (List Char)
  | [] => if cur = [] then [] else [cur]
  | c :: cs =>
    if ws c then (if cur = [] then wordsFrom ws [] cs else cur :: wordsFrom ws [] cs)
    else wordsFrom ws (cur ++ [c]) cs

/-- A leading `+` is allowed in numbers. -/
def stripPlus : List Char → List Char
  | '+' :: t => t
  | t => t

/-- `str::parse::<usize>`. -/
def parseUsize (s : List Char) : Option Nat :=
  if stripPlus s = [] ∨ ¬ allDigits (stripPlus s) then none
  else if digitsVal (stripPlus s) < 2 ^ 64 then some (digitsVal (stripPlus s)) else none

/-- `str::parse::<i64>`. -/
def parseI64 (s : List Char) : Option Int :=
  match parseInt s with
  | none => none
  | some n => if -(2 ^ 63) ≤ n ∧ n < 2 ^ 63 then some n else none

/-- The packed literal `Lit::new((v - 1) as u32, positive)` (`dimacs.rs:85`, `cdcl.rs:32-47`): the
cast keeps 32 bits of the variable and the packing shifts one of them out. -/
def packLit (v : Nat) (positive : Bool) : Lit := ⟨(v - 1) % 2 ^ 31, positive⟩

/-- Parser state: header, finished clauses, current clause. -/
structure DState where
  header : Option Nat
  clauses : List Clause
  current : Clause
  deriving DecidableEq, Repr

/-- One token of a clause line (`dimacs.rs:77-87`). -/
def dToken (nv : Nat) (st : DState) (tok : List Char) : Except DimacsError DState :=
  match parseI64 tok with
  | none => .error .invalidToken
  | some n =>
    if n = 0 then .ok { st with clauses := st.clauses ++ [st.current], current := [] }
    else if n.natAbs > nv then .error .varOutOfRange
    else .ok { st with current := st.current ++ [packLit n.natAbs (decide (n > 0))] }

/-- The tokens of a clause line in turn. -/
def dTokens (nv : Nat) (st : DState) : List (List Char) → Except DimacsError DState
  | [] => .ok st
  | t :: ts =>
    match dToken nv st t with
    | .error e => .error e
    | .ok st' => dTokens nv st' ts

/-- The header line after `p ` (`dimacs.rs:60-72`). -/
def dHeader (ws : Char → Bool) (st : DState) (rest : List Char) : Except DimacsError DState :=
  if st.header.isSome then .error .malformedHeader
  else
    match wordsFrom ws [] rest with
    | [w, nv, nc] =>
      if w = ['c', 'n', 'f'] then
        match parseUsize nv with
        | none => .error .malformedHeader
        | some n =>
          match parseUsize nc with
          | none => .error .malformedHeader
          | some _ => .ok { st with header := some n }
      else .error .malformedHeader
    | _ => .error .malformedHeader

/-- One line (`dimacs.rs:55-89`). -/
def dLine (ws : Char → Bool) (st : DState) (raw : List Char) : Except DimacsError DState :=
  match trim ws raw with
  | [] => .ok st
  | 'c' :: _ => .ok st
  | 'p' :: ' ' :: rest => dHeader ws st rest
  | line =>
    match st.header with
    | none => .error .missingHeader
    | some nv => dTokens nv st (wordsFrom ws [] line)

/-- All lines in turn. -/
def dLines (ws : Char → Bool) (st : DState) : List (List Char) → Except DimacsError DState
  | [] => .ok st
  | l :: ls =>
    match dLine ws st l with
    | .error e => .error e
    | .ok st' => dLines ws st' ls

/-- `parse` (`dimacs.rs:50-97`). -/
def dimacsParse (ws : Char → Bool) (input : List Char) : Except DimacsError DimacsCnf :=
  match dLines ws ⟨none, [], []⟩ (linesFrom [] input) with
  | .error e => .error e
  | .ok st =>
    match st.header with
    | none => .error .missingHeader
    | some nv => if st.current ≠ [] then .error .unterminatedClause else .ok ⟨nv, st.clauses⟩

/-- One printed literal (`dimacs.rs:104-106`). -/
def showLit (l : Lit) : List Char :=
  showInt (if l.pos then ((l.var + 1 : Nat) : Int) else -((l.var + 1 : Nat) : Int)) ++ [' ']

/-- One printed clause (`dimacs.rs:102-108`). -/
def showClause (c : Clause) : List Char := c.flatMap showLit ++ ['0', '\n']

/-- `print` (`dimacs.rs:100-111`). -/
def dimacsPrint (x : DimacsCnf) : List Char :=
  ['p', ' ', 'c', 'n', 'f', ' '] ++ dec x.numVars ++ [' '] ++ dec x.clauses.length ++ ['\n'] ++
    x.clauses.flatMap showClause

end Verif.Proof
